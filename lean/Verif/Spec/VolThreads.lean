import Verif.Model.VolThreads
import Verif.Spec.FullMix
/-!
# Specification: threads on a volume of the full format are threads on the plain file system

The ideal volume of C85, with many operations under way.  Its sections are those of `FullSys`, about which C60, C101 and C106 speak: it is
`FullSys` with the full answers and with the handles that the caller holds.
-/

namespace Securefs.Spec

/-- The ideal volume: the files, what the operations have still to do, and the handles that the caller holds. -/
structure IdealThreads where
  fs : FullFs
  threads : List (Prog VolAnswer)
  held : List FH

/-- The handle that an operation hands to the caller when it ends. -/
def handed : Prog VolAnswer → List FH
  | .ret (.handle _ (some h)) => [h]
  | _ => []

/-- What the ideal volume does at an event. -/
inductive IdealMove (cfg : FsCfg) : IdealThreads → VolSysEvent → IdealThreads → Prop
  | start {I : IdealThreads} (op : FullOp) :
      IdealMove cfg I (.start op) ⟨I.fs, I.threads ++ [idealOp cfg op], handed (idealOp cfg op) ++ I.held⟩
  | step {I : IdealThreads} {i : Nat} {β : Type} {f : Sec β} {k : β → Prog VolAnswer} {b : β} {fs' : FullFs}
      (hi : I.threads[i]? = some (.sec f k)) (hf : f I.fs = (.ok b, fs')) :
      IdealMove cfg I (.step i) ⟨fs', I.threads.set i (k b), handed (k b) ++ I.held⟩
  | stepError {I : IdealThreads} {i : Nat} {β : Type} {f : Sec β} {k : β → Prog VolAnswer} {e : Err} {fs' : FullFs}
      (hi : I.threads[i]? = some (.sec f k)) (hf : f I.fs = (.error e, fs')) :
      IdealMove cfg I (.step i) ⟨fs', I.threads.set i (.throw e), I.held⟩
  | idle {I : IdealThreads} {i : Nat} (hi : ∀ β (f : Sec β) k, I.threads[i]? ≠ some (.sec f k)) : IdealMove cfg I (.step i) I
  | fail {I : IdealThreads} {i : Nat} {e : Err} {β : Type} {f : Sec β} {k : β → Prog VolAnswer} (hi : I.threads[i]? = some (.sec f k)) :
      IdealMove cfg I (.fail i e) ⟨I.fs, I.threads.set i (.throw e), I.held⟩
  | noFail {I : IdealThreads} {i : Nat} {e : Err} (hi : ∀ β (f : Sec β) k, I.threads[i]? ≠ some (.sec f k)) : IdealMove cfg I (.fail i e) I
  | release {I : IdealThreads} (h : FH) :
      IdealMove cfg I (.release h) ⟨I.fs, I.threads, if (fullRelease h).2 then I.held.erase h else I.held⟩
  | releasedir {I : IdealThreads} (h : FH) :
      IdealMove cfg I (.releasedir h) ⟨I.fs, I.threads, if (fullReleasedir h).2 then I.held.erase h else I.held⟩
  | tick {I : IdealThreads} (now : TimeSpec) : IdealMove cfg I (.tick now) ⟨{ I.fs with now := now }, I.threads, I.held⟩
  | close {I : IdealThreads} (id : Bytes) : IdealMove cfg I (.close id) I
  | gone {I : IdealThreads} (id : Bytes) (h : ∀ fh ∈ I.held, fh.id ≠ id) :
      IdealMove cfg I (.close id) ⟨(FullSys.step cfg ⟨I.fs, []⟩ (.reap id)).fs, I.threads, I.held⟩
  | eject {I : IdealThreads} (id : Bytes) (ids : List Bytes) : IdealMove cfg I (.eject id) ⟨forget cfg ids I.fs, I.threads, I.held⟩
  | remount {I : IdealThreads} (ids : List Bytes) (h : ∀ β (f : Sec β) k, Prog.sec f k ∉ I.threads) :
      IdealMove cfg I .remount ⟨forget cfg ids I.fs, I.threads, []⟩
  | busy {I : IdealThreads} {β : Type} {f : Sec β} {k : β → Prog VolAnswer} (h : Prog.sec f k ∈ I.threads) : IdealMove cfg I .remount I

/-- What is assumed of an operation when it starts: the caller holds the handle, names have no zero bytes, times are valid, nothing grows too
    large, and new identifiers have 32 bytes and are not drawn for files of different kinds. -/
structure StartWithin (E : FileEnv) (kind : Bytes → Nat) (I : IdealThreads) (op : FullOp) : Prop where
  handle : ∀ h, FullOp.handle? op = some h → h ∈ I.held
  names : ∀ path ∈ FullOp.adds op, (0 : UInt8) ∉ path
  kinds : ∀ id k, FullOp.makes? op = some (id, k) → id.length = 32 ∧ kind id = k
  times : ∀ path garbage ts, op = .utimens path garbage ts → AttrOpValid (.utimens garbage ts)
  size : FullOp.reach op ≤ fileLimit E

/-- What is assumed of an event: no directory is full before a section, the clock is valid, and the caller releases what it holds. -/
def MoveWithin (E : FileEnv) (kind : Bytes → Nat) (I : IdealThreads) : VolSysEvent → Prop
  | .start op => StartWithin E kind I op
  | .step _ => DirRoom I.fs
  | .release h => h ∈ I.held
  | .releasedir h => h ∈ I.held
  | .tick now => ValidTime now
  | _ => True

/-- A history of the ideal volume that stays within the limits. -/
inductive IdealMoves (E : FileEnv) (cfg : FsCfg) (kind : Bytes → Nat) : IdealThreads → List VolSysEvent → IdealThreads → Prop
  | nil {I} : IdealMoves E cfg kind I [] I
  | cons {I I1 I2 e es} : MoveWithin E kind I e → IdealMove cfg I e I1 → IdealMoves E cfg kind I1 es I2 → IdealMoves E cfg kind I (e :: es) I2

/-- Two operations: both under way, or both ended with like answers or with the same exception. -/
def ThreadLike : VProg VolAnswer → Prog VolAnswer → Prop
  | .ret a, .ret b => VolAnswerLike a b
  | .throw e, .throw e' => e = e'
  | .sec _ _, .sec _ _ => True
  | .take _ _, .sec _ _ => True
  | _, _ => False

/-- The number that an operation returns. -/
def VolAnswer.result : VolAnswer → Int
  | .code n => n
  | .bytes n _ => n
  | .stat n _ => n
  | .items n _ => n
  | .handle n _ => n

/-- An operation that returns only the number. -/
def numbered (p : Prog VolAnswer) : Prog Int := p.bind fun a => .ret (VolAnswer.result a)

/-- The events of `FullSys` that an event of the ideal volume consists of. -/
inductive AsFull : VolSysEvent → List FullEvent → Prop
  | start (op) : AsFull (.start op) [.start op]
  | step (i) : AsFull (.step i) [.step i]
  | fail (i e) : AsFull (.fail i e) [.fail i e]
  | release (h) : AsFull (.release h) []
  | releasedir (h) : AsFull (.releasedir h) []
  | tick (now) : AsFull (.tick now) [.tick now]
  | close (id) : AsFull (.close id) []
  | gone (id) : AsFull (.close id) [.reap id]
  | eject (id) (ids : List Bytes) : AsFull (.eject id) (ids.map .evict)
  | remount (ids : List Bytes) : AsFull .remount (ids.map .evict)

/-- The same for a history. -/
inductive AllAsFull : List VolSysEvent → List FullEvent → Prop
  | nil : AllAsFull [] []
  | cons {e es l ls} : AsFull e l → AllAsFull es ls → AllAsFull (e :: es) (l ++ ls)

end Securefs.Spec
