import Verif.Spec.FullFs
/-!
# Specification: calls on names take effect at one moment

Calls of any number of threads overlap.  A call on names is to have its effect at one moment between its beginning and its end, and its answer is to be
true at that moment.  A call finds the directory by following its path, one component after the other, at moments of its own.
-/

namespace Securefs.Spec

/-- A moment of a call: the state before and after one of its sections. -/
abbrev Moment := FullFs × FullFs

/-- The moment of thread `i` that an event is, if it is one: a step of a thread that has a section to execute. -/
def momentOf (cfg : FsCfg) (i : Nat) (s : FullSys) : FullEvent → List Moment
  | .step j =>
    if j = i then
      match s.threads[i]? with
      | some (.sec _ _) => [(s.fs, (s.step cfg (.step j)).fs)]
      | _ => []
    else []
  | _ => []

/-- The moments of the thread with number `i` in a history. -/
def moments (cfg : FsCfg) (i : Nat) : FullSys → List FullEvent → List Moment
  | _, [] => []
  | s, e :: rest => momentOf cfg i s e ++ moments cfg i (s.step cfg e) rest

/-- All names in all directories are what they were. -/
def Moment.calm (same : Bytes → Bytes → Bool) (m : Moment) : Prop :=
  ∀ d name, nameAt same (viewOf m.2) d name = nameAt same (viewOf m.1) d name

/-- A name that was not there is there, and that is all. -/
def Moment.added (same : Bytes → Bytes → Bool) (m : Moment) (d name : Bytes) (x : Bytes × Nat) : Prop :=
  nameAt same (viewOf m.1) d name = none ∧ ∀ d' n,
    nameAt same (viewOf m.2) d' n = if d' = d ∧ same n name = true then some x else nameAt same (viewOf m.1) d' n

/-- A name that was there is not there any more, and that is all. -/
def Moment.removed (same : Bytes → Bytes → Bool) (m : Moment) (d name : Bytes) (x : Bytes × Nat) : Prop :=
  nameAt same (viewOf m.1) d name = some x ∧ ∀ d' n,
    nameAt same (viewOf m.2) d' n = if d' = d ∧ same n name = true then none else nameAt same (viewOf m.1) d' n

/-- Two places are the same. -/
def SamePlace (same : Bytes → Bytes → Bool) (d n d' n' : Bytes) : Prop := d = d' ∧ same n n' = true

/-- The place `(d', n')` has what the place `(d, n)` had, which has nothing any more, unless they are the same; nothing else is changed.  If they are two
    names of one file, nothing is changed at all. -/
def Moment.moved (same : Bytes → Bytes → Bool) (m : Moment) (d n d' n' : Bytes) : Prop :=
  ∃ x, nameAt same (viewOf m.1) d n = some x ∧
    ((¬ SamePlace same d n d' n' ∧ (∃ y, nameAt same (viewOf m.1) d' n' = some y ∧ y.1 = x.1) ∧ m.calm same) ∨
      ((SamePlace same d n d' n' ∨ ∀ y, nameAt same (viewOf m.1) d' n' = some y → y.1 ≠ x.1) ∧
        (∀ a, SamePlace same d' n' d' a → nameAt same (viewOf m.2) d' a = some x) ∧
        (∀ b a, ¬ SamePlace same d' n' b a → SamePlace same d n b a → nameAt same (viewOf m.2) b a = none) ∧
        ∀ b a, ¬ SamePlace same d' n' b a → ¬ SamePlace same d n b a → nameAt same (viewOf m.2) b a = nameAt same (viewOf m.1) b a))

/-- Following components from a directory at moments of a call: each is a name in the directory that has been reached, at some moment, and then at a later
    one the next is looked up.  The target of a symbolic link is followed from the directory in which the link is. -/
inductive Leads (same : Bytes → Bytes → Bool) : List Moment → Bytes → List Bytes → Bytes → Prop
  | here (d : Bytes) : Leads same [] d [] d
  | wait (m : Moment) {ms : List Moment} {d : Bytes} {l : List Bytes} {c : Bytes} (h : Leads same ms d l c) : Leads same (m :: ms) d l c
  | dot {ms : List Moment} {d : Bytes} {l : List Bytes} {c : Bytes} (h : Leads same ms d l c) : Leads same ms d ([46] :: l) c
  | up (m : Moment) {ms : List Moment} {d : Bytes} {n : Inode} {l : List Bytes} {c : Bytes} (hn : m.1.get d = some n)
      (h : Leads same ms n.parent l c) : Leads same (m :: ms) d ([46, 46] :: l) c
  | into (m : Moment) {ms : List Moment} {d s : Bytes} {x : Bytes × Nat} {l : List Bytes} {c : Bytes}
      (hs : s ≠ [46] ∧ s ≠ [46, 46]) (hx : nameAt same (viewOf m.1) d s = some x) (ht : x.2 ≠ 10) (h : Leads same ms x.1 l c) : Leads same (m :: ms) d (s :: l) c
  | link (m : Moment) (w : List Moment) (m' : Moment) {ms ms' : List Moment} {d s : Bytes} {x : Bytes × Nat} {f : AFile} {l : List Bytes} {b c : Bytes}
      (hs : s ≠ [46] ∧ s ≠ [46, 46]) (hx : nameAt same (viewOf m.1) d s = some x) (ht : x.2 = 10) (hf : viewOf m'.1 x.1 = some f) (h : Leads same ms d (parts f.data) b)
      (h' : Leads same ms' b l c) : Leads same (m :: (w ++ m' :: (ms ++ ms'))) d (s :: l) c

/-- Following components comes to one that is missing at a moment of the call. -/
inductive Nowhere (same : Bytes → Bytes → Bool) : List Moment → Bytes → List Bytes → Prop
  | gone (m : Moment) {ms : List Moment} {d s : Bytes} {l : List Bytes} (hs : s ≠ [46] ∧ s ≠ [46, 46]) (hx : nameAt same (viewOf m.1) d s = none) :
      Nowhere same (m :: ms) d (s :: l)
  | after {ms ms' : List Moment} {d c : Bytes} {l l' : List Bytes} (h : Leads same ms d l c) (h' : Nowhere same ms' c l') :
      Nowhere same (ms ++ ms') d (l ++ l')
  | link (m : Moment) (w : List Moment) (m' : Moment) {ms : List Moment} {d s : Bytes} {x : Bytes × Nat} {f : AFile} {l : List Bytes}
      (hs : s ≠ [46] ∧ s ≠ [46, 46]) (hx : nameAt same (viewOf m.1) d s = some x) (ht : x.2 = 10) (hf : viewOf m'.1 x.1 = some f)
      (h : Nowhere same ms d (parts f.data)) : Nowhere same (m :: (w ++ m' :: ms)) d (s :: l)

/-- The path leads to a name in a directory. -/
def LedTo (same : Bytes → Bytes → Bool) (ms : List Moment) (path d name : Bytes) : Prop :=
  (parts path = [] ∧ d = kRootId ∧ name = []) ∨ ∃ l, parts path = l ++ [name] ∧ Leads same ms kRootId l d

/-- The path leads to a file; `follow` tells whether a symbolic link at the end is followed. -/
def FoundFile (same : Bytes → Bytes → Bool) (ms : List Moment) (path : Bytes) (follow : Bool) (id : Bytes) : Prop :=
  ((path = [] ∨ path = [47]) ∧ id = kRootId) ∨
    ∃ a m b d name x, ms = a ++ m :: b ∧ LedTo same a path d name ∧ nameAt same (viewOf m.1) d name = some x ∧
      (((follow = false ∨ x.2 ≠ 10) ∧ id = x.1) ∨
        (follow = true ∧ x.2 = 10 ∧ ∃ w m' b' f, b = w ++ m' :: b' ∧ viewOf m'.1 x.1 = some f ∧ Leads same b' d (parts f.data) id))

/-- The name is missing at some moment in the directory to which the path leads. -/
def MissingName (same : Bytes → Bytes → Bool) (ms : List Moment) (path : Bytes) : Prop :=
  ∃ a m b d name, ms = a ++ m :: b ∧ LedTo same a path d name ∧ nameAt same (viewOf m.1) d name = none

/-- There is no file: the name is missing, or it is a symbolic link that is to be followed and does not lead to a file. -/
def MissingFile (same : Bytes → Bytes → Bool) (ms : List Moment) (path : Bytes) (follow : Bool) : Prop :=
  MissingName same ms path ∨
    (follow = true ∧ ∃ a m w m' b d name x f, ms = a ++ m :: (w ++ m' :: b) ∧ LedTo same a path d name ∧ nameAt same (viewOf m.1) d name = some x ∧
      x.2 = 10 ∧ viewOf m'.1 x.1 = some f ∧ Nowhere same b d (parts f.data))

/-- There is one moment with the property `P`, which is also about what came before and after; at the other moments no name is changed. -/
def AtOneMoment (same : Bytes → Bytes → Bool) (ms : List Moment) (P : List Moment → Moment → List Moment → Prop) : Prop :=
  ∃ a m b, ms = a ++ m :: b ∧ (∀ x ∈ a, Moment.calm same x) ∧ (∀ x ∈ b, Moment.calm same x) ∧ P a m b

/-- No name is changed. -/
def AllCalm (same : Bytes → Bytes → Bool) (ms : List Moment) : Prop := ∀ m ∈ ms, Moment.calm same m

/-- Names are changed at no more than one moment. -/
def AtMostOnce (same : Bytes → Bytes → Bool) (ms : List Moment) : Prop := AllCalm same ms ∨ AtOneMoment same ms fun _ _ _ => True

/-- What a call that has returned `v` has done, and at which moment. -/
def Effect (same : Bytes → Bytes → Bool) (ms : List Moment) (v : Int) : FullOp → Prop
  | .create path _ _ _ id => v = 0 ∧ AtOneMoment same ms fun a m _ => ∃ d name, LedTo same a path d name ∧ m.added same d name (id, 8)
  | .mkdir path _ _ _ id => v = 0 ∧ AtOneMoment same ms fun a m _ => ∃ d name, LedTo same a path d name ∧ m.added same d name (id, 4)
  | .symlink _ path _ _ id => v = 0 ∧ AtOneMoment same ms fun a m _ => ∃ d name, LedTo same a path d name ∧ m.added same d name (id, 10)
  | .unlink path =>
    (v = 0 ∧ AtOneMoment same ms fun a m _ => ∃ d name x, LedTo same a path d name ∧ m.removed same d name x) ∨
      (v = -2 ∧ AllCalm same ms ∧ MissingName same ms path)
  | .rmdir path =>
    (v = 0 ∧ AtOneMoment same ms fun a m b => ∃ d name x, LedTo same a path d name ∧ m.removed same d name x ∧
      ∃ m' ∈ b, ∀ n, nameAt same (viewOf m'.1) x.1 n = none) ∨
      (v = -2 ∧ AllCalm same ms ∧ MissingName same ms path)
  | .link src path =>
    (v = 0 ∧ AtOneMoment same ms fun a m _ => ∃ d name x, FoundFile same a src true x.1 ∧ LedTo same a path d name ∧ m.added same d name x) ∨
      (v = -17 ∧ AllCalm same ms ∧ ∃ a m b d name, ms = a ++ m :: b ∧ LedTo same a path d name ∧ nameAt same (viewOf m.1) d name ≠ none) ∨
      (v = -2 ∧ AllCalm same ms ∧ MissingFile same ms src true)
  | .rename src path =>
    (v = 0 ∧ AtOneMoment same ms fun a m _ => ∃ d n d' n', LedTo same a src d n ∧ LedTo same a path d' n' ∧ m.moved same d n d' n') ∨
      (v = -2 ∧ AllCalm same ms ∧ MissingName same ms src)
  | .chmod path _ | .chown path _ _ | .utimens path _ _ | .getattr path =>
    AllCalm same ms ∧ ((v = 0 ∧ ∃ id, FoundFile same ms path false id) ∨ (v = -2 ∧ MissingFile same ms path false))
  | .open path _ | .truncate path _ => AllCalm same ms ∧ ((v = 0 ∧ ∃ id, FoundFile same ms path true id) ∨ (v = -2 ∧ MissingFile same ms path true))
  | .opendir path =>
    AllCalm same ms ∧ (((v = 0 ∨ v = -20) ∧ ∃ id, FoundFile same ms path true id) ∨ (v = -2 ∧ MissingFile same ms path true))
  | .readlink path size =>
    AllCalm same ms ∧ ((v = -14 ∧ size = 0) ∨ (v = -21 ∧ path = [47]) ∨ (v = 0 ∧ ∃ id, FoundFile same ms path false id) ∨
      (v = -2 ∧ MissingFile same ms path false))
  | _ => AllCalm same ms

/-- What a call that ends with an exception has done: nothing to names if it asks, or makes a hard link, or creates and ends with anything but `ENOENT`
    (for symbolic links also `EPERM`), or unlinks and ends with `EPERM` or `ENAMETOOLONG`; otherwise it has changed names at one moment at most. -/
def Refused (same : Bytes → Bytes → Bool) (ms : List Moment) (e : Err) : FullOp → Prop
  | .create _ _ _ _ _ | .mkdir _ _ _ _ _ => AtMostOnce same ms ∧ (e ≠ .vfs 2 → AllCalm same ms)
  | .symlink _ _ _ _ _ => AtMostOnce same ms ∧ (e ≠ .vfs 2 → e ≠ .vfs 1 → AllCalm same ms)
  | .unlink _ => AtMostOnce same ms ∧ (e = .vfs 1 ∨ e = .vfs 36 → AllCalm same ms)
  | .rmdir _ =>
    AtMostOnce same ms ∧ (e = .vfs 36 → AllCalm same ms) ∧
      (e = .vfs 39 → AtOneMoment same ms fun _ m b => ∃ d name x, m.removed same d name x ∧ ∃ m' ∈ b, ∃ n, nameAt same (viewOf m'.1) x.1 n ≠ none)
  | .rename _ _ => AtMostOnce same ms
  | _ => AllCalm same ms

end Securefs.Spec
