import Verif.Proofs.LiteVolumeMove
/-!
# The lite volume shows a plain tree: opening files, reading and writing
-/

namespace Securefs

open Posix Props
open Spec (SameVal Agrees)

section
variable {V : LVol} {U L : Bytes → Prop} {enc full : Bytes → Bytes} {s : LSys} {a : Spec.Vol}

/-! ## The bytes of files -/

theorem stream_step {C : LiteCfg} (hC : C.WF) {o : LiteObj} {b c : Bytes} (h : LiteCfg.SRepr C (o, ⟨b, 0⟩) c) (n : Nat) (op : Spec.Op)
    (hx : op.extent ≤ liteMaxBlocks * C.bs) :
    ∃ b' n', C.stream.step (o, ⟨b, n⟩) op = .ok ((o, ⟨b', n'⟩), (Spec.step c op).2) ∧ LiteCfg.SRepr C (o, ⟨b', 0⟩) (Spec.step c op).1 := by
  have hR : LiteCfg.SRepr C (o, ⟨b, n⟩) c := ⟨⟨h.1.header, h.1.idLen, h.1.enc⟩, h.2⟩
  have key : ∃ st', C.stream.step (o, ⟨b, n⟩) op = .ok ((o, st'), (Spec.step c op).2) ∧ LiteCfg.SRepr C (o, st') (Spec.step c op).1 := by
    have H := LiteCfg.stream_refines hC
    cases op with
    | read off len =>
      refine ⟨_, ?_, hR⟩
      simp only [Stream.step, H.read_ok off len hR hx, bind, Except.bind]
      rfl
    | write off d =>
      obtain ⟨st', g1, g2⟩ := (LiteCfg.refines hC).write_refines hR.1 off d hx
      refine ⟨st', ?_, g2, hR.2⟩
      simp only [Stream.step, LiteCfg.stream, g1, bind, Except.bind]
      rfl
    | resize m =>
      obtain ⟨st', g1, g2⟩ := (LiteCfg.refines hC).resize_refines hR.1 m hx
      refine ⟨st', ?_, g2, hR.2⟩
      simp only [Stream.step, LiteCfg.stream, g1, bind, Except.bind]
      rfl
    | size =>
      refine ⟨_, ?_, hR⟩
      simp only [Stream.step, H.size_ok hR]
      rfl
    | reopen =>
      refine ⟨_, ?_, hR⟩
      simp only [Stream.step, LiteCfg.stream, LiteCfg.openFile_existing hC hR.1 hR.2, bind, Except.bind]
      rfl
  obtain ⟨⟨b', n'⟩, g1, g2⟩ := key
  exact ⟨b', n', g1, ⟨⟨g2.1.header, g2.1.idLen, g2.1.enc⟩, g2.2⟩⟩

/-- The object of a file is determined by the file. -/
theorem obj_eq {C : LiteCfg} (hC : C.WF) {o o' : LiteObj} {b c c' : Bytes} (h : LiteCfg.SRepr C (o, ⟨b, 0⟩) c) (h' : LiteCfg.SRepr C (o', ⟨b, 0⟩) c') : o = o' := by
  have e := LiteCfg.openFile_existing hC h.1 h.2
  have e' := LiteCfg.openFile_existing hC h'.1 h'.2
  have e : C.openFile ⟨b, 0⟩ = .ok (o, ⟨b, 0⟩) := e
  have e' : C.openFile ⟨b, 0⟩ = .ok (o', ⟨b, 0⟩) := e'
  rw [e] at e'
  cases e'
  rfl

/-- After a change of the bytes of a file. -/
theorem Shows.wrote (hC : V.cfg.WF) (H : Shows V U L enc full s a) {i : Nat} {o : LiteObj} {b c b' c' : Bytes} (hA : a.fs.data i = some c)
    (hB : s.back.data i = some b) (hR : LiteCfg.SRepr V.cfg (o, ⟨b, 0⟩) c) (hR' : LiteCfg.SRepr V.cfg (o, ⟨b', 0⟩) c') (n : Nat) :
    Shows V U L enc full { s with back := s.back.setData i b', rng := n } { a with fs := a.fs.setData i c' } := by
  refine ⟨H.tree.setData i ⟨o, hR'⟩, fun d p hp => H.covered d p (hasEntry_setData hp), H.good, fun k hk => ?_, forall2_map ?_ H.handles⟩
  · obtain ⟨r1, r2⟩ := H.tables k hk
    exact ⟨by rw [isDir_setData]; exact r1, r2⟩
  · intro x y hxy
    cases hxy with
    | closed => exact .closed
    | file j o2 c2 b2 h1 h2 h3 =>
      by_cases hj : j = i
      · subst hj
        rw [hA] at h1; cases h1
        rw [hB] at h2; cases h2
        cases obj_eq hC hR h3
        refine .file j o c' b' ?_ ?_ hR'
        · rw [data_setData, if_pos rfl, hA]; rfl
        · rw [data_setData, if_pos rfl, hB]; rfl
      · refine .file j o2 c2 b2 ?_ ?_ h3
        · rw [data_setData, if_neg hj]; exact h1
        · rw [data_setData, if_neg hj]; exact h2
    | dir j path b2 h1 h2 => exact .dir j path b2 h1 h2

/-- A call on an open file. -/
theorem onFile_ok (hC : V.cfg.WF) (H : Shows V U L enc full s a) {i : Nat} {o : LiteObj} {b c : Bytes} (hA : a.fs.data i = some c)
    (hB : s.back.data i = some b) (hR : LiteCfg.SRepr V.cfg (o, ⟨b, 0⟩) c) (op : Spec.Op) (hx : op.extent ≤ liteMaxBlocks * V.cfg.bs) :
    ∃ s', V.onFile i o op s = (.ok (Spec.step c op).2, s') ∧ Shows V U L enc full s' { a with fs := a.fs.setData i (Spec.step c op).1 } := by
  obtain ⟨b', n', g1, g2⟩ := stream_step hC hR s.rng op hx
  refine ⟨_, ?_, H.wrote hC hA hB hR g2 n'⟩
  unfold LVol.onFile
  rw [hB]
  dsimp only
  rw [g1]

theorem sim_onHandle (hC : V.cfg.WF) (H : Shows V U L enc full s a) (h : Nat) {i : Nat} (hx : a.handles[h]? = some (some (.file i)))
    (op : Spec.Op) (hlim : op.extent ≤ liteMaxBlocks * V.cfg.bs) (f : Spec.Out → Spec.Val) (g : Bytes → Bytes × Spec.Val)
    (hg : ∀ c, (g c).1 = (Spec.step c op).1 ∧ (g c).2 = f (Spec.step c op).2 ∧ SameVal (g c).2 (g c).2) :
    VolSim V U L enc full (LVol.val f (V.onHandle h op s)) (a.onFile h g) := by
  obtain ⟨y, hy, hr⟩ := H.handle hx
  cases hr with
  | file _ o c b hA hB hR =>
    obtain ⟨s', g1, g2⟩ := onFile_ok hC H hA hB hR op hlim
    unfold LVol.onHandle LVol.fileAt
    rw [hy]
    dsimp only
    rw [g1]
    unfold Spec.Vol.onFile
    rw [hx]
    dsimp only
    rw [hA]
    dsimp only
    obtain ⟨e1, e2, e3⟩ := hg c
    rw [e1]
    refine ⟨?_, g2⟩
    show SameVal (g c).2 (f (Spec.step c op).2)
    rw [← e2]
    exact e3

theorem sim_read (hC : V.cfg.WF) (H : Shows V U L enc full s a) (fault : Option Nat) (h off len : Nat) {i : Nat} (hx : a.handles[h]? = some (some (.file i)))
    (hlim : off + len ≤ liteMaxBlocks * V.cfg.bs) :
    VolSim V U L enc full (V.step s fault (.read h off len)) (a.step fault (.read h off len)) := by
  have : a.step fault (.read h off len) = a.onFile h fun c => (c, .bytes (Spec.read c off len)) := by cases fault <;> rfl
  rw [this]
  exact sim_onHandle hC H h hx (.read off len) hlim (LVol.outVal 0) _ (fun c => ⟨rfl, rfl, rfl⟩)

theorem sim_write (hC : V.cfg.WF) (H : Shows V U L enc full s a) (fault : Option Nat) (h off : Nat) (d : Bytes) {i : Nat}
    (hx : a.handles[h]? = some (some (.file i))) (hlim : off + d.length ≤ liteMaxBlocks * V.cfg.bs) :
    VolSim V U L enc full (V.step s fault (.write h off d)) (a.step fault (.write h off d)) := by
  have : a.step fault (.write h off d) = a.onFile h fun c => (Spec.write c off d, .count d.length) := by cases fault <;> rfl
  rw [this]
  exact sim_onHandle hC H h hx (.write off d) hlim (LVol.outVal d.length) _ (fun c => ⟨rfl, rfl, rfl⟩)

theorem sim_ftruncate (hC : V.cfg.WF) (H : Shows V U L enc full s a) (fault : Option Nat) (h n : Nat) {i : Nat}
    (hx : a.handles[h]? = some (some (.file i))) (hlim : n ≤ liteMaxBlocks * V.cfg.bs) :
    VolSim V U L enc full (V.step s fault (.ftruncate h n)) (a.step fault (.ftruncate h n)) := by
  have : a.step fault (.ftruncate h n) = a.onFile h fun c => (Spec.resize c n, .done) := by cases fault <;> rfl
  rw [this]
  exact sim_onHandle hC H h hx (.resize n) hlim (fun _ => .done) _ (fun c => ⟨rfl, rfl, rfl⟩)

theorem node_of_data {A : Fs} {i : Nat} {c : Bytes} (h : A.data i = some c) : ∃ at', A i = some ⟨.file c, at'⟩ := by
  unfold Fs.data at h
  split at h
  · rename_i x at' hx; cases h; exact ⟨at', hx⟩
  · cases h

theorem sim_fgetattr (hC : V.cfg.WF) (H : Shows V U L enc full s a) (fault : Option Nat) (h : Nat) {i : Nat}
    (hx : a.handles[h]? = some (some (.file i))) :
    VolSim V U L enc full (V.step s fault (.fgetattr h)) (a.step fault (.fgetattr h)) := by
  have hi : a.step fault (.fgetattr h) = a.look .stat (a.fs.statNode i) := by
    have : a.act (.fgetattr h) = a.look .stat (a.fs.statNode i) := by
      unfold Spec.Vol.act
      dsimp only
      rw [hx]
    cases fault <;> exact this
  rw [hi]
  obtain ⟨y, hy, hr⟩ := H.handle hx
  cases hr with
  | file _ o c b hA hB hR =>
    show VolSim V U L enc full (LVol.val .stat (V.fgetattr h s, s)) _
    unfold LVol.fgetattr LVol.fileAt
    rw [hy]
    dsimp only
    obtain ⟨at', h1⟩ := node_of_data hA
    obtain ⟨at2, h2⟩ := node_of_data hB
    have hn := H.tree.nodes i
    rw [h1, h2] at hn
    cases hn
    unfold Fs.statNode
    rw [h1, h2]
    dsimp only [osRes]
    rw [hB]
    dsimp only
    have hR2 : LiteCfg.Repr V.cfg o ⟨b, s.rng⟩ c := ⟨hR.1.header, hR.1.idLen, hR.1.enc⟩
    rw [LiteCfg.dev_size hC hR2]
    exact ⟨rfl, H⟩

/-! ## Opening a file that exists -/

theorem bit_and (k : Nat) (hk : k < 32) (x : BitVec 32) : x &&& BitVec.ofNat 32 (2 ^ k) ≠ 0 ↔ x.getLsbD k = true := by
  constructor
  · intro h
    by_contra hc
    apply h
    apply BitVec.eq_of_getLsbD_eq
    intro i hi
    rw [BitVec.getLsbD_and]
    by_cases e : i = k
    · subst e; simp [hc]
    · rw [BitVec.getLsbD_ofNat, Nat.testBit_two_pow_of_ne (fun h => e h.symm)]; simp
  · intro h h0
    have := congrArg (fun y => y.getLsbD k) h0
    simp only [BitVec.getLsbD_and, BitVec.getLsbD_ofNat, Nat.testBit_two_pow_self, h, hk, decide_true, Bool.and_true] at this
    simp at this

theorem open_creat (flags : BitVec 32) : openFlags flags &&& oCreat ≠ 0 ↔ flags.getLsbD 6 = true := by
  rw [← (C50_flags flags 0).2.2.2.2.1 6 (by omega) (by omega)]
  exact bit_and 6 (by omega) _

theorem open_trunc (flags : BitVec 32) : openFlags flags &&& oTrunc ≠ 0 ↔ flags.getLsbD 9 = true := by
  rw [← (C50_flags flags 0).2.2.2.2.1 9 (by omega) (by omega)]
  exact bit_and 9 (by omega) _

theorem data_set (A : Fs) (i k : Nat) (c : Bytes) (at' : Attr) : (A.set i ⟨.file c, at'⟩).data k = if k = i then some c else A.data k := by
  unfold Fs.data Fs.set
  by_cases h : k = i
  · simp only [if_pos h]
  · simp only [if_neg h]

theorem setData_set (A : Fs) (i : Nat) (c c' : Bytes) (at' : Attr) : (A.set i ⟨.file c, at'⟩).setData i c' = A.set i ⟨.file c', at'⟩ := by
  have h : (A.set i ⟨.file c, at'⟩) i = some ⟨.file c, at'⟩ := by unfold Fs.set; rw [if_pos rfl]
  unfold Fs.setData
  rw [h]
  dsimp only
  funext k
  unfold Fs.set
  split <;> rfl

/-- What `open` does to a file that exists. -/
def Opened (V : LVol) (U L : Bytes → Prop) (enc full : Bytes → Bytes) (a : Spec.Vol) (s : LSys) (i : Nat) (A' : Fs) (r : Res LHandle × LSys) : Prop :=
  ∃ o, r.1 = .ok (.file i o) ∧ r.2.handles = s.handles ∧ Shows V U L enc full r.2 { a with fs := A' } ∧
    HandleRel V U A' r.2.back (some (.file i)) (some (.file i o))

theorem openAt_old (hC : V.cfg.WF) (hT : Scheme V.tr U L enc full) (H : Shows V U L enc full s a) (cs : List Bytes) (hcs : ∀ c ∈ cs, U c)
    (flags : BitVec 32) (hcr : flags.getLsbD 6 = false) (at0 : Attr) (id : Nat)
    (htr : flags.getLsbD 9 = true → ∀ i, a.fs.walk 0 cs = .ok i → some (.file i) ∉ a.handles) :
    (∀ e, V.openAt (some e) cs flags at0 id s = (.error (.vfs e), s)) ∧
    (∀ e, a.fs.openPath (flags.getLsbD 9) cs = .error e → V.openAt none cs flags at0 id s = (.error (.vfs e), s)) ∧
    (∀ i A', a.fs.openPath (flags.getLsbD 9) cs = .ok (i, A') → Opened V U L enc full a s i A' (V.openAt none cs flags at0 id s)) := by
  obtain ⟨b, f, g1, g2, _, _⟩ := hT.path cs hcs
  have hc0 : ¬ openFlags flags &&& oCreat ≠ 0 := by rw [open_creat, hcr]; simp
  have hdec : decide (openFlags flags &&& oTrunc ≠ 0) = flags.getLsbD 9 := by
    rw [Bool.eq_iff_iff, decide_eq_true_iff]; exact open_trunc flags
  have hwl : ∀ fault, V.withLong (if openFlags flags &&& oCreat ≠ 0 then some LAction.create else none) cs
      (V.openCallback fault (openFlags flags) { at0 with mode := openMode flags at0.mode } id) s =
      V.openCallback fault (openFlags flags) { at0 with mode := openMode flags at0.mode } id b s := by
    intro fault
    rw [if_neg hc0]
    unfold LVol.withLong
    rw [g1]
  have hcb : ∀ fault, V.openCallback fault (openFlags flags) { at0 with mode := openMode flags at0.mode } id b s =
      match osRes fault (s.back.openPath (flags.getLsbD 9) (cs.map enc)) with
      | .error e => (.error e, s)
      | .ok p => V.mkFile p.1 { s with back := p.2 } := by
    intro fault
    unfold LVol.openCallback LVol.sysOpen
    rw [if_neg hc0, hdec, g2]
    cases osRes fault (s.back.openPath (flags.getLsbD 9) (cs.map enc)) <;> rfl
  have hnodes : ∀ e, a.fs.openPath (flags.getLsbD 9) cs = .error e → s.back.openPath (flags.getLsbD 9) (cs.map enc) = .error e := by
    intro e he
    unfold Fs.openPath at he ⊢
    rw [H.tree.walk cs 0 hcs]
    cases hw : a.fs.walk 0 cs with
    | error x => rw [hw] at he; exact he
    | ok i =>
      rw [hw] at he
      dsimp only at he ⊢
      unfold Fs.openNode at he ⊢
      have hn := H.tree.nodes i
      cases hA : a.fs i with
      | none =>
        rw [hA] at hn he
        have hB : s.back i = none := by generalize s.back i = x at hn; cases hn; rfl
        rw [hB]; exact he
      | some n =>
        rw [hA] at hn he
        generalize hB : s.back i = x at hn
        cases hn with
        | dir es a => exact he
        | link t st a hl => exact he
        | file c b' a hf => cases he
  refine ⟨?_, ?_, ?_⟩
  · intro e
    unfold LVol.openAt
    rw [hwl, hcb]
    rfl
  · intro e he
    unfold LVol.openAt
    rw [hwl, hcb, hnodes e he]
    rfl
  · intro i A' hok
    unfold LVol.openAt
    rw [hwl, hcb]
    unfold Fs.openPath at hok ⊢
    rw [H.tree.walk cs 0 hcs]
    cases hw : a.fs.walk 0 cs with
    | error x => rw [hw] at hok; cases hok
    | ok j =>
      rw [hw] at hok
      dsimp only at hok ⊢
      unfold Fs.openNode at hok ⊢
      have hn := H.tree.nodes j
      cases hA : a.fs j with
      | none => rw [hA] at hok; cases hok
      | some n =>
        rw [hA] at hn hok
        generalize hB : s.back j = x at hn
        cases hn with
        | dir es a => cases hok
        | link t st a hl => cases hok
        | file c b' at' hf =>
          dsimp only at hok ⊢
          obtain ⟨o, ho⟩ := hf
          have hdA : a.fs.data j = some c := by unfold Fs.data; rw [hA]
          have hdB : s.back.data j = some b' := by unfold Fs.data; rw [hB]
          cases ht : flags.getLsbD 9 with
          | false =>
            rw [ht] at hok
            cases hok
            have hnt : ¬ openFlags flags &&& oTrunc ≠ 0 := by rw [open_trunc, ht]; simp
            have hmk : V.mkFile i s = (.ok (.file i o), s) := by
              unfold LVol.mkFile
              rw [hdB]
              dsimp only
              have hR2 : LiteCfg.Repr V.cfg o ⟨b', s.rng⟩ c := ⟨ho.1.header, ho.1.idLen, ho.1.enc⟩
              rw [LiteCfg.openFile_existing hC hR2 ho.2]
              dsimp only
              rw [setData_self _ _ _ hdB]
            simp only [osRes, Bool.false_eq_true, if_false]
            rw [hmk]
            dsimp only
            rw [if_neg hnt]
            exact ⟨o, rfl, rfl, H, .file i o c b' hdA hdB ho⟩
          | true =>
            rw [ht] at hok
            cases hok
            obtain ⟨p, k1, k2⟩ := LiteCfg.openFile_empty hC ⟨[], s.rng⟩ rfl
            obtain ⟨po, pf, pn⟩ := p
            have k3 : LiteCfg.SRepr V.cfg (po, ⟨pf, 0⟩) [] := ⟨⟨k2.1.header, k2.1.idLen, k2.1.enc⟩, k2.2⟩
            have hmk : V.mkFile i { s with back := s.back.set i ⟨.file [], at'⟩ } =
                (.ok (.file i po), { s with back := s.back.set i ⟨.file pf, at'⟩, rng := pn }) := by
              unfold LVol.mkFile
              dsimp only
              rw [data_set, if_pos rfl]
              dsimp only
              rw [k1]
              dsimp only
              rw [setData_set]
            obtain ⟨b2, n2, k4, k5⟩ := stream_step hC k3 pn (.resize 0) (Nat.zero_le _)
            have hres : V.onFile i po (.resize 0) { s with back := s.back.set i ⟨.file pf, at'⟩, rng := pn } =
                (.ok .done, { s with back := s.back.set i ⟨.file b2, at'⟩, rng := n2 }) := by
              unfold LVol.onFile
              dsimp only
              rw [data_set, if_pos rfl]
              dsimp only
              rw [k4]
              dsimp only
              rw [setData_set]
              rfl
            have k6 : LiteCfg.SRepr V.cfg (po, ⟨b2, 0⟩) [] := by
              have : (Spec.step [] (.resize 0)).1 = [] := rfl
              rw [this] at k5
              exact k5
            simp only [osRes, if_true]
            rw [hmk]
            dsimp only
            rw [if_pos ((open_trunc flags).mpr ht), hres]
            dsimp only
            refine ⟨po, rfl, rfl, ⟨?_, ?_, H.good, ?_, ?_⟩, .file i po [] b2 ?_ ?_ k6⟩
            · exact H.tree.set i (.file [] b2 at' ⟨po, k6⟩) (by intro es x e; cases e)
            · intro d p hp
              exact H.covered d p (hasEntry_set (by intro es x e; cases e) hp)
            · intro k hk
              obtain ⟨r1, r2⟩ := H.tables k hk
              refine ⟨?_, r2⟩
              show Fs.isDir (a.fs.set i _) k = true
              unfold Fs.isDir at r1 ⊢
              unfold Fs.set
              by_cases e : k = i
              · rw [e, hA] at r1; cases r1
              · simp only [if_neg e]; exact r1
            · show List.Forall₂ (HandleRel V U (a.fs.set i ⟨.file [], at'⟩) (s.back.set i ⟨.file b2, at'⟩)) a.handles s.handles
              have hno : ∀ x ∈ a.handles, x ≠ some (.file i) := fun x hx e => htr ht i hw (e ▸ hx)
              have hh := H.handles
              generalize a.handles = la at hno hh
              generalize s.handles = lb at hh
              induction hh with
              | nil => exact .nil
              | cons h _ ih =>
                refine .cons ?_ (ih fun x hx => hno x (List.mem_cons_of_mem _ hx))
                cases h with
                | closed => exact .closed
                | file j o2 c2 b3 q1 q2 q3 =>
                  have : j ≠ i := fun e => hno _ List.mem_cons_self (by rw [e])
                  refine .file j o2 c2 b3 ?_ ?_ q3
                  · rw [data_set, if_neg this]; exact q1
                  · rw [data_set, if_neg this]; exact q2
                | dir j path b3 q1 q2 => exact .dir j path b3 q1 q2
            · rw [data_set, if_pos rfl]
            · rw [data_set, if_pos rfl]

theorem sim_open (hC : V.cfg.WF) (hT : Scheme V.tr U L enc full) (H : Shows V U L enc full s a) (fault : Option Nat) (cs : List Bytes)
    (hcs : ∀ c ∈ cs, U c) (flags : BitVec 32) (hcr : flags.getLsbD 6 = false)
    (htr : flags.getLsbD 9 = true → ∀ i, a.fs.walk 0 cs = .ok i → some (.file i) ∉ a.handles) :
    VolSim V U L enc full (V.step s fault (.open cs flags)) (a.step fault (.open cs flags)) := by
  rw [step_fault rfl]
  obtain ⟨h1, h2, h3⟩ := openAt_old hC hT H cs hcs flags hcr ⟨0, 0, 0, 0, 0⟩ 0 htr
  show VolSim V U L enc full (LVol.val .handle (LVol.newHandle (V.openAt fault cs flags ⟨0, 0, 0, 0, 0⟩ 0 s))) _
  cases fault with
  | some e => rw [h1 e]; exact ⟨rfl, H⟩
  | none =>
    show VolSim V U L enc full _ (a.act (.open cs flags))
    unfold Spec.Vol.act
    dsimp only
    cases ho : a.fs.openPath (flags.getLsbD 9) cs with
    | error e => rw [h2 e ho]; exact ⟨rfl, H⟩
    | ok p =>
      obtain ⟨i, A'⟩ := p
      obtain ⟨o, k1, k2, k3, k4⟩ := h3 i A' ho
      generalize V.openAt none cs flags ⟨0, 0, 0, 0, 0⟩ 0 s = r at k1 k2 k3 k4
      obtain ⟨r1, r2⟩ := r
      dsimp only at k1 k2 k3 k4
      subst k1
      refine ⟨?_, k3.newHandle k4⟩
      show Spec.Val.handle a.handles.length = Spec.Val.handle r2.handles.length
      rw [k2, H.length]

theorem sim_truncate (hC : V.cfg.WF) (hT : Scheme V.tr U L enc full) (H : Shows V U L enc full s a) (fault : Option Nat) (cs : List Bytes)
    (hcs : ∀ c ∈ cs, U c) (n : Nat) (hlim : n ≤ liteMaxBlocks * V.cfg.bs) :
    VolSim V U L enc full (V.step s fault (.truncate cs n)) (a.step fault (.truncate cs n)) := by
  rw [step_fault rfl]
  have hb9 : oWrOnly.getLsbD 9 = false := by decide
  obtain ⟨h1, h2, h3⟩ := openAt_old hC hT H cs hcs oWrOnly (by decide) ⟨0, 0, 0, 0, 0⟩ 0 (by rw [hb9]; intro h; cases h)
  rw [hb9] at h2 h3
  show VolSim V U L enc full (LVol.val (fun _ => .done) (V.truncate fault cs n s)) (refuse a fault (a.change (Spec.truncatePath a.fs cs n)))
  unfold LVol.truncate
  dsimp only
  cases fault with
  | some e => rw [h1 e]; exact ⟨rfl, H⟩
  | none =>
    show VolSim V U L enc full _ (a.change (Spec.truncatePath a.fs cs n))
    unfold Spec.truncatePath
    cases ho : a.fs.openPath false cs with
    | error e => rw [h2 e ho]; exact ⟨rfl, H⟩
    | ok p =>
      obtain ⟨i, A'⟩ := p
      obtain ⟨o, k1, k2, k3, k4⟩ := h3 i A' ho
      have hA' : A' = a.fs := by
        unfold Fs.openPath at ho
        split at ho
        · cases ho
        · unfold Fs.openNode at ho
          split at ho
          · cases ho
          · cases ho
          · cases ho
          · cases ho; rfl
      subst hA'
      generalize V.openAt none cs oWrOnly ⟨0, 0, 0, 0, 0⟩ 0 s = r at k1 k2 k3 k4
      obtain ⟨r1, r2⟩ := r
      dsimp only at k1 k2 k3 k4
      subst k1
      dsimp only
      cases k4 with
      | file _ _ c b q1 q2 q3 =>
        obtain ⟨s', m1, m2⟩ := onFile_ok hC k3 q1 q2 q3 (.resize n) hlim
        rw [m1, q1]
        exact ⟨rfl, m2⟩

/-! ## Creating a file -/

theorem add_file {A : Fs} {cs : List Bytes} {id : Nat} {at' : Attr} {A' : Fs} (hid : A id = none) (h : A.add cs id ⟨.file [], at'⟩ = .ok A') (x : Bytes) :
    A'.data id = some [] ∧ A.add cs id ⟨.file x, at'⟩ = .ok (A'.setData id x) ∧ (A'.setData id x).data id = some x := by
  unfold Fs.add at h ⊢
  cases hs : A.slot cs with
  | error e => rw [hs] at h; cases h
  | ok t =>
    rw [hs] at h
    dsimp only at h ⊢
    cases hl : t.entries.lookup t.name with
    | some j => rw [hl] at h; cases h
    | none =>
      rw [hl] at h
      cases h
      have hne : ∀ y : Bytes, (A.set id ⟨.file y, at'⟩).alterDir t.dir (fun es => (t.name, id) :: es) =
          Fs.set (A.alterDir t.dir fun es => (t.name, id) :: es) id ⟨.file y, at'⟩ := by
        intro y
        funext k
        by_cases hd : t.dir = id
        · have h1 : A.alterDir t.dir (fun es => (t.name, id) :: es) = A := by
            unfold Fs.alterDir
            rw [hd, hid]
          have h2 : (A.set id ⟨.file y, at'⟩).alterDir t.dir (fun es => (t.name, id) :: es) = A.set id ⟨.file y, at'⟩ := by
            unfold Fs.alterDir
            have : (A.set id ⟨.file y, at'⟩) t.dir = some ⟨.file y, at'⟩ := by unfold Fs.set; rw [if_pos hd]
            rw [this]
          rw [h1, h2]
        · unfold Fs.alterDir
          have : (A.set id ⟨.file y, at'⟩) t.dir = A t.dir := by unfold Fs.set; rw [if_neg hd]
          rw [this]
          cases hAd : A t.dir with
          | none => rfl
          | some nd =>
            obtain ⟨kd, at2⟩ := nd
            cases kd with
            | file _ => rfl
            | link _ => rfl
            | dir es =>
              dsimp only
              unfold Fs.set
              by_cases h1 : k = id
              · rw [if_neg (fun e => hd (by rw [← e, h1])), if_pos h1, if_pos h1]
              · rw [if_neg h1, if_neg h1]
      rw [hne, hne]
      dsimp only
      refine ⟨?_, ?_, ?_⟩
      · rw [data_set, if_pos rfl]
      · rw [setData_set]
      · rw [setData_set, data_set, if_pos rfl]

theorem add_error {A : Fs} {cs : List Bytes} {id : Nat} {n : Node} {e : Nat} (h : A.add cs id n = .error e) (m : Node) : A.add cs id m = .error e := by
  unfold Fs.add at h ⊢
  cases hs : A.slot cs with
  | error e' => rw [hs] at h; exact h
  | ok t =>
    rw [hs] at h
    dsimp only at h ⊢
    cases hl : t.entries.lookup t.name with
    | some j => rw [hl] at h; exact h
    | none => rw [hl] at h; cases h

/-- What the callback of `create` does. -/
def createOut (fault : Option Nat) (rB : Except Nat Fs) (id : Nat) (p : LiteObj × LiteSt) : Res (LHandle × Fs × Nat) :=
  match osRes fault rB with
  | .error e => .error e
  | .ok fs => .ok (.file id p.1, fs.setData id p.2.file, p.2.rng)

theorem sim_create (hC : V.cfg.WF) (hT : Scheme V.tr U L enc full) (H : Shows V U L enc full s a) (fault : Option Nat) (cs : List Bytes) (at' : Attr) (id : Nat)
    (hcs : ∀ c ∈ cs, U c) (hpar : ∃ d, a.fs.opendir cs.dropLast = .ok d) (hid : a.fs id = none) :
    VolSim V U L enc full (V.step s fault (.create cs at' id)) (a.step fault (.create cs at' id)) := by
  rw [step_fault rfl]
  show VolSim V U L enc full (LVol.val .handle (LVol.newHandle (V.openAt fault cs 194 at' id s))) _
  have hB0 := back_none H hid
  have f1 : openFlags 194 &&& oCreat ≠ 0 := by decide
  have f2 : ¬ openFlags 194 &&& oTrunc ≠ 0 := by decide
  have f4 : ¬ openFlags 194 &&& LVol.oExcl = 0 := by decide
  have f3 : openMode 194 at'.mode = at'.mode ||| 256 := by
    unfold openMode
    rw [if_pos f1]
  obtain ⟨p, k1, k2⟩ := LiteCfg.openFile_empty hC ⟨[], s.rng⟩ rfl
  have k3 : LiteCfg.SRepr V.cfg (p.1, ⟨p.2.file, 0⟩) [] := ⟨⟨k2.1.header, k2.1.idLen, k2.1.enc⟩, k2.2⟩
  have htame : ∀ b, osParts b = cs.map enc → Tame (V.openCallback fault (openFlags 194) { at' with mode := openMode 194 at'.mode } id) b s
      (createOut fault (s.back.add (cs.map enc) id ⟨.file [], { at' with mode := at'.mode ||| 256 }⟩) id p) := by
    intro b hb t
    unfold LVol.openCallback LVol.sysOpen
    rw [if_pos f1, f3, hb]
    dsimp only
    unfold createOut
    cases fault with
    | some e => rfl
    | none =>
      cases hB : s.back.add (cs.map enc) id ⟨.file [], { at' with mode := at'.mode ||| 256 }⟩ with
      | error e =>
        dsimp only
        rw [if_neg (fun h => f4 h.1)]
        rfl
      | ok B' =>
        dsimp only [osRes]
        unfold LVol.mkFile
        dsimp only
        rw [(add_file hB0 hB []).1]
        dsimp only
        rw [k1]
        rfl
  obtain ⟨t, h1, h2, h3⟩ := withLong_eq hT H .create cs hcs hpar _ _ htame
  unfold LVol.openAt
  rw [if_pos f1, h1]
  simp only [if_neg f2]
  unfold createOut
  cases fault with
  | some e => exact ⟨rfl, h2⟩
  | none =>
    show VolSim V U L enc full _ (a.act (.create cs at' id))
    unfold Spec.Vol.act
    dsimp only
    have hr := H.tree.add cs hcs id (n := ⟨.file [], { at' with mode := at'.mode ||| 256 }⟩) (m := ⟨.file p.2.file, { at' with mode := at'.mode ||| 256 }⟩)
      (.file [] p.2.file _ ⟨p.1, k3⟩) (by intro es x e; cases e)
    cases hA : a.fs.add cs id ⟨.file [], { at' with mode := at'.mode ||| 256 }⟩ with
    | error e =>
      rw [hA] at hr
      cases hB : s.back.add (cs.map enc) id ⟨.file [], { at' with mode := at'.mode ||| 256 }⟩ with
      | error e' =>
        have : s.back.add (cs.map enc) id ⟨.file p.2.file, { at' with mode := at'.mode ||| 256 }⟩ = .error e' := add_error hB _
        rw [this] at hr
        cases hr
        exact ⟨rfl, h2⟩
      | ok B' =>
        rw [(add_file hB0 hB p.2.file).2.1] at hr
        exact hr.elim
    | ok A' =>
      rw [hA] at hr
      cases hB : s.back.add (cs.map enc) id ⟨.file [], { at' with mode := at'.mode ||| 256 }⟩ with
      | error e' =>
        have : s.back.add (cs.map enc) id ⟨.file p.2.file, { at' with mode := at'.mode ||| 256 }⟩ = .error e' := add_error hB _
        rw [this] at hr
        exact hr.elim
      | ok B' =>
        obtain ⟨m1, m2, m3⟩ := add_file hB0 hB p.2.file
        rw [m2] at hr
        have H1 := H.grown (n := p.2.rng) hT hr (keeps_add hid hA) (keeps_add hB0 m2) cs hcs (hasEntry_add (by intro es x e; cases e) hA) t.2 h3
        have H2 := H1.newHandle (.file id p.1 [] p.2.file (add_file hid hA []).1 m3 k3)
        refine ⟨?_, H2⟩
        show Spec.Val.handle a.handles.length = Spec.Val.handle s.handles.length
        rw [H.length]

end
end Securefs
