import Verif.Proofs.LiteThreadsSim
import Verif.Proofs.FaultsInit
/-! Lite files as shared objects. -/

namespace Securefs
open Spec (Shared Task Event InCall)

/-- Within the limit of the lite format. -/
def withinLite (C : LiteCfg) : Task → Prop
  | .open => True
  | .call c => c.op.extent ≤ liteMaxBlocks * C.bs

/-- The file with spoilt blocks. -/
def FrailBase (C : LiteCfg) (st : LiteSt) (ob : Option LiteObj) (f : Spec.Frail) : Prop :=
  ∃ o, (ob = none ∨ ob = some o) ∧ FaultFrame.Rel (C.dev o) (fun st => LiteCfg.InvL o st ∧ LiteCfg.HdrL o st) (LiteCfg.GoodL C o) st f ∧
    o.id.length = 16 ∧ o.pad.length = C.padding o.id

/-- The file without spoilt blocks, perhaps before it is created. -/
def PlainBase (C : LiteCfg) (st : LiteSt) (ob : Option LiteObj) (c : Bytes) : Prop :=
  (st.file = [] ∧ c = [] ∧ ob = none) ∨ ∃ o, (ob = none ∨ ob = some o) ∧ LiteCfg.SRepr C (o, st) c

theorem FIO.bind_fst {σ α β : Type} {m : FIO σ α} {g : α → β} {F : Faulty σ} :
    (m.bind fun a => FIO.ret (g a)) F = ((m F).1.map g, (m F).2) := by
  unfold FIO.bind
  rcases h : m F with ⟨r | r, F'⟩ <;> rfl

theorem LiteCfg.openF_quiet (C : LiteCfg) {F : Faulty LiteSt} (h : (ufRead F.st.file 0 16).length ≠ 0) : (C.openF F).2.st = F.st := by
  obtain ⟨st, plan⟩ := F
  unfold LiteCfg.openF
  by_cases h1 : C.ivSize < 12 ∨ C.ivSize > 32
  · rw [if_pos h1]; rfl
  rw [if_neg h1]
  by_cases h2 : C.bs < 32
  · rw [if_pos h2]; rfl
  rw [if_neg h2]
  have key : ∀ plan', ((if (ufRead st.file 0 16).length ≠ 16 then (FIO.lift (.error .invalidArg) : FIO LiteSt LiteObj)
      else if C.padding (ufRead st.file 0 16) = 0 then .ret ⟨ufRead st.file 0 16, []⟩
      else
        (FIO.sys (fun st' => (ufRead st'.file 16 (C.padding (ufRead st.file 0 16)), st')) (fun _ st => st)).bind fun pad =>
        if pad.length ≠ C.padding (ufRead st.file 0 16) then .lift (.error .invalidArg) else .ret ⟨ufRead st.file 0 16, pad⟩) ⟨st, plan'⟩).2.st = st := by
    intro plan'
    by_cases h4 : (ufRead st.file 0 16).length ≠ 16
    · rw [if_pos h4]; rfl
    rw [if_neg h4]
    by_cases h5 : C.padding (ufRead st.file 0 16) = 0
    · rw [if_pos h5]; rfl
    rw [if_neg h5]
    rcases plan' with _ | ⟨x | x, plan'⟩
    all_goals simp only [FIO.bind, FIO.sys]
    all_goals (try split) <;> rfl
  rcases plan with _ | ⟨x | x, plan⟩
  · simp only [FIO.bind, FIO.sys]
    rw [if_neg h]
    exact key _
  · simp only [FIO.bind, FIO.sys]
    rw [if_neg h]
    exact key _
  · rfl

theorem LiteCfg.openF_ok (C : LiteCfg) {st st' : LiteSt} {o : LiteObj} (h : C.openFile st = .ok (o, st')) : C.openF ⟨st, []⟩ = (.ok o, ⟨st', []⟩) := by
  have := C.openF_calm st
  rw [h] at this
  exact this

theorem hdr_nonempty {o : LiteObj} {st : LiteSt} (hH : LiteCfg.HdrL o st) (hid : o.id.length = 16) : (ufRead st.file 0 16).length ≠ 0 := by
  unfold LiteCfg.HdrL LiteObj.headerSize at hH
  have hf : st.file = o.id ++ o.pad ++ st.file.drop (16 + o.pad.length) := by
    rw [← hH, List.take_append_drop]
  have h1 : ufRead st.file 0 16 = o.id := by
    rw [ufRead, List.drop_zero, hf, ← hid, List.append_assoc, List.take_left]
  rw [h1, hid]
  omega

variable {E : ThreadEnv}

theorem prog_open {ob : Option LiteObj} {p : SysProg LiteSt (LiteObj × Spec.Out)} (h : E.prog ob .open = some p) (F : Faulty LiteSt) :
    p.toFIO F = ((E.C.openF F).1.map fun o => (o, Spec.Out.done), (E.C.openF F).2) := by
  simp only [ThreadEnv.prog, Option.some.injEq] at h
  subst h
  rw [SysProg.toFIO_bind, E.C.openP_to]
  exact FIO.bind_fst

theorem prog_call {ob : Option LiteObj} {c : Spec.FileCall} {p : SysProg LiteSt (LiteObj × Spec.Out)} (h : E.prog ob (.call c) = some p) :
    ∃ o, ob = some o ∧ ∀ F, p.toFIO F = (((E.C.faultDev o).call c F).1.map fun out => (o, out), ((E.C.faultDev o).call c F).2) := by
  cases ob with
  | none => simp [ThreadEnv.prog] at h
  | some o =>
    refine ⟨o, rfl, fun F => ?_⟩
    simp only [ThreadEnv.prog, Option.map_some, Option.some.injEq] at h
    subst h
    rw [SysProg.toFIO_bind, ProgDev.call_to, E.C.progDev_to]
    exact FIO.bind_fst

theorem frail_repr (hC : E.C.WF) : ThreadRepr E (Spec.frailAct E.C.bs (liteMaxBlocks * E.C.bs)) (fun _ => True) (FrailBase E.C) where
  ok := by
    intro st ob f task p hB _ hp r st' hr
    obtain ⟨o, ho, hR, hid, hpad⟩ := hB
    cases task with
    | «open» =>
      rw [prog_open hp, E.C.openF_ok (LiteCfg.openFile_hdr hC hR.1.1 hR.1.2 hid hpad)] at hr
      simp only [Except.map, Prod.mk.injEq, Faulty.mk.injEq, and_true] at hr
      obtain ⟨rfl, rfl⟩ := hr
      refine ⟨f, ⟨rfl, .inl rfl⟩, ⟨o, .inr rfl, hR, hid, hpad⟩, fun o' ho' => ?_⟩
      rcases ho with ho | ho
      · rw [ho'] at ho; cases ho
      · rw [ho'] at ho; exact ho.symm
    | call c =>
      obtain ⟨o', rfl, hpc⟩ := prog_call hp
      rcases ho with ho | ho
      · cases ho
      have ee := Option.some.inj ho
      subst ee
      rw [hpc] at hr
      obtain ⟨f', h1, h2⟩ := (LiteCfg.frameH hC).step (F := ⟨st, []⟩) hR c
      have e1 := congrArg Prod.fst hr
      have e2 := congrArg (fun q => q.2.st) hr
      dsimp only at e1 e2
      rw [e2] at h2
      rcases e3 : ((E.C.faultDev o').call c ⟨st, []⟩).1 with er | out
      · rw [e3] at e1 h1
        simp only [Except.map] at e1
        subst e1
        refine ⟨f', ⟨h1, fun _ => .inr ?_⟩, ⟨o', .inr rfl, h2, hid, hpad⟩, fun _ h => h⟩
        by_contra hc
        have hcc : c.op.extent ≤ liteMaxBlocks * E.C.bs ∧ f.determined E.C.bs c ∧
            ∀ i, c.covers E.C.bs f.content.length i → ¬ c.renews E.C.bs f.content.length i → f.intact i := by
          refine ⟨by_contra fun h => hc (.inl (by omega)), by_contra fun h => hc (.inr (.inl h)), fun i h3 h4 => by_contra fun h => hc (.inr (.inr ⟨i, h3, h4, h⟩))⟩
        obtain ⟨out, st1, h5⟩ := (LiteCfg.frameH hC).live LiteCfg.calm (LiteCfg.lively hC) hR c hcc.1 hcc.2.1 hcc.2.2
        rw [h5] at e3
        cases e3
      · rw [e3] at e1 h1
        simp only [Except.map] at e1
        subst e1
        refine ⟨f', ⟨h1, ?_⟩, ⟨o', .inr rfl, h2, hid, hpad⟩, fun _ h => h⟩
        rintro ⟨e, he⟩
        cases he
  fault := by
    intro st ob f task p _ hB _ hp n x r st' hr
    obtain ⟨o, ho, hR, hid, hpad⟩ := hB
    cases task with
    | «open» =>
      rw [prog_open hp] at hr
      have e2 := congrArg (fun q => q.2.st) hr
      dsimp only at e2
      rw [E.C.openF_quiet (hdr_nonempty hR.1.2 hid)] at e2
      dsimp only at e2
      subst e2
      exact ⟨f, ⟨rfl, .inr ⟨rfl, r, rfl⟩⟩, o, ho, hR, hid, hpad⟩
    | call c =>
      obtain ⟨o', rfl, hpc⟩ := prog_call hp
      rcases ho with ho | ho
      · cases ho
      have ee := Option.some.inj ho
      subst ee
      rw [hpc] at hr
      obtain ⟨f', h1, h2⟩ := (LiteCfg.frameH hC).step (F := ⟨st, List.replicate n none ++ [some x]⟩) hR c
      have e1 := congrArg Prod.fst hr
      have e2 := congrArg (fun q => q.2.st) hr
      dsimp only at e1 e2
      rw [e2] at h2
      rcases e3 : ((E.C.faultDev o').call c ⟨st, List.replicate n none ++ [some x]⟩).1 with er | out
      · rw [e3] at e1 h1
        simp only [Except.map, Except.error.injEq] at e1
        subst e1
        exact ⟨f', ⟨h1, fun _ => .inl rfl⟩, o', .inr rfl, h2, hid, hpad⟩
      · rw [e3] at e1
        simp [Except.map] at e1
  refuse := by
    intro st ob f task e hB _
    obtain ⟨o, ho, hR, hid, hpad⟩ := hB
    cases task with
    | «open» => exact ⟨f, ⟨rfl, .inr ⟨rfl, e, rfl⟩⟩, o, ho, hR, hid, hpad⟩
    | call c =>
      refine ⟨⟨f.content, fun i => f.intact i ∧ ¬ c.covers E.C.bs f.content.length i⟩, ⟨⟨fun _ => Iff.rfl, fun _ _ => rfl, fun _ => rfl⟩, fun _ => .inl rfl⟩,
        o, ho, ⟨hR.1, hR.2.1, fun i hi => hR.2.2 i hi.1⟩, hid, hpad⟩

theorem plain_call (hC : E.C.WF) {o : LiteObj} {st : LiteSt} {c : Bytes} (hR : LiteCfg.SRepr E.C (o, st) c) (call : Spec.FileCall)
    (hx : call.op.extent ≤ liteMaxBlocks * E.C.bs) :
    ∃ st', (E.C.faultDev o).call call ⟨st, []⟩ = (.ok (Spec.step c call.op).2, ⟨st', []⟩) ∧ LiteCfg.SRepr E.C (o, st') (Spec.step c call.op).1 := by
  cases call with
  | read off len =>
    have h := (LiteCfg.refines hC).read_refines hR.1 off len hx
    have h2 : (E.C.faultDev o).read off len ⟨st, []⟩ = (.ok (Spec.read c off len), ⟨st, []⟩) :=
      ((LiteCfg.calm (C := E.C) (o := o)).reads st off len).trans (by rw [h])
    exact ⟨st, FIO.bind_eq h2, hR⟩
  | size =>
    have h2 : (E.C.faultDev o).size ⟨st, []⟩ = (.ok c.length, ⟨st, []⟩) := by
      rw [(LiteCfg.calm (C := E.C) (o := o)).size st]
      exact congrArg (fun n => (Except.ok n, (⟨st, []⟩ : Faulty LiteSt))) (LiteCfg.dev_size hC hR.1)
    exact ⟨st, (FIO.bind_eq (f := fun n => FIO.ret (Spec.Out.size n)) h2).trans rfl, hR⟩
  | write off d =>
    obtain ⟨st', h1, h2⟩ := (LiteCfg.refines hC).write_refines hR.1 off d hx
    exact ⟨st', FIO.bind_eq (((LiteCfg.calm (C := E.C) (o := o)).writes st off d).ok h1), h2, hR.2⟩
  | resize n =>
    obtain ⟨st', h1, h2⟩ := (LiteCfg.refines hC).resize_refines hR.1 n hx
    exact ⟨st', FIO.bind_eq (((LiteCfg.calm (C := E.C) (o := o)).resize st n).ok h1), h2, hR.2⟩

theorem plain_repr (hC : E.C.WF) (hf : E.faults = false) : ThreadRepr E Spec.plainAct (withinLite E.C) (PlainBase E.C) where
  ok := by
    intro st ob f task p hB hw hp r st' hr
    cases task with
    | «open» =>
      rcases hB with ⟨h1, rfl, rfl⟩ | ⟨o, ho, hR⟩
      · obtain ⟨⟨o, st1⟩, h2, h3⟩ := LiteCfg.openFile_empty hC st h1
        rw [prog_open hp, E.C.openF_ok h2] at hr
        simp only [Except.map, Prod.mk.injEq, Faulty.mk.injEq, and_true] at hr
        obtain ⟨rfl, rfl⟩ := hr
        exact ⟨[], .inr ⟨rfl, rfl⟩, .inr ⟨o, .inr rfl, h3⟩, fun _ h => by cases h⟩
      · rw [prog_open hp, E.C.openF_ok (LiteCfg.openFile_existing hC hR.1 hR.2)] at hr
        simp only [Except.map, Prod.mk.injEq, Faulty.mk.injEq, and_true] at hr
        obtain ⟨rfl, rfl⟩ := hr
        refine ⟨f, .inr ⟨rfl, rfl⟩, .inr ⟨o, .inr rfl, hR⟩, fun o' ho' => ?_⟩
        rcases ho with ho | ho
        · rw [ho'] at ho; cases ho
        · rw [ho'] at ho; exact ho.symm
    | call c =>
      obtain ⟨o', rfl, hpc⟩ := prog_call hp
      rcases hB with ⟨_, _, h⟩ | ⟨o, ho, hR⟩
      · cases h
      rcases ho with ho | ho
      · cases ho
      have ee := Option.some.inj ho
      subst ee
      obtain ⟨st1, h1, h2⟩ := plain_call hC hR c hw
      rw [hpc, h1] at hr
      simp only [Except.map, Prod.mk.injEq, Faulty.mk.injEq, and_true] at hr
      obtain ⟨rfl, rfl⟩ := hr
      exact ⟨_, .inr ⟨rfl, rfl⟩, .inr ⟨o', .inr rfl, h2⟩, fun _ h => h⟩
  fault := by
    intro st ob f task p h
    rw [hf] at h
    cases h
  refuse := fun {st ob f task e} hB _ => ⟨f, .inl ⟨rfl, ⟨e, rfl⟩, rfl⟩, hB⟩

end Securefs
