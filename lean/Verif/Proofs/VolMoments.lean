import Verif.Proofs.AttrTold
import Verif.Proofs.VolSerial
import Verif.Spec.VolMoments
import Verif.Spec.CutSerial
/-!
# The moments of one call in a history of many

The call that is started as the `i`th one has its moments after its start, and its answer on the volume has the number of the thread of `FullSys`.
-/

namespace Securefs.Vt

open Securefs Securefs.Spec

/-- A thread that has not been started has no moments. -/
theorem silent (cfg : FsCfg) (i : Nat) : ∀ (l : List FullEvent) (s : FullSys), s.threads.length + (started l).length ≤ i → moments cfg i s l = []
  | [], _, _ => rfl
  | e :: l, s, hs => by
    show momentOf cfg i s e ++ moments cfg i (s.step cfg e) l = []
    have h0 : (started (e :: l)).length = (started [e]).length + (started l).length := by
      rw [← List.length_append, ← Dm.started_append]; rfl
    rw [Dm.momentOf_none (by omega), silent cfg i l]
    · rfl
    · by_cases hst : ∃ op, e = .start op
      · obtain ⟨op, rfl⟩ := hst
        have : ((s.step cfg (.start op)).threads).length = s.threads.length + 1 := by
          show (s.threads ++ [_]).length = _
          simp
        rw [this]
        have : (started [FullEvent.start op]).length = 1 := rfl
        omega
      · rw [Dm.step_length cfg s e fun op he => hst ⟨op, he⟩]
        omega

/-- The start of a call in a history. -/
theorem at_start (cfg : FsCfg) (i : Nat) (op : FullOp) : ∀ (l : List FullEvent) (s : FullSys), s.threads.length ≤ i →
    (started l)[i - s.threads.length]? = some op →
    ∃ l1 l2, l = l1 ++ .start op :: l2 ∧ (s.run cfg l1).threads.length = i ∧
      moments cfg i s l = moments cfg i ((s.run cfg l1).step cfg (.start op)) l2
  | [], _, _, h => by cases h
  | e :: l, s, hi, h => by
    by_cases hst : ∃ op', e = .start op'
    · obtain ⟨op', rfl⟩ := hst
      have hl : ((s.step cfg (.start op')).threads).length = s.threads.length + 1 := by
        show (s.threads ++ [_]).length = _
        simp
      have h' : (op' :: started l)[i - s.threads.length]? = some op := h
      have hm : ∀ r, momentOf cfg i s (.start op') ++ r = r := fun r => rfl
      by_cases he : i = s.threads.length
      · subst he
        rw [Nat.sub_self] at h'
        cases h'
        exact ⟨[], l, rfl, rfl, rfl⟩
      · obtain ⟨n, hn⟩ : ∃ n, i - s.threads.length = n + 1 := ⟨i - s.threads.length - 1, by omega⟩
        rw [hn, List.getElem?_cons_succ] at h'
        obtain ⟨l1, l2, h1, h2, h3⟩ := at_start cfg i op l (s.step cfg (.start op')) (by omega) (by rw [hl, show i - (s.threads.length + 1) = n by omega]; exact h')
        exact ⟨.start op' :: l1, l2, by rw [h1]; rfl, h2, h3⟩
    · have hl := Dm.step_length cfg s e fun op he => hst ⟨op, he⟩
      have hs : started (e :: l) = started l := by
        cases e with
        | start op' => exact absurd ⟨op', rfl⟩ hst
        | _ => rfl
      rw [hs, ← hl] at h
      obtain ⟨l1, l2, h1, h2, h3⟩ := at_start cfg i op l (s.step cfg e) (by omega) h
      refine ⟨e :: l1, l2, by rw [h1]; rfl, h2, ?_⟩
      show momentOf cfg i s e ++ moments cfg i (s.step cfg e) l = _
      rw [h3]
      by_cases hlt : i < s.threads.length
      · omega
      · rw [Dm.momentOf_none (by omega)]
        rfl

theorem result_like {x y : VolAnswer} (h : VolAnswerLike x y) : VolAnswer.result x = VolAnswer.result y := by
  cases x with
  | stat n st =>
    cases st with
    | none => have : VolAnswer.stat n none = y := h
              rw [← this]
    | some a =>
      cases y with
      | stat m st' =>
        cases st' with
        | none => have : VolAnswer.stat n (some a) = .stat m none := h
                  cases this
        | some b => exact h.1
      | _ => cases h
  | items n l =>
    cases y with
    | items m k => exact h.1
    | _ => cases h
  | _ => have : _ = y := h
         rw [← this]

/-- A thread of the volume that has thrown an exception is one of the ideal volume that has. -/
theorem SysRel.thrown {V : VolEnv} {τ : Bytes → Nat} {s : VolSys} {I : IdealThreads} (h : SysRel V τ s I) (i : Nat) (e : Err) (he : volThrown s i = some e) :
    I.threads[i]? = some (.throw e) := by
  unfold volThrown at he
  cases ht : s.threads[i]? with
  | none => rw [ht] at he; cases he
  | some t =>
    rw [ht] at he
    obtain ⟨q, hq, hr⟩ := forall2_get h.threads i ht
    have hl := hr.like
    obtain ⟨p, mine⟩ := t
    dsimp only at hl
    cases p with
    | throw e' =>
      injection he with he
      subst he
      cases q with
      | throw e'' =>
        have : e' = e'' := hl
        rw [this]
        exact hq
      | ret b => exact absurd hl id
      | sec f k => exact absurd hl id
    | _ => cases he

/-- The failures are the same in both histories. -/
theorem fail_all {es : List VolSysEvent} {l : List FullEvent} (h : AllAsFull es l) (i : Nat) (e : Err) (hf : FullEvent.fail i e ∈ l) :
    VolSysEvent.fail i e ∈ es := by
  induction h with
  | nil => cases hf
  | cons ha _ ih =>
    rcases List.mem_append.1 hf with h1 | h1
    · cases ha with
      | fail j e' => cases List.mem_singleton.1 h1; exact .head _
      | eject id ids => obtain ⟨_, _, h2⟩ := List.mem_map.1 h1; cases h2
      | remount ids => obtain ⟨_, _, h2⟩ := List.mem_map.1 h1; cases h2
      | release | releasedir | close => cases h1
      | _ => cases List.mem_singleton.1 h1
    · exact .tail _ (ih h1)

/-- The order on the ideal volume is one on the volume. -/
theorem cut_ok {V : VolEnv} {τ : Bytes → Nat} {s : VolSys} {I I' : IdealThreads} {es : List VolSysEvent} {l : List FullEvent} (hI : I.threads = [])
    (h : SimFull V τ s I es l I') {id b : Bytes} {order : List (Nat × FullOp)} (hs : CutSerial (idealCfg V) I.fs l id b order) :
    VolCutSerial V s es id b order := by
  have hst := started_all h.full
  have hc := h.came
  have hrun : ∀ {e1 l1 M}, SimFull V τ s I e1 l1 M → FullSys.run (idealCfg V) ⟨I.fs, []⟩ l1 = ⟨M.fs, M.threads.map numbered⟩ := by
    intro e1 l1 M h1
    have := h1.came.run
    rw [hI] at this
    exact this
  have hret : ∀ {e1 l1 M} (_ : SimFull V τ s I e1 l1 M) (i : Nat),
      Returned (FullSys.run (idealCfg V) ⟨I.fs, []⟩ l1) i ↔ ∃ a, volAnswer (s.run V e1) i = some a := by
    intro e1 l1 M h1 i
    rw [hrun h1, returned_iff]
    have := h1.last.answer i
    exact ⟨fun ⟨b, hb⟩ => (this.2 b hb).imp fun _ h => h.1, fun ⟨a, ha⟩ => (this.1 a ha).imp fun _ h => h.1⟩
  refine ⟨hs.once, fun i op hm => ?_, fun i op hi ho ha => ?_, fun k i op hk => ?_, fun e1 e2 he x y hx hy hr hlen => ?_⟩
  · obtain ⟨h1, h2⟩ := hs.calls i op hm
    exact ⟨hst ▸ h1, (hret h i).1 h2⟩
  · exact hs.handles i op (hst ▸ hi) ho ((hret h i).2 ha)
  · obtain ⟨a, m, v, hm, hon, _, hb, _, hv, _, hz⟩ := hs.turn k i op hk
    obtain ⟨hop, hr⟩ := hs.calls i op (List.mem_of_getElem? hk)
    obtain ⟨x, hx⟩ := (hret h i).1 hr
    obtain ⟨c, hc1, hl⟩ := (h.last.answer i).1 x hx
    refine ⟨x, hx, ?_⟩
    have hcv : VolAnswer.result x = v := by
      rw [result_like hl]
      rw [hrun h] at hv
      have hv' : (I'.threads.map numbered)[i]? = some (.ret v) := hv
      rw [List.getElem?_map, hc1] at hv'
      injection hv' with hv'
      injection hv'
    have data : onData id op → a = [] → DataAnswer (cutTurn b (order.take k)) op x := by
      intro ho ha
      refine answer_like (ran_answer (cfg := idealCfg V) ho hb ?_) hl
      obtain ⟨p', e1, f1⟩ := hc.new i op hop
      rw [hI, List.length_nil, Nat.zero_add] at e1 f1
      rw [hc1] at e1
      injection e1 with e1
      subst e1
      have := f1 [] c (.ret c)
      rw [List.append_nil] at this
      rw [ha, List.nil_append] at hm
      rw [← hm]
      exact this
    cases op with
    | read h' off len => exact data hon.1 hon.2
    | write h' off d => exact data hon.1 hon.2
    | ftruncate h' n => exact data hon.1 hon.2
    | truncate p n => exact hcv.trans (hz fun h => h)
    | «open» p tr =>
      cases tr with
      | true => exact hcv.trans (hz fun h => h)
      | false => exact hon.elim
    | symlink t f u g j => exact hcv.trans (hz fun h => h)
    | _ => exact hon.elim
  · subst he
    obtain ⟨l1, l2, M, rfl, h1, h2⟩ := SimFull.split e1 h
    exact hs.time l1 l2 rfl x y hx hy ((hret h1 x.1).2 hr) (by rw [started_all h1.full]; exact hlen)

end Securefs.Vt
