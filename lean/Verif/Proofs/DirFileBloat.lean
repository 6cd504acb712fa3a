import Verif.Proofs.DirFileRun
/-! Helper lemmas: a directory that has shrunk is rebuilt when it is flushed. -/

namespace Securefs.DirFile

open Securefs Spec FileEnv BT

variable {E : FileEnv} {id : Bytes} {C : BCfg}

/-- Many entries need many pages. -/
theorem many_pages {s : BSt} {l : List DirEntry} (hd : Dir C s l) (hl : 92 ≤ l.length) : 8 * 4096 ≤ s.data.length := by
  obtain ⟨_, _, np, F, hcase⟩ := hd
  rcases hcase with ⟨_, rfl, _⟩ | ⟨t, h, _, rfl, hs, hcore⟩
  · simp at hl
  · have h1 := Shape.sum h _ t hs invalidPage
    have h2 := Multiset.sum_le_card_nsmul (s := (nodes invalidPage t).map fun r => r.es.length) (n := 13) (by
      intro x hx
      obtain ⟨r, hr, rfl⟩ := Multiset.mem_map.1 hx
      exact (Shape.recs h _ t hs invalidPage r hr).2.1)
    simp only [Multiset.card_map, smul_eq_mul] at h2
    have h3 := congrArg Multiset.card hcore.part
    simp only [Multiset.card_add, Multiset.card_map, Multiset.card_range, Multiset.coe_card] at h3
    have h4 := hcore.len
    unfold sumEs at h1
    omega

/-- One entry needs one page; the others are free. -/
theorem one_page {s : BSt} {x : DirEntry} (hd : Dir C s [x]) : (s.nfree + 1) * 4096 = s.data.length := by
  obtain ⟨_, _, np, F, hcase⟩ := hd
  rcases hcase with ⟨_, h, _⟩ | ⟨t, h, _, hf, hs, hcore⟩
  · cases h
  · have h3 := congrArg Multiset.card hcore.part
    simp only [Multiset.card_add, Multiset.card_map, Multiset.card_range, Multiset.coe_card] at h3
    have h4 := hcore.len
    have h5 := hcore.nfree
    have key : Multiset.card (nodes invalidPage t) = 1 := by
      obtain ⟨p, es, cs⟩ := t
      cases h with
      | zero =>
        obtain ⟨rfl, _⟩ := hs
        rw [nodes_node]; simp
      | succ h =>
        exfalso
        obtain ⟨h1, h2, _, h6⟩ := hs
        simp only [rootLo] at h2
        rw [flat_node] at hf
        have h7 := weave_length es (flats cs) (Or.inr (by simpa using h1))
        rw [hf] at h7
        obtain ⟨c, cs', rfl⟩ : ∃ c cs', cs = c :: cs' := by
          cases cs with
          | nil => simp at h1
          | cons c cs' => exact ⟨c, cs', rfl⟩
        have h8 := h6 c (by simp)
        have h9 : 6 ≤ (flat c).length := by
          rw [← Shape.sum h 6 c h8 0]
          obtain ⟨r, hr, _⟩ := nodes_mem_top 0 c
          have := Shape.fill h c h8 0 r hr
          obtain ⟨R', hR'⟩ := Multiset.exists_cons_of_mem hr
          rw [hR', sumEs_cons]; omega
        rw [flats_cons] at h7
        simp only [List.length_cons, List.length_nil, List.map_cons, List.sum_cons] at h7
        omega
    omega

theorem adds_run (hE : FileEnvOk E) (hroom : RoomForDirs E) (hC : CmpOk C.cmp) (now : TimeSpec) (hn : ValidTime now) :
    ∀ (es acc : List DirEntry) (A : Attrs) (s : BSt) (d : DirObj), Rel E id A s d → Dir C s acc → (∀ e ∈ es, EntryOk e) →
    (es.Pairwise fun x y => C.cmp x.name y.name ≠ 0) → (∀ e ∈ es, ∀ x ∈ acc, C.cmp e.name x.name ≠ 0) →
    acc.length + es.length ≤ maxDirEntries →
    ∃ s' l', Rel E id (if es = [] then A else attrStep A (stamp now) .write) s' (runDir C d (es.map fun e => (now, .add e))).2 ∧
      Dir C s' l' ∧ l'.Perm (acc ++ es)
  | [], acc, A, s, d, hr, hd, _, _, _, _ => ⟨s, acc, hr, hd, by simp⟩
  | e :: es, acc, A, s, d, hr, hd, hok, hpw, hdis, hlen => by
    rw [List.length_cons] at hlen
    obtain ⟨s1, P, Q, rfl, e1, hd1⟩ := (addEntry_run hC e (hok e (by simp)) hd (by omega)).2 (hdis e (by simp))
    obtain ⟨d0, t0, r0⟩ := touchMtime_ok hr now hn
    obtain ⟨d1, t1, r1⟩ := use (sim_addEntry hE C e) r0 hd hroom (Nat.le_refl _) e1
    have hpw' := List.pairwise_cons.1 hpw
    obtain ⟨s2, l', r2, hd2, hp2⟩ := adds_run hE hroom hC now hn es (P ++ e :: Q) _ s1 d1 r1 hd1 (fun x hx => hok x (by simp [hx])) hpw'.2
      (by
        intro y hy x hx
        rw [List.mem_append, List.mem_cons] at hx
        rcases hx with hx | rfl | hx
        · exact hdis y (by simp [hy]) x (List.mem_append_left _ hx)
        · intro h0
          exact hpw'.1 y hy ((hC.eq_comm y.name x.name).1 h0)
        · exact hdis y (by simp [hy]) x (List.mem_append_right _ hx))
      (by simp only [List.length_append, List.length_cons] at hlen ⊢; omega)
    refine ⟨s2, l', ?_, hd2, hp2.trans ?_⟩
    · rw [if_neg (by simp)]
      rw [write_twice, ite_self] at r2
      have hc : call C now (.add e) d = (.ok (.out (.flag true)), d1) := by
        refine (touch_call t0).trans ?_
        rw [bind_ok t1]; rfl
      rw [List.map_cons, runDir, hc]
      exact r2
    · rw [List.append_assoc, List.append_assoc, List.cons_append]
      refine List.Perm.append_left P ?_
      exact List.perm_middle.symm

theorem removes_run (hE : FileEnvOk E) (hroom : RoomForDirs E) (hC : CmpOk C.cmp) (hr0 : ∀ a, C.cmp a a = 0) (now : TimeSpec) (hn : ValidTime now) :
    ∀ (es rest l : List DirEntry) (A : Attrs) (s : BSt) (d : DirObj), Rel E id A s d → Dir C s l → l.Perm (es ++ rest) → (∀ e ∈ es, EntryOk e) →
    ∃ s' l', Rel E id (if es = [] then A else attrStep A (stamp now) .write) s' (runDir C d (es.map fun e => (now, .remove e.name))).2 ∧
      Dir C s' l' ∧ l'.Perm rest ∧ s'.data.length = s.data.length
  | [], rest, l, A, s, d, hr, hd, hp, _ => ⟨s, l, hr, hd, hp, rfl⟩
  | e :: es, rest, l, A, s, d, hr, hd, hp, hok => by
    obtain ⟨s1, P, Q, rfl, e1, hlen, hd1⟩ := (removeEntry_len hC e.name (hok e (by simp)).1 hd).2 e (hp.symm.subset (by simp)) (hr0 _)
    obtain ⟨d0, t0, r0⟩ := touchMtime_ok hr now hn
    obtain ⟨d1, t1, r1⟩ := use (sim_removeEntry hE C e.name) r0 hd hroom (by omega) e1
    have hp1 : (P ++ Q).Perm (es ++ rest) := List.Perm.cons_inv (List.perm_middle.symm.trans hp)
    obtain ⟨s2, l', r2, hd2, hp2, hl2⟩ := removes_run hE hroom hC hr0 now hn es rest (P ++ Q) _ s1 d1 r1 hd1 hp1 (fun x hx => hok x (by simp [hx]))
    refine ⟨s2, l', ?_, hd2, hp2, hl2.trans hlen⟩
    rw [if_neg (by simp)]
    rw [write_twice, ite_self] at r2
    have hc : call C now (.remove e.name) d = (.ok (.out (.entry (some e))), d1) := by
      refine (touch_call t0).trans ?_
      rw [bind_ok t1]; rfl
    rw [List.map_cons, runDir, hc]
    exact r2

theorem runDir_append (C : BCfg) (cs cs' : List (TimeSpec × DirCall)) : ∀ d,
    runDir C d (cs ++ cs') = ((runDir C d cs).1 ++ (runDir C (runDir C d cs).2 cs').1, (runDir C (runDir C d cs).2 cs').2) := by
  induction cs with
  | nil => intro d; rfl
  | cons x cs ih =>
    intro d
    obtain ⟨now, c⟩ := x
    rw [List.cons_append, runDir, runDir]
    cases call C now c d with
    | mk r d1 => cases r <;> simp [ih]

end Securefs.DirFile
