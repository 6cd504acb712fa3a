import Verif.Spec.RepoLock
import Mathlib.Tactic.IntervalCases
/-!
# Lemmas about the lock file
-/

namespace Securefs

open Spec

/-! ## Numbers -/

/-- The value of digits. -/
def digitsValue (ds : List Nat) (acc : Nat) : Nat := ds.foldl (fun a d => a * 10 + d) acc

/-- The digits of a number, most significant first. -/
def digitsOf : (fuel : Nat) → Nat → List Nat → List Nat
  | 0, _, acc => acc
  | fuel + 1, n, acc => if n < 10 then n :: acc else digitsOf fuel (n / 10) (n % 10 :: acc)

theorem decimalAux_digits (fuel n : Nat) (acc : List Nat) :
    decimalAux fuel n (acc.map fun d => UInt8.ofNat (48 + d)) = (digitsOf fuel n acc).map fun d => UInt8.ofNat (48 + d) := by
  induction fuel generalizing n acc with
  | zero => rfl
  | succ fuel ih =>
    unfold decimalAux digitsOf
    by_cases h : n < 10
    · rw [if_pos h, if_pos h]; rfl
    · rw [if_neg h, if_neg h]; exact ih (n / 10) (n % 10 :: acc)

theorem digitsOf_lt (fuel n : Nat) (acc : List Nat) (ha : ∀ d ∈ acc, d < 10) : ∀ d ∈ digitsOf fuel n acc, d < 10 := by
  induction fuel generalizing n acc with
  | zero => exact ha
  | succ fuel ih =>
    unfold digitsOf
    by_cases h : n < 10
    · rw [if_pos h]
      intro d hd
      rcases List.mem_cons.mp hd with rfl | hd
      · exact h
      · exact ha d hd
    · rw [if_neg h]
      refine ih _ _ ?_
      intro d hd
      rcases List.mem_cons.mp hd with rfl | hd
      · exact Nat.mod_lt _ (by decide)
      · exact ha d hd

theorem digitsValue_digitsOf (fuel n : Nat) (acc : List Nat) (h : n < 10 ^ fuel) :
    digitsValue (digitsOf fuel n acc) 0 = digitsValue acc n := by
  induction fuel generalizing n acc with
  | zero =>
    have : n = 0 := by simpa using h
    subst this
    rfl
  | succ fuel ih =>
    unfold digitsOf
    by_cases h10 : n < 10
    · rw [if_pos h10]
      show digitsValue acc (0 * 10 + n) = _
      rw [Nat.zero_mul, Nat.zero_add]
    · rw [if_neg h10, ih _ _ (by rw [Nat.pow_succ] at h; omega)]
      show digitsValue acc (n / 10 * 10 + n % 10) = _
      congr 1
      omega

theorem digitsOf_ne_nil (fuel n : Nat) (acc : List Nat) : digitsOf (fuel + 1) n acc ≠ [] := by
  induction fuel generalizing n acc with
  | zero =>
    unfold digitsOf
    by_cases h : n < 10
    · rw [if_pos h]; exact nofun
    · rw [if_neg h]; exact nofun
  | succ fuel ih =>
    unfold digitsOf
    by_cases h : n < 10
    · rw [if_pos h]; exact nofun
    · rw [if_neg h]; exact ih _ _

theorem digit_byte (d : Nat) (h : d < 10) :
    (48 ≤ UInt8.ofNat (48 + d) ∧ UInt8.ofNat (48 + d) ≤ 57) ∧ (UInt8.ofNat (48 + d)).toNat - 48 = d ∧ isSpace (UInt8.ofNat (48 + d)) = false ∧
      UInt8.ofNat (48 + d) ≠ 45 ∧ UInt8.ofNat (48 + d) ≠ 43 := by
  interval_cases d <;> decide

theorem parseDigits_map (ds : List Nat) (h : ∀ d ∈ ds, d < 10) (acc : Nat) :
    parseDigits (ds.map fun d => UInt8.ofNat (48 + d)) acc = some (digitsValue ds acc) := by
  induction ds generalizing acc with
  | nil => rfl
  | cons d rest ih =>
    obtain ⟨h1, h2, _⟩ := digit_byte d (h d List.mem_cons_self)
    show parseDigits (UInt8.ofNat (48 + d) :: _) acc = _
    unfold parseDigits
    rw [if_pos h1, h2]
    exact ih (fun x hx => h x (List.mem_cons_of_mem _ hx)) _

theorem dropWhile_none {l : Bytes} (h : ∀ c ∈ l, isSpace c = false) : l.dropWhile isSpace = l := by
  cases l with
  | nil => rfl
  | cons c rest => rw [List.dropWhile_cons_of_neg]; rw [h c List.mem_cons_self]; decide

/-- A written process identifier is read back. -/
theorem simpleAtoi_decimal {p : Nat} (h : p < 2 ^ 31) : simpleAtoi (decimal p) = some (p : Int) := by
  have hd : decimal p = (digitsOf 10 p []).map fun d => UInt8.ofNat (48 + d) := decimalAux_digits 10 p []
  have hlt := digitsOf_lt 10 p [] (fun d hd => by cases hd)
  have hval := digitsValue_digitsOf 10 p [] (by have : (2 : Nat) ^ 31 < 10 ^ 10 := by decide
                                                omega)
  have hne := digitsOf_ne_nil 9 p []
  have hsp : ∀ c ∈ decimal p, isSpace c = false := by
    intro c hc
    rw [hd] at hc
    obtain ⟨d, hd', rfl⟩ := List.mem_map.mp hc
    exact (digit_byte d (hlt d hd')).2.2.1
  unfold simpleAtoi
  rw [dropWhile_none hsp, dropWhile_none (fun c hc => hsp c (List.mem_reverse.mp hc)), List.reverse_reverse]
  cases hp : digitsOf 10 p [] with
  | nil => exact absurd hp hne
  | cons d rest =>
    rw [hp] at hlt hval
    rw [hd, hp]
    obtain ⟨_, _, _, h45, h43⟩ := digit_byte d (hlt d List.mem_cons_self)
    rw [List.map_cons]
    dsimp only
    have hsign : (if UInt8.ofNat (48 + d) = 45 ∨ UInt8.ofNat (48 + d) = 43 then rest.map fun d => UInt8.ofNat (48 + d)
        else UInt8.ofNat (48 + d) :: rest.map fun d => UInt8.ofNat (48 + d)) = UInt8.ofNat (48 + d) :: rest.map fun d => UInt8.ofNat (48 + d) :=
      if_neg (by rintro (h | h); exacts [h45 h, h43 h])
    rw [hsign]
    dsimp only
    have hb : (UInt8.ofNat (48 + d) == 45) = false := by simpa using h45
    have hparse := parseDigits_map (d :: rest) hlt 0
    rw [List.map_cons] at hparse
    rw [hb, hparse, hval]
    show (if p < 2 ^ 31 then some (p : Int) else none) = _
    rw [if_pos h]

theorem decimal_inj {p q : Nat} (hp : p < 2 ^ 31) (hq : q < 2 ^ 31) (h : decimal p = decimal q) : p = q := by
  have h1 := simpleAtoi_decimal hp
  rw [h, simpleAtoi_decimal hq] at h1
  injection h1 with h1
  omega

/-! ## Exclusion -/

namespace LockSys

/-- The process has not begun, has mounted, or was refused. -/
def Calm (s : LockSys) (p : Nat) : Prop := s.pc p = .idle ∨ (∃ i, s.pc p = .mounted i) ∨ s.pc p = .refused

/-- The lock file is that of the process. -/
def Owned (s : LockSys) (p i : Nat) : Prop := 0 < p ∧ p < 2 ^ 31 ∧ s.name = some i ∧ s.inodes[i]? = some (decimal p)

/-- The invariant while only process `p` makes system calls. -/
structure Mid (s : LockSys) (p : Nat) : Prop where
  calm : ∀ q, q ≠ p → s.running q = true → s.Calm q
  owned : ∀ q i, q ≠ p → s.running q = true → s.pc q = .mounted i → s.Owned q i
  name : ∀ i, s.name = some i → i < s.inodes.length
  self : s.running p = true →
    match s.pc p with
    | .idle | .refused => True
    | .present => s.name ≠ none
    | .reading i => s.name = some i
    | .opened i | .truncated i => s.name = some i ∧ ∀ q, q ≠ p → ¬ Holds s q
    | .mounted i => s.Owned p i
    | .closed | .flushing => False

/-- The invariant between uses. -/
structure Inv (s : LockSys) : Prop where
  calm : ∀ q, s.running q = true → s.Calm q
  owned : ∀ q i, s.running q = true → s.pc q = .mounted i → s.Owned q i
  name : ∀ i, s.name = some i → i < s.inodes.length

theorem Inv.mid {s : LockSys} (h : s.Inv) (p : Nat) : s.Mid p where
  calm q _ hr := h.calm q hr
  owned q i _ hr hm := h.owned q i hr hm
  name := h.name
  self hr := by
    rcases h.calm p hr with hc | ⟨i, hc⟩ | hc
    · rw [hc]; trivial
    · rw [hc]; exact h.owned p i hr hc
    · rw [hc]; trivial

theorem Mid.inv {s : LockSys} {p : Nat} (h : s.Mid p) (hc : s.running p = true → s.Calm p) : s.Inv where
  calm q hr := by
    by_cases hq : q = p
    · subst hq; exact hc hr
    · exact h.calm q hq hr
  owned q i hr hm := by
    by_cases hq : q = p
    · subst hq
      have := h.self hr
      rw [hm] at this
      exact this
    · exact h.owned q i hq hr hm
  name := h.name

theorem setPc_self (s : LockSys) (p : Nat) (pc : LockPc) : (s.setPc p pc).pc p = pc := if_pos rfl

theorem setPc_ne (s : LockSys) {p q : Nat} (pc : LockPc) (h : q ≠ p) : (s.setPc p pc).pc q = s.pc q := if_neg h

/-- Two processes that hold the lock are the same. -/
theorem owned_unique {s : LockSys} {p q i j : Nat} (h : s.Owned p i) (h' : s.Owned q j) : p = q := by
  obtain ⟨_, h1, h2, h3⟩ := h
  obtain ⟨_, h1', h2', h3'⟩ := h'
  rw [h2] at h2'
  injection h2' with h2'
  subst h2'
  rw [h3] at h3'
  injection h3' with h3'
  exact decimal_inj h1 h1' h3'

/-- Only the place of `p` changes. -/
theorem Mid.move {s : LockSys} {p : Nat} (h : s.Mid p) (pc : LockPc)
    (hself : match pc with
      | .idle | .refused => True
      | .present => s.name ≠ none
      | .reading i => s.name = some i
      | .opened i | .truncated i => s.name = some i ∧ ∀ q, q ≠ p → ¬ Holds s q
      | .mounted i => s.Owned p i
      | .closed | .flushing => False) : (s.setPc p pc).Mid p where
  calm q hq hr := by
    have := h.calm q hq hr
    unfold Calm at this ⊢
    rw [setPc_ne s pc hq]
    exact this
  owned q i hq hr hm := h.owned q i hq hr (by rw [setPc_ne s pc hq] at hm; exact hm)
  name := h.name
  self hr := by
    rw [setPc_self]
    have hh : ∀ q, q ≠ p → (Holds (s.setPc p pc) q ↔ Holds s q) := by
      intro q hq
      unfold Holds
      rw [setPc_ne s pc hq]
      exact Iff.rfl
    cases pc with
    | opened i => exact ⟨hself.1, fun q hq hx => hself.2 q hq ((hh q hq).mp hx)⟩
    | truncated i => exact ⟨hself.1, fun q hq hx => hself.2 q hq ((hh q hq).mp hx)⟩
    | _ => exact hself

theorem Mid.step {s : LockSys} {p : Nat} (hp : 0 < p ∧ p < 2 ^ 31) (h : s.Mid p) (hr : s.running p = true) : (s.stepProc p).Mid p := by
  have hs := h.self hr
  unfold stepProc
  cases hpc : s.pc p with
  | idle =>
    dsimp only
    cases hn : s.name with
    | some i => exact h.move .present (by dsimp only; rw [hn]; exact nofun)
    | none =>
      dsimp only
      have hnone : ∀ q, q ≠ p → ¬ Holds s q := by
        rintro q hq ⟨hr', i, hi⟩
        have := (h.owned q i hq hr' hi).2.2.1
        rw [hn] at this
        cases this
      exact {
        calm := fun q hq hr' => (by
          have := h.calm q hq hr'
          unfold Calm at this ⊢
          show (s.setPc p _).pc q = _ ∨ (∃ i, (s.setPc p _).pc q = _) ∨ (s.setPc p _).pc q = _
          rw [setPc_ne s _ hq]
          exact this)
        owned := fun q i hq hr' hm => absurd ⟨hr', i, by
          have hm : (s.setPc p _).pc q = .mounted i := hm
          rw [setPc_ne s _ hq] at hm
          exact hm⟩ (hnone q hq)
        name := by
          intro i hi
          injection hi with hi
          simp [← hi]
        self := by
          intro _
          show match (s.setPc p (.opened s.inodes.length)).pc p with | _ => _
          rw [setPc_self]
          refine ⟨rfl, ?_⟩
          rintro q hq ⟨hr', i, hi⟩
          have hi : (s.setPc p _).pc q = .mounted i := hi
          rw [setPc_ne s _ hq] at hi
          exact hnone q hq ⟨hr', i, hi⟩ }
  | present =>
    rw [hpc] at hs
    dsimp only
    cases hn : s.name with
    | none => exact absurd hn hs
    | some i => exact h.move (.reading i) hn
  | reading i =>
    rw [hpc] at hs
    dsimp only
    cases hc : s.inodes[i]? with
    | none => exact h.move .refused trivial
    | some content =>
      dsimp only
      have hopen : (∀ pid, simpleAtoi content = some pid → isProcessRunning s.running pid = false) → (s.setPc p (.opened i)).Mid p := by
        intro hfree
        refine h.move (.opened i) ⟨hs, ?_⟩
        rintro q hq ⟨hr', j, hj⟩
        obtain ⟨hq0, hq1, hq2, hq3⟩ := h.owned q j hq hr' hj
        have hs : s.name = some i := hs
        rw [hs] at hq2
        injection hq2 with hq2
        subst hq2
        rw [hc] at hq3
        injection hq3 with hq3
        have := hfree q (by rw [hq3]; exact simpleAtoi_decimal hq1)
        unfold isProcessRunning at this
        rw [if_neg (by omega), Int.toNat_natCast] at this
        rw [this] at hr'
        cases hr'
      cases ha : simpleAtoi content with
      | none => exact hopen (by rw [ha]; exact nofun)
      | some pid =>
        dsimp only
        by_cases hrun : isProcessRunning s.running pid = true
        · rw [if_pos hrun]; exact h.move .refused trivial
        · rw [if_neg hrun]
          refine hopen ?_
          intro pid' h'
          rw [ha] at h'
          injection h' with h'
          subst h'
          simpa using hrun
  | opened i =>
    rw [hpc] at hs
    obtain ⟨hs1, hs2⟩ := hs
    dsimp only
    exact {
      calm := fun q hq hr' => (by
        have := h.calm q hq hr'
        unfold Calm at this ⊢
        show (s.setPc p _).pc q = _ ∨ (∃ i, (s.setPc p _).pc q = _) ∨ (s.setPc p _).pc q = _
        rw [setPc_ne s _ hq]
        exact this)
      owned := fun q j hq hr' hm => absurd ⟨hr', j, by
        have hm : (s.setPc p _).pc q = .mounted j := hm
        rw [setPc_ne s _ hq] at hm
        exact hm⟩ (hs2 q hq)
      name := by
        intro j hj
        have := h.name j hj
        simpa using this
      self := by
        intro _
        show match (s.setPc p (.truncated i)).pc p with | _ => _
        rw [setPc_self]
        refine ⟨hs1, ?_⟩
        rintro q hq ⟨hr', j, hj⟩
        have hj : (s.setPc p _).pc q = .mounted j := hj
        rw [setPc_ne s _ hq] at hj
        exact hs2 q hq ⟨hr', j, hj⟩ }
  | truncated i =>
    rw [hpc] at hs
    obtain ⟨hs1, hs2⟩ := hs
    dsimp only
    exact {
      calm := fun q hq hr' => (by
        have := h.calm q hq hr'
        unfold Calm at this ⊢
        show (s.setPc p _).pc q = _ ∨ (∃ i, (s.setPc p _).pc q = _) ∨ (s.setPc p _).pc q = _
        rw [setPc_ne s _ hq]
        exact this)
      owned := fun q j hq hr' hm => absurd ⟨hr', j, by
        have hm : (s.setPc p _).pc q = .mounted j := hm
        rw [setPc_ne s _ hq] at hm
        exact hm⟩ (hs2 q hq)
      name := by
        intro j hj
        have := h.name j hj
        simpa using this
      self := by
        intro _
        show match (s.setPc p (.mounted i)).pc p with | _ => _
        rw [setPc_self]
        refine ⟨hp.1, hp.2, hs1, ?_⟩
        exact List.getElem?_set_self (h.name i hs1) }
  | mounted i => exact h
  | closed => rw [hpc] at hs; exact hs.elim
  | flushing => rw [hpc] at hs; exact hs.elim
  | refused => exact h

theorem stepProc_running (s : LockSys) (p : Nat) : (s.stepProc p).running = s.running := by
  unfold stepProc
  split
  · split <;> rfl
  · split <;> rfl
  · split
    · rfl
    · split
      · split <;> rfl
      · rfl
  all_goals rfl

theorem Mid.steps {p : Nat} (hp : 0 < p ∧ p < 2 ^ 31) (k : Nat) : ∀ s : LockSys, s.Mid p → s.running p = true →
    (s.run (List.replicate k (.step p))).Mid p ∧ (s.run (List.replicate k (.step p))).running = s.running := by
  induction k with
  | zero => intro s h _; exact ⟨h, rfl⟩
  | succ k ih =>
    intro s h hr
    have h1 : s.step (.step p) = s.stepProc p := if_pos hr
    have h2 := ih (s.stepProc p) (h.step hp hr) (by rw [stepProc_running]; exact hr)
    show ((s.step (.step p)).run (List.replicate k (.step p))).Mid p ∧ ((s.step (.step p)).run (List.replicate k (.step p))).running = _
    rw [h1]
    exact ⟨h2.1, h2.2.trans (s.stepProc_running p)⟩

/-- The process an event belongs to. -/
def _root_.Securefs.LockEv.proc : LockEv → Nat
  | .spawn p | .die p | .step p | .leave p | .fail p | .unmount p => p

theorem step_pc_ne (s : LockSys) (ev : LockEv) {q : Nat} (h : q ≠ ev.proc) : (s.step ev).pc q = s.pc q := by
  cases ev with
  | spawn p =>
    unfold step
    dsimp only
    split
    · rfl
    · exact setPc_ne s _ h
  | die p => exact setPc_ne s _ h
  | step p =>
    unfold step
    dsimp only
    split
    · unfold stepProc
      split
      · split
        · exact setPc_ne s _ h
        · exact setPc_ne s _ h
      · split <;> exact setPc_ne s _ h
      · split
        · exact setPc_ne s _ h
        · split
          · split <;> exact setPc_ne s _ h
          · exact setPc_ne s _ h
      · exact setPc_ne s _ h
      · exact setPc_ne s _ h
      · rfl
    · rfl
  | leave p =>
    unfold step
    dsimp only
    split
    · unfold stepLeave
      split
      · exact setPc_ne s _ h
      · exact setPc_ne s _ h
      · rfl
    · rfl
  | fail p =>
    unfold step
    dsimp only
    split
    · split
      · rfl
      · rfl
      · rfl
      · exact setPc_ne s _ h
    · rfl
  | unmount p =>
    unfold step
    dsimp only
    split
    · split
      · exact setPc_ne s _ h
      · rfl
    · rfl

theorem run_pc_ne (evs : List LockEv) {q : Nat} : ∀ s : LockSys, (∀ ev ∈ evs, q ≠ ev.proc) → (s.run evs).pc q = s.pc q := by
  induction evs with
  | nil => intro s _; rfl
  | cons ev rest ih =>
    intro s h
    show ((s.step ev).run rest).pc q = _
    rw [ih _ fun x hx => h x (List.mem_cons_of_mem _ hx), step_pc_ne s ev (h ev List.mem_cons_self)]

/-- How many system calls a process is away from the end of its mount. -/
def rank : LockPc → Nat
  | .idle => 5
  | .present => 4
  | .reading _ => 3
  | .opened _ => 2
  | .truncated _ => 1
  | _ => 0

theorem stepProc_rank (s : LockSys) (p : Nat) (hc : s.pc p ≠ .closed) (hf : s.pc p ≠ .flushing) :
    rank ((s.stepProc p).pc p) ≤ rank (s.pc p) - 1 ∧ (s.stepProc p).pc p ≠ .closed ∧ (s.stepProc p).pc p ≠ .flushing := by
  unfold stepProc
  cases hpc : s.pc p with
  | idle =>
    dsimp only
    cases s.name with
    | none =>
      show rank ((s.setPc p _).pc p) ≤ _ ∧ (s.setPc p _).pc p ≠ _ ∧ (s.setPc p _).pc p ≠ _
      rw [setPc_self]; exact ⟨by simp [rank], nofun, nofun⟩
    | some i => dsimp only; rw [setPc_self]; exact ⟨by decide, nofun, nofun⟩
  | present =>
    dsimp only
    cases s.name <;> dsimp only <;> rw [setPc_self] <;> exact ⟨by simp [rank], nofun, nofun⟩
  | reading i =>
    dsimp only
    cases s.inodes[i]? with
    | none => dsimp only; rw [setPc_self]; exact ⟨by simp [rank], nofun, nofun⟩
    | some content =>
      dsimp only
      cases simpleAtoi content with
      | none => dsimp only; rw [setPc_self]; exact ⟨by simp [rank], nofun, nofun⟩
      | some pid =>
        dsimp only
        split <;> rw [setPc_self] <;> exact ⟨by simp [rank], nofun, nofun⟩
  | opened i =>
    show rank ((s.setPc p _).pc p) ≤ _ ∧ (s.setPc p _).pc p ≠ _ ∧ (s.setPc p _).pc p ≠ _
    rw [setPc_self]; exact ⟨by simp [rank], nofun, nofun⟩
  | truncated i =>
    show rank ((s.setPc p _).pc p) ≤ _ ∧ (s.setPc p _).pc p ≠ _ ∧ (s.setPc p _).pc p ≠ _
    rw [setPc_self]; exact ⟨by simp [rank], nofun, nofun⟩
  | mounted i => dsimp only; rw [hpc]; exact ⟨by simp [rank], nofun, nofun⟩
  | closed => exact absurd hpc hc
  | flushing => exact absurd hpc hf
  | refused => dsimp only; rw [hpc]; exact ⟨by simp [rank], nofun, nofun⟩

theorem steps_rank {p : Nat} (k : Nat) : ∀ s : LockSys, s.running p = true → s.pc p ≠ .closed → s.pc p ≠ .flushing →
    rank ((s.run (List.replicate k (.step p))).pc p) ≤ rank (s.pc p) - k ∧ (s.run (List.replicate k (.step p))).pc p ≠ .closed ∧
      (s.run (List.replicate k (.step p))).pc p ≠ .flushing := by
  induction k with
  | zero => intro s _ hc hf; exact ⟨Nat.le_refl _, hc, hf⟩
  | succ k ih =>
    intro s hr hc hf
    have h1 : s.step (.step p) = s.stepProc p := if_pos hr
    obtain ⟨h2, h3, h4⟩ := s.stepProc_rank p hc hf
    obtain ⟨h5, h6, h7⟩ := ih (s.stepProc p) (by rw [stepProc_running]; exact hr) h3 h4
    show rank (((s.step (.step p)).run (List.replicate k (.step p))).pc p) ≤ _ ∧ ((s.step (.step p)).run (List.replicate k (.step p))).pc p ≠ _ ∧
      ((s.step (.step p)).run (List.replicate k (.step p))).pc p ≠ _
    rw [h1]
    exact ⟨by omega, h6, h7⟩

theorem rank_zero {pc : LockPc} (h : rank pc = 0) (hc : pc ≠ .closed) (hf : pc ≠ .flushing) : (∃ i, pc = .mounted i) ∨ pc = .refused := by
  cases pc with
  | mounted i => exact .inl ⟨i, rfl⟩
  | refused => exact .inr rfl
  | closed => exact absurd rfl hc
  | flushing => exact absurd rfl hf
  | _ => simp [rank] at h

theorem Calm.not_leaving {s : LockSys} {p : Nat} (h : s.Calm p) : s.pc p ≠ .closed ∧ s.pc p ≠ .flushing := by
  rcases h with h | ⟨i, h⟩ | h <;> rw [h] <;> exact ⟨nofun, nofun⟩

theorem run_append (s : LockSys) (a b : List LockEv) : s.run (a ++ b) = (s.run a).run b := by
  unfold run; rw [List.foldl_append]

theorem steps_dead {p : Nat} (k : Nat) (s : LockSys) (h : s.running p = false) : s.run (List.replicate k (.step p)) = s := by
  induction k with
  | zero => rfl
  | succ k ih =>
    show (s.step (.step p)).run (List.replicate k (.step p)) = s
    have : s.step (.step p) = s := by show (if s.running p = true then _ else s) = s; rw [h]; rfl
    rw [this]
    exact ih

theorem Mid.die {s : LockSys} {p : Nat} (h : s.Mid p) : (s.step (.die p)).Inv where
  calm q hr := by
    have hr : (if q = p then false else s.running q) = true := hr
    by_cases hq : q = p
    · rw [if_pos hq] at hr; cases hr
    · rw [if_neg hq] at hr
      have := h.calm q hq hr
      unfold Calm at this ⊢
      show (s.setPc p _).pc q = _ ∨ (∃ i, (s.setPc p _).pc q = _) ∨ (s.setPc p _).pc q = _
      rw [setPc_ne s _ hq]
      exact this
  owned q i hr hm := by
    have hr : (if q = p then false else s.running q) = true := hr
    by_cases hq : q = p
    · rw [if_pos hq] at hr; cases hr
    · rw [if_neg hq] at hr
      have hm : (s.setPc p _).pc q = .mounted i := hm
      rw [setPc_ne s _ hq] at hm
      exact h.owned q i hq hr hm
  name := h.name

theorem Inv.use {s : LockSys} (h : s.Inv) (u : LockUse) (hu : PidOk u) : (s.run u.events).Inv := by
  cases u with
  | die p => exact (h.mid p).die
  | crash p k =>
    show (s.run (List.replicate (min k 5) (.step p) ++ [.die p])).Inv
    rw [run_append]
    cases hr : s.running p with
    | true => exact ((h.mid p).steps hu (min k 5) s hr).1.die
    | false => rw [steps_dead _ _ hr]; exact (h.mid p).die
  | spawn p =>
    show (if s.running p then s else { s.setPc p .idle with running := fun q => if q = p then true else s.running q } : LockSys).Inv
    cases hr : s.running p with
    | true => exact h
    | false =>
      rw [if_neg (by decide)]
      exact {
        calm := by
          intro q hq
          by_cases he : q = p
          · subst he; exact .inl (setPc_self s q .idle)
          · have hq : (if q = p then true else s.running q) = true := hq
            rw [if_neg he] at hq
            have := h.calm q hq
            unfold Calm at this ⊢
            show (s.setPc p _).pc q = _ ∨ (∃ i, (s.setPc p _).pc q = _) ∨ (s.setPc p _).pc q = _
            rw [setPc_ne s _ he]
            exact this
        owned := by
          intro q i hq hm
          have hm : (s.setPc p .idle).pc q = .mounted i := hm
          by_cases he : q = p
          · subst he; rw [setPc_self] at hm; cases hm
          · have hq : (if q = p then true else s.running q) = true := hq
            rw [if_neg he] at hq
            rw [setPc_ne s _ he] at hm
            exact h.owned q i hq hm
        name := h.name }
  | mount p =>
    cases hr : s.running p with
    | false => show (s.run (List.replicate 5 (.step p))).Inv; rw [steps_dead _ _ hr]; exact h
    | true =>
      refine ((h.mid p).steps hu 5 s hr).1.inv fun _ => ?_
      obtain ⟨hc, hf⟩ := (h.calm p hr).not_leaving
      obtain ⟨h1, h2, h3⟩ := steps_rank 5 s hr hc hf
      have h5 : rank (s.pc p) ≤ 5 := by cases s.pc p <;> simp [rank]
      exact .inr (rank_zero (by omega) h2 h3)
  | broken p k =>
    show (s.run (List.replicate (min k 4) (.step p) ++ [.fail p])).Inv
    rw [run_append]
    cases hr : s.running p with
    | false =>
      rw [steps_dead _ _ hr]
      have : s.step (.fail p) = s := by show (if s.running p = true then _ else s) = s; rw [hr]; rfl
      show (s.step (.fail p)).Inv
      rw [this]
      exact h
    | true =>
      obtain ⟨h1, h2⟩ := (h.mid p).steps hu (min k 4) s hr
      obtain ⟨hc, hf⟩ := (h.calm p hr).not_leaving
      obtain ⟨_, h3, h4⟩ := steps_rank (min k 4) s hr hc hf
      generalize s.run (List.replicate (min k 4) (.step p)) = s' at h1 h2 h3 h4
      have hr' : s'.running p = true := by rw [h2]; exact hr
      show (s'.step (.fail p)).Inv
      have : s'.step (.fail p) = match s'.pc p with
          | .mounted _ | .closed | .flushing => s'
          | _ => s'.setPc p .refused := if_pos hr'
      rw [this]
      cases hpc : s'.pc p with
      | mounted i => exact h1.inv fun _ => .inr (.inl ⟨i, hpc⟩)
      | closed => exact absurd hpc h3
      | flushing => exact absurd hpc h4
      | _ => exact (h1.move .refused trivial).inv fun _ => .inr (.inr (setPc_self _ _ _))
  | unmount p =>
    show (((s.step (.unmount p)).step (.leave p)).step (.leave p)).Inv
    cases hr : s.running p with
    | false =>
      have h1 : s.step (.unmount p) = s := by show (if s.running p = true then _ else s) = s; rw [hr]; rfl
      have h2 : s.step (.leave p) = s := by show (if s.running p = true then _ else s) = s; rw [hr]; rfl
      rw [h1, h2, h2]
      exact h
    | true =>
      have h1 : s.step (.unmount p) = match s.pc p with
          | .mounted _ => s.setPc p .closed
          | _ => s := if_pos hr
      have hgo : ∀ s' : LockSys, s'.running p = true → s'.step (.leave p) = s'.stepLeave p := fun s' hr' => if_pos hr'
      have hsame : (∀ i, s.pc p ≠ .mounted i) → s.pc p ≠ .closed → s.pc p ≠ .flushing → (((s.step (.unmount p)).step (.leave p)).step (.leave p)) = s := by
        intro hm hc hf
        have h2 : s.stepLeave p = s := by
          unfold stepLeave
          split
          · rename_i h; exact absurd h hc
          · rename_i h; exact absurd h hf
          · rfl
        have h3 : s.step (.unmount p) = s := by
          rw [h1]
          split
          · rename_i i h; exact absurd h (hm i)
          · rfl
        rw [h3, hgo s hr, h2, hgo s hr, h2]
      rcases h.calm p hr with hc | ⟨i, hc⟩ | hc
      · rw [hsame (by rw [hc]; exact nofun) (by rw [hc]; exact nofun) (by rw [hc]; exact nofun)]; exact h
      · have ho := h.owned p i hr hc
        rw [h1, hc]
        dsimp only
        rw [hgo (s.setPc p .closed) hr]
        have h2 : (s.setPc p .closed).stepLeave p = { (s.setPc p .closed).setPc p .flushing with name := none } := by
          unfold stepLeave
          rw [setPc_self]
        rw [h2, hgo _ (by exact hr)]
        have h3 : ({ (s.setPc p .closed).setPc p .flushing with name := none } : LockSys).stepLeave p =
            { ((s.setPc p .closed).setPc p .flushing).setPc p .idle with name := none } := by
          unfold stepLeave
          have : ({ (s.setPc p .closed).setPc p .flushing with name := none } : LockSys).pc p = .flushing := setPc_self _ _ _
          rw [this]
          rfl
        rw [h3]
        have hne : ∀ q, q ≠ p → (((s.setPc p .closed).setPc p .flushing).setPc p .idle).pc q = s.pc q := fun q hq => by
          rw [setPc_ne _ _ hq, setPc_ne _ _ hq, setPc_ne _ _ hq]
        exact {
          calm := by
            intro q hq
            unfold Calm
            show (((s.setPc p .closed).setPc p .flushing).setPc p .idle).pc q = _ ∨ (∃ i, (((s.setPc p .closed).setPc p .flushing).setPc p .idle).pc q = _) ∨
              (((s.setPc p .closed).setPc p .flushing).setPc p .idle).pc q = _
            by_cases he : q = p
            · subst he; exact .inl (setPc_self _ _ _)
            · rw [hne q he]; exact h.calm q hq
          owned := by
            intro q j hq hm
            have hm : (((s.setPc p .closed).setPc p .flushing).setPc p .idle).pc q = .mounted j := hm
            by_cases he : q = p
            · subst he; rw [setPc_self] at hm; cases hm
            · rw [hne q he] at hm
              exact absurd (owned_unique (h.owned q j hq hm) ho) he
          name := nofun }
      · rw [hsame (by rw [hc]; exact nofun) (by rw [hc]; exact nofun) (by rw [hc]; exact nofun)]; exact h

theorem Inv.uses (us : List LockUse) : ∀ s : LockSys, s.Inv → (∀ u ∈ us, PidOk u) → (s.run (us.flatMap LockUse.events)).Inv := by
  induction us with
  | nil => intro s h _; exact h
  | cons u rest ih =>
    intro s h hu
    rw [List.flatMap_cons, run_append]
    exact ih _ (h.use u (hu u List.mem_cons_self)) fun x hx => hu x (List.mem_cons_of_mem _ hx)

theorem _root_.Securefs.Spec.Clean.inv {s : LockSys} (h : Clean s) : s.Inv where
  calm p _ := .inl (h.idle p)
  owned p i _ hm := by rw [h.idle p] at hm; cases hm
  name := h.name

/-! ## What a mount does -/

/-- The mount of a process when nobody else makes system calls. -/
theorem mount_free {s : LockSys} {p : Nat} (hr : s.running p = true) (hidle : s.pc p = .idle) (hn : s.name = none) :
    ∃ i, (s.run (List.replicate 5 (.step p))).pc p = .mounted i := by
  have h0 : s.step (.step p) = { s.setPc p (.opened s.inodes.length) with inodes := s.inodes ++ [[]], name := some s.inodes.length } := by
    show (if s.running p = true then s.stepProc p else s) = _
    rw [if_pos hr]; unfold stepProc; rw [hidle, hn]
  refine ⟨s.inodes.length, ?_⟩
  show (((((s.step (.step p)).step (.step p)).step (.step p)).step (.step p)).step (.step p)).pc p = _
  rw [h0]
  simp [LockSys.step, stepProc, setPc, hr]

theorem mount_present {s : LockSys} {p i : Nat} {content : Bytes} (hr : s.running p = true) (hidle : s.pc p = .idle) (hn : s.name = some i)
    (hc : s.inodes[i]? = some content) :
    (s.run (List.replicate 5 (.step p))).pc p =
      (match simpleAtoi content with
        | some pid => if isProcessRunning s.running pid then .refused else .mounted i
        | none => .mounted i) := by
  show (((((s.step (.step p)).step (.step p)).step (.step p)).step (.step p)).step (.step p)).pc p = _
  cases ha : simpleAtoi content with
  | none => simp [LockSys.step, stepProc, setPc, hr, hidle, hn, hc, ha]
  | some pid =>
    by_cases hrun : isProcessRunning s.running pid = true
    · simp [LockSys.step, stepProc, setPc, hr, hidle, hn, hc, ha, hrun]
    · simp [LockSys.step, stepProc, setPc, hr, hidle, hn, hc, ha, hrun]

end LockSys

end Securefs
