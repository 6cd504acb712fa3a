import Verif.Model.WinOs
import Verif.Spec.Win
import Mathlib.Data.List.Basic
/-!
# Lemmas on the Windows half of the platform layer
-/

namespace Securefs.Win

open Spec.Win

/-! ### Times -/

theorem dwordPair_eq (low high : Nat) (hl : low < 2 ^ 32) (hh : high < 2 ^ 32) : dwordPair low high = low + 2 ^ 32 * high := by
  unfold dwordPair
  rw [Nat.or_comm, ← Nat.shiftLeft_add_eq_or_of_lt hl, Nat.shiftLeft_eq]
  omega

theorem toUnix_eq (ft : Filetime) (h : ft.high.toNat < 2 ^ 31) :
    toUnix ft = ⟨((ft.low.toNat + 2 ^ 32 * ft.high.toNat : Nat) - (epoch : Int)).tdiv 10000000,
      ((ft.low.toNat + 2 ^ 32 * ft.high.toNat : Nat) - (epoch : Int)).tmod 10000000 * 100⟩ := by
  have hl : ft.low.toNat < 2 ^ 32 := ft.low.toNat_lt
  have e : toSigned64 ((dwordPair ft.low.toNat ft.high.toNat + 2 ^ 64 - epoch) % 2 ^ 64) = (ft.low.toNat + 2 ^ 32 * ft.high.toNat : Nat) - (epoch : Int) := by
    rw [dwordPair_eq _ _ hl (by omega)]
    unfold toSigned64 epoch
    split <;> omega
  unfold toUnix
  rw [e]

theorem signed64_ok {n : Int} (h1 : -2 ^ 63 ≤ n) (h2 : n < 2 ^ 63) : signed64 n = .ok n := if_pos ⟨h1, h2⟩

theorem ofUnix_ok {t : Timespec} (h1 : -2 ^ 63 ≤ t.sec * 10000000) (h1' : t.sec * 10000000 < 2 ^ 63)
    (h2 : -2 ^ 63 ≤ t.sec * 10000000 + t.nsec.tdiv 100) (h2' : t.sec * 10000000 + t.nsec.tdiv 100 < 2 ^ 63)
    (h3 : -2 ^ 63 ≤ t.sec * 10000000 + t.nsec.tdiv 100 + (epoch : Int)) (h3' : t.sec * 10000000 + t.nsec.tdiv 100 + (epoch : Int) < 2 ^ 63) :
    ofUnix t = .ok ⟨UInt32.ofNat ((t.sec * 10000000 + t.nsec.tdiv 100 + (epoch : Int)) % 2 ^ 32).toNat,
      UInt32.ofNat ((t.sec * 10000000 + t.nsec.tdiv 100 + (epoch : Int)) / 2 ^ 32 % 2 ^ 32).toNat⟩ := by
  unfold ofUnix
  rw [signed64_ok h1 h1']
  show (signed64 _ >>= _) = _
  rw [signed64_ok h2 h2']
  show (signed64 _ >>= _) = _
  rw [signed64_ok h3 h3']
  rfl

theorem halves {n : Int} (h0 : 0 ≤ n) (h1 : n < 2 ^ 63) :
    (UInt32.ofNat (n % 2 ^ 32).toNat).toNat = (n % 2 ^ 32).toNat ∧ (UInt32.ofNat (n / 2 ^ 32 % 2 ^ 32).toNat).toNat = (n / 2 ^ 32).toNat := by
  constructor
  · rw [UInt32.toNat_ofNat']
    omega
  · rw [UInt32.toNat_ofNat']
    omega

/-! ### Command lines -/

theorem feed (stay : Bool) : ∀ (k m : Nat) (cur l : Bytes),
    splitArgs stay (.quoted m cur) (List.replicate k bslash ++ l) = splitArgs stay (.quoted (m + k) cur) l
  | 0, _, _, _ => rfl
  | k + 1, m, cur, l => by
    rw [List.replicate_succ, List.cons_append]
    show (none : Option Bytes).toList ++ splitArgs stay (.quoted (m + 1) cur) (List.replicate k bslash ++ l) = _
    rw [feed stay k (m + 1) cur l, show m + 1 + k = m + (k + 1) by omega]
    rfl

theorem feed_quote (stay : Bool) (n : Nat) (cur l : Bytes) :
    splitArgs stay (.quoted (n + n) cur) (dquote :: l) = splitArgs stay (.closing (cur ++ slashes n)) l := by
  have e1 : (n + n) % 2 = 0 := by omega
  have e2 : (n + n) / 2 = n := by omega
  show (quotedStep (n + n) cur 34).1.toList ++ splitArgs stay (quotedStep (n + n) cur 34).2 l = _
  unfold quotedStep
  rw [if_neg (by decide), if_pos rfl, if_pos e1, e2]
  rfl

theorem feed_literal (stay : Bool) (n : Nat) (cur l : Bytes) :
    splitArgs stay (.quoted (n + n + 1) cur) (dquote :: l) = splitArgs stay (.quoted 0 (cur ++ slashes n ++ [dquote])) l := by
  have e1 : ¬ (n + n + 1) % 2 = 0 := by omega
  have e2 : (n + n + 1) / 2 = n := by omega
  show (quotedStep (n + n + 1) cur 34).1.toList ++ splitArgs stay (quotedStep (n + n + 1) cur 34).2 l = _
  unfold quotedStep
  rw [if_neg (by decide), if_pos rfl, if_neg e1, e2]
  rfl

theorem feed_other (stay : Bool) (n : Nat) (cur l : Bytes) (c : UInt8) (h1 : c ≠ bslash) (h2 : c ≠ dquote) :
    splitArgs stay (.quoted n cur) (c :: l) = splitArgs stay (.quoted 0 (cur ++ slashes n ++ [c])) l := by
  show (quotedStep n cur c).1.toList ++ splitArgs stay (quotedStep n cur c).2 l = _
  unfold quotedStep
  rw [if_neg (show ¬ c = 92 from h1), if_neg (show ¬ c = 34 from h2)]
  rfl

theorem slashes_succ (n : Nat) (l : Bytes) : slashes (n + 1) ++ l = slashes n ++ bslash :: l := by
  unfold slashes
  rw [List.replicate_succ', List.append_assoc]
  rfl

theorem quoted_loop (stay : Bool) : ∀ (s : Bytes) (n : Nat) (cur l : Bytes),
    splitArgs stay (.quoted 0 cur) (quoteLoop n s ++ dquote :: l) = splitArgs stay (.closing (cur ++ (slashes n ++ s))) l
  | [], n, cur, l => by
    unfold quoteLoop
    rw [List.append_assoc, feed, feed, Nat.zero_add, feed_quote, List.append_nil]
  | c :: s, n, cur, l => by
    unfold quoteLoop
    by_cases h1 : c = bslash
    · rw [if_pos h1, quoted_loop stay s (n + 1), h1, slashes_succ]
    · rw [if_neg h1]
      by_cases h2 : c = dquote
      · rw [if_pos h2]
        simp only [List.append_assoc]
        rw [feed, feed, Nat.zero_add]
        show splitArgs stay (.quoted (n + n) cur) (bslash :: dquote :: (quoteLoop 0 s ++ dquote :: l)) = _
        have e := feed stay 1 (n + n) cur (dquote :: (quoteLoop 0 s ++ dquote :: l))
        rw [show List.replicate 1 bslash ++ dquote :: (quoteLoop 0 s ++ dquote :: l) = bslash :: dquote :: (quoteLoop 0 s ++ dquote :: l) from rfl] at e
        rw [e, feed_literal, quoted_loop stay s 0, h2]
        congr 2
        simp [slashes]
      · rw [if_neg h2, List.append_assoc, feed, Nat.zero_add]
        show splitArgs stay (.quoted n cur) (c :: (quoteLoop 0 s ++ dquote :: l)) = _
        rw [feed_other _ _ _ _ _ h1 h2, quoted_loop stay s 0]
        congr 2
        simp [slashes]

/-- Nothing to quote in `a`. -/
def Bare (a : Bytes) : Prop := ∀ c ∈ a, c ≠ 32 ∧ c ≠ 9 ∧ c ≠ dquote

theorem out_bare (stay : Bool) : ∀ (a : Bytes) (n : Nat) (cur : Bytes), Bare a →
    (∀ l, splitArgs stay (.out n cur) (a ++ 32 :: l) = (cur ++ (slashes n ++ a)) :: splitArgs stay .between l) ∧
    splitArgs stay (.out n cur) a = [cur ++ (slashes n ++ a)]
  | [], n, cur, _ => by
    refine ⟨fun l => ?_, by rw [List.append_nil]; rfl⟩
    show (outStep n cur 32).1.toList ++ splitArgs stay (outStep n cur 32).2 l = _
    unfold outStep
    rw [if_neg (by decide), if_neg (by decide), if_pos (.inl rfl), List.append_nil]
    rfl
  | c :: a, n, cur, h => by
    obtain ⟨hc1, hc2, hc3⟩ := h c List.mem_cons_self
    have ha : Bare a := fun x hx => h x (List.mem_cons_of_mem _ hx)
    have key : ∃ m cur', outStep n cur c = (none, .out m cur') ∧ cur' ++ (slashes m ++ a) = cur ++ (slashes n ++ c :: a) := by
      by_cases hb : c = bslash
      · refine ⟨n + 1, cur, ?_, by rw [slashes_succ, hb]⟩
        unfold outStep
        rw [if_pos (show c = 92 from hb)]
      · refine ⟨0, cur ++ slashes n ++ [c], ?_, by simp [slashes]⟩
        unfold outStep
        rw [if_neg (show ¬ c = 92 from hb), if_neg (show ¬ c = 34 from hc3), if_neg (by rintro (h | h); exacts [hc1 h, hc2 h])]
    obtain ⟨m, cur', e, e'⟩ := key
    have ih := out_bare stay a m cur' ha
    rw [e'] at ih
    constructor
    · intro l
      show (outStep n cur c).1.toList ++ splitArgs stay (outStep n cur c).2 (a ++ 32 :: l) = _
      rw [e]
      exact ih.1 l
    · show (outStep n cur c).1.toList ++ splitArgs stay (outStep n cur c).2 a = _
      rw [e]
      exact ih.2

theorem bare_of {a : Bytes} (h : needsQuoting a = false) : a ≠ [] ∧ Bare a := by
  unfold needsQuoting at h
  rw [Bool.or_eq_false_iff] at h
  refine ⟨fun e => by rw [e] at h; exact absurd h.1 (by decide), fun c hc => ?_⟩
  have := List.any_eq_false.mp h.2 c hc
  simp only [isBlank, Bool.or_eq_true, beq_iff_eq, not_or] at this
  exact ⟨this.1.1, this.1.2, this.2⟩

/-- One quoted argument between others. -/
theorem split_arg (stay : Bool) (a : Bytes) :
    (∀ l, splitArgs stay .between (quoteArg a ++ 32 :: l) = a :: splitArgs stay .between l) ∧ splitArgs stay .between (quoteArg a) = [a] := by
  unfold quoteArg
  by_cases hq : needsQuoting a = true
  · rw [if_pos hq]
    have go : ∀ l, splitArgs stay .between (dquote :: quoteLoop 0 a ++ [dquote] ++ l) = splitArgs stay (.closing a) l := by
      intro l
      rw [List.append_assoc]
      show splitArgs stay (.quoted 0 []) (quoteLoop 0 a ++ dquote :: l) = _
      rw [quoted_loop]
      rfl
    constructor
    · intro l
      rw [go]
      show (outStep 0 a 32).1.toList ++ splitArgs stay (outStep 0 a 32).2 l = _
      unfold outStep
      rw [if_neg (by decide), if_neg (by decide), if_pos (.inl rfl)]
      show (a ++ []) :: _ = _
      rw [List.append_nil]
      rfl
    · have e := go []
      rw [List.append_nil] at e
      rw [e]
      rfl
  · rw [if_neg hq]
    obtain ⟨hne, hb⟩ := bare_of (by simpa using hq)
    cases a with
    | nil => exact absurd rfl hne
    | cons c a =>
      obtain ⟨hc1, hc2, hc3⟩ := hb c List.mem_cons_self
      have key : ∀ l, splitArgs stay .between (c :: l) = splitArgs stay (.out 0 []) (c :: l) := by
        intro l
        show (if c = 32 ∨ c = 9 then _ else _ : Option Bytes × ArgState).1.toList ++ splitArgs stay (if c = 32 ∨ c = 9 then _ else _ : Option Bytes × ArgState).2 l = _
        rw [if_neg (by rintro (h | h); exacts [hc1 h, hc2 h])]
        rfl
      have := out_bare stay (c :: a) 0 [] hb
      constructor
      · intro l
        rw [List.cons_append, key, ← List.cons_append]
        exact this.1 l
      · rw [key]
        exact this.2

theorem split_line (stay : Bool) : ∀ (args : List Bytes) (line : Bytes), commandLine args = .ok line → splitArgs stay .between line = args
  | [], _, h => by cases h
  | [a], line, h => by
    injection h with h
    rw [← h]
    exact (split_arg stay a).2
  | a :: b :: rest, line, h => by
    unfold commandLine at h
    cases hr : commandLine (b :: rest) with
    | error e => rw [hr] at h; cases h
    | ok r =>
      rw [hr] at h
      injection h with h
      rw [← h, (split_arg stay a).1, split_line stay (b :: rest) r hr]

theorem commandLine_ok : ∀ (a : Bytes) (args : List Bytes), ∃ line, commandLine (a :: args) = .ok line
  | a, [] => ⟨_, rfl⟩
  | a, b :: rest => by
    obtain ⟨r, hr⟩ := commandLine_ok b rest
    refine ⟨quoteArg a ++ 32 :: r, ?_⟩
    unfold commandLine
    rw [hr]
    rfl

theorem program_slashes (q : Bool) : ∀ (n : Nat) (cur l : Bytes),
    splitProgram q cur (List.replicate n bslash ++ l) = splitProgram q (cur ++ slashes n) l
  | 0, cur, l => by rw [show slashes 0 = [] from rfl, List.append_nil]; rfl
  | n + 1, cur, l => by
    rw [List.replicate_succ, List.cons_append, splitProgram, if_neg (by decide), if_neg (by rintro ⟨h, -⟩; exact absurd h (by decide)), program_slashes q n,
      List.append_assoc]
    rfl

theorem program_loop : ∀ (s : Bytes) (n : Nat) (cur l : Bytes), dquote ∉ s → (slashes n ++ s).getLast? ≠ some bslash →
    splitProgram true cur (quoteLoop n s ++ dquote :: l) = splitProgram false (cur ++ (slashes n ++ s)) l
  | [], n, cur, l, _, hl => by
    have : n = 0 := by
      cases n with
      | zero => rfl
      | succ n => exact absurd (by rw [slashes_succ]; simp) hl
    subst this
    rw [show slashes 0 ++ [] = ([] : Bytes) from rfl, List.append_nil]
    rfl
  | c :: s, n, cur, l, hq, hl => by
    have hs : dquote ∉ s := fun h => hq (List.mem_cons_of_mem _ h)
    have hc : c ≠ dquote := fun h => hq (by rw [h]; exact List.mem_cons_self)
    unfold quoteLoop
    by_cases h1 : c = bslash
    · rw [if_pos h1, program_loop s (n + 1) cur l hs (by rw [slashes_succ, show bslash :: s = c :: s by rw [h1]]; exact hl), h1, slashes_succ]
    · rw [if_neg h1, if_neg hc, List.append_assoc, program_slashes]
      show splitProgram true (cur ++ slashes n) (c :: (quoteLoop 0 s ++ dquote :: l)) = _
      rw [splitProgram, if_neg (show ¬ c = 34 from hc), if_neg (by rintro ⟨-, h⟩; cases h)]
      have hl' : (slashes 0 ++ s).getLast? ≠ some bslash := by
        intro h
        apply hl
        rw [List.getLast?_append, List.getLast?_cons]
        cases s with
        | nil => cases h
        | cons x xs =>
          have h' : (x :: xs).getLast? = some bslash := h
          rw [h']
          rfl
      rw [program_loop s 0 _ l hs hl']
      congr 1
      simp [slashes]

theorem program_bare : ∀ (a cur : Bytes), Bare a →
    (∀ l, splitProgram false cur (a ++ 32 :: l) = (cur ++ a, l)) ∧ splitProgram false cur a = (cur ++ a, [])
  | [], cur, _ => by
    refine ⟨fun l => ?_, ?_⟩
    · rw [List.nil_append, splitProgram, if_neg (by decide), if_pos ⟨.inl rfl, rfl⟩, List.append_nil]
    · rw [List.append_nil]
      rfl
  | c :: a, cur, h => by
    obtain ⟨hc1, hc2, hc3⟩ := h c List.mem_cons_self
    have ih := program_bare a (cur ++ [c]) fun x hx => h x (List.mem_cons_of_mem _ hx)
    rw [List.append_assoc] at ih
    constructor
    · intro l
      rw [List.cons_append, splitProgram, if_neg (show ¬ c = 34 from hc3), if_neg (by rintro ⟨h | h, -⟩; exacts [hc1 h, hc2 h])]
      exact ih.1 l
    · rw [splitProgram, if_neg (show ¬ c = 34 from hc3), if_neg (by rintro ⟨h | h, -⟩; exacts [hc1 h, hc2 h])]
      exact ih.2

theorem split_program (a : Bytes) (hq : dquote ∉ a) (hl : (a.any isBlank) = true → a.getLast? ≠ some bslash) :
    (∀ l, splitProgram false [] (quoteArg a ++ 32 :: l) = (a, l)) ∧ splitProgram false [] (quoteArg a) = (a, []) := by
  unfold quoteArg
  by_cases h : needsQuoting a = true
  · have hl' : (slashes 0 ++ a).getLast? ≠ some bslash := by
      unfold needsQuoting at h
      rw [Bool.or_eq_true] at h
      rcases h with h | h
      · rw [List.isEmpty_iff.mp h]
        exact fun e => by cases e
      · refine hl ?_
        rw [List.any_eq_true] at h ⊢
        obtain ⟨x, hx, hx'⟩ := h
        refine ⟨x, hx, ?_⟩
        rw [Bool.or_eq_true] at hx'
        rcases hx' with hx' | hx'
        · exact hx'
        · exact absurd (by rw [← beq_iff_eq.mp hx']; exact hx) hq
    rw [if_pos h]
    have go : ∀ l, splitProgram false [] (dquote :: quoteLoop 0 a ++ [dquote] ++ l) = splitProgram false a l := by
      intro l
      rw [List.append_assoc, List.cons_append, splitProgram, if_pos (show dquote = 34 from rfl)]
      show splitProgram true [] (quoteLoop 0 a ++ dquote :: l) = _
      rw [program_loop a 0 [] l hq hl']
      rfl
    constructor
    · intro l
      rw [go, splitProgram, if_neg (by decide), if_pos ⟨.inl rfl, rfl⟩]
    · have e := go []
      rw [List.append_nil] at e
      rw [e]
      rfl
  · rw [if_neg h]
    exact program_bare a [] (bare_of (by simpa using h)).2

end Securefs.Win
