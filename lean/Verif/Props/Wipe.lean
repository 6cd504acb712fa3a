import Verif.Spec.Wipe
/-!
# C123: passwords do not stay in memory

Theorems: `C123_served_partial`, `C123_command_partial`, `C123_mismatch`, `C123_long`, `C123_option_partial`, `C123_stdio_violated`, `C123_argv_violated`, `C123_chpass_violated`,
`C123_const_violated`.
-/

namespace Securefs.Props

open Securefs.Spec Securefs.Wipe

/-- 4000 zeros. -/
private def blank : Bytes := List.replicate 4000 0

private theorem blank_length : blank.length = 4000 := List.length_replicate

private theorem wiped_frame {b : Bytes} (h : b.length = 4000) : wiped b = blank := by rw [wiped, h, blank]

private theorem fill_eq (p rest : Bytes) : ∀ (frame : Bytes) (n : Nat), frame.length = 4000 → n + p.length ≤ 4000 → (∀ c ∈ p, c ≠ 10 ∧ c ≠ 13) →
    fill frame n (p ++ 10 :: rest) = (frame.take n ++ p ++ frame.drop (n + p.length), some (n + p.length), p.length + 1) := by
  induction p with
  | nil => intro frame n _ _ _; simp [fill]
  | cons c p ih =>
    intro frame n hf hn hc
    have c1 := (hc c (by simp)).1
    have c2 := (hc c (by simp)).2
    simp only [List.length_cons] at hn
    have h := ih (frame.set n c) (n + 1) (by simp [hf]) (by omega) (fun x hx => hc x (by simp [hx]))
    have e : (frame.set n c).take (n + 1) = frame.take n ++ [c] := by
      rw [List.take_succ_eq_append_getElem (by simp; omega), List.take_set, List.set_eq_of_length_le (by rw [List.length_take]; omega)]
      simp
    have e2 : (frame.set n c).drop (n + 1 + p.length) = frame.drop (n + (p.length + 1)) := by
      rw [List.drop_set_of_lt (by omega)]
      congr 1
      omega
    rw [e, e2] at h
    simp only [List.cons_append, fill, c1, c2, or_self, if_false, show n < 4000 by omega, if_true, h, List.length_cons]
    simp [Nat.add_comm, Nat.add_left_comm]

private theorem fill_long (p rest : Bytes) (c : UInt8) : ∀ (frame : Bytes) (n : Nat), n + p.length = 4000 → (∀ x ∈ p, x ≠ 10 ∧ x ≠ 13) → c ≠ 10 → c ≠ 13 →
    (fill frame n (p ++ c :: rest)).1.length = frame.length ∧ (fill frame n (p ++ c :: rest)).2 = (none, p.length + 1) := by
  induction p with
  | nil =>
    intro frame n hn _ c1 c2
    simp only [List.length_nil] at hn
    simp [fill, c1, c2, show ¬ n < 4000 by omega]
  | cons a p ih =>
    intro frame n hn hc c1 c2
    have a1 := (hc a (by simp)).1
    have a2 := (hc a (by simp)).2
    simp only [List.length_cons] at hn
    have h := ih (frame.set n a) (n + 1) (by omega) (fun x hx => hc x (by simp [hx])) c1 c2
    simp only [List.cons_append, fill, a1, a2, or_self, if_false, show n < 4000 by omega, if_true, h.1, h.2, List.length_cons, List.length_set]
    simp

private theorem readOne_eq (m : Mem) (p rest : Bytes) (hf : m.frame.length = 4000) (hp : Typable p) :
    readOne (typing m p rest) = (some p, { m with frame := blank, stdio := p ++ [10], input := rest }) := by
  have h := fill_eq p rest m.frame 0 hf (by simpa using hp.1) hp.2
  have len : p.length + (m.frame.length - p.length) = 4000 := by have := hp.1; omega
  simp only [Nat.zero_add, List.take_zero, List.nil_append] at h
  have t : (p ++ 10 :: rest).take (p.length + 1) = p ++ [10] := by
    rw [List.take_length_add_append]; rfl
  have d : (p ++ 10 :: rest).drop (p.length + 1) = rest := by
    rw [List.drop_length_add_append]; rfl
  have w : wiped (p ++ m.frame.drop p.length) = blank := wiped_frame (by rw [List.length_append, List.length_drop]; exact len)
  simp only [readOne, typing, h, t, d, w, List.take_left']

private theorem read_eq (m : Mem) (p rest : Bytes) (hf : m.frame.length = 4000) (hp : Typable p) :
    readPassword (typing m p rest) =
      (true, { m with frame := blank, stdio := p ++ [10], input := rest, block := p, freed := wiped m.block :: m.freed }) := by
  simp [readPassword, readOne_eq m p rest hf hp]

private theorem wiped_same {p q : Bytes} (h : p.length = q.length) : wiped p = wiped q := by rw [wiped, wiped, h]

/-- **C123 (while a volume is served, partial).**  Missing: the buffer of `stdin`, of which `C123_stdio_violated` shows that it keeps the password.  Once
    `mount` serves a volume whose password was typed, all other memory is the same as for any other password of that length. -/
theorem C123_served_partial (m : Mem) (writable : Bool) (hf : m.frame.length = 4000) (p q rest : Bytes) (hp : Typable p) (hq : Typable q) (len : p.length = q.length) :
    (mountPassword writable false false (typing m p rest)).1 = true ∧
      ownMemory (mountPassword writable false false (typing m p rest)).2 = ownMemory (mountPassword writable false false (typing m q rest)).2 := by
  simp [mountPassword, getPassword, read_eq m p rest hf hp, read_eq m q rest hf hq, ownMemory, wiped_same len]

/-- **C123 (commands, partial).**  Missing: the buffer of `stdin`.  The same at the end of `create` and `info`, also if the password is typed twice. -/
theorem C123_command_partial (m : Mem) (writable confirm tty : Bool) (hf : m.frame.length = 4000) (p q rest : Bytes) (hp : Typable p) (hq : Typable q)
    (len : p.length = q.length) :
    (commandPassword writable false false confirm tty (typing m p (p ++ 10 :: rest))).1 = true ∧
      ownMemory { (commandPassword writable false false confirm tty (typing m p (p ++ 10 :: rest))).2 with input := rest } =
        ownMemory { (commandPassword writable false false confirm tty (typing m q (q ++ 10 :: rest))).2 with input := rest } ∧
      ((confirm && tty) = true → (commandPassword writable false false confirm tty (typing m p (p ++ 10 :: rest))).2.input = rest) := by
  have two : ∀ x, Typable x → readPasswordTwice true (typing m x (x ++ 10 :: rest)) =
      (true, { m with frame := blank, stdio := x ++ [10], input := rest, block := x, freed := wiped x :: wiped m.block :: m.freed }) := by
    intro x hx
    have h1 := readOne_eq { m with frame := blank, stdio := x ++ [10], block := x, freed := wiped m.block :: m.freed } x rest blank_length hx
    simp only [typing] at h1
    simp [readPasswordTwice, read_eq m x (x ++ 10 :: rest) hf hx, h1]
  have single : ∀ x, Typable x → readPasswordTwice false (typing m x (x ++ 10 :: rest)) = readPassword (typing m x (x ++ 10 :: rest)) := by
    intro x hx
    simp [readPasswordTwice, read_eq m x (x ++ 10 :: rest) hf hx]
  cases confirm <;> cases tty <;>
    simp [commandPassword, getPassword, endBlock, two p hp, two q hq, single p hp, single q hq, read_eq m p _ hf hp, read_eq m q _ hf hq, ownMemory, wiped_same len]

/-- **C123 (mismatch).**  Two passwords that differ: the exception leaves nothing of either, but for the buffer of `stdin`, when the command ends. -/
theorem C123_mismatch (m : Mem) (writable : Bool) (hf : m.frame.length = 4000) (p p' q q' rest : Bytes) (hp : Typable p) (hp' : Typable p') (hq : Typable q)
    (hq' : Typable q') (len : p.length = q.length) (len' : p'.length = q'.length) (ne : p ≠ p') :
    (commandPassword writable false false true true (typing m p (p' ++ 10 :: rest))).1 = false ∧
      ownMemory (commandPassword writable false false true true (typing m p (p' ++ 10 :: rest))).2 =
        ownMemory (commandPassword writable false false true true (typing m q (q' ++ 10 :: rest))).2 := by
  have two : ∀ x y, Typable x → Typable y → readPasswordTwice true (typing m x (y ++ 10 :: rest)) =
      (decide (x.length = y.length ∧ x = y),
        { m with frame := blank, stdio := y ++ [10], input := rest, block := x, freed := wiped y :: wiped m.block :: m.freed }) := by
    intro x y hx hy
    have h1 := readOne_eq { m with frame := blank, stdio := x ++ [10], block := x, freed := wiped m.block :: m.freed } y rest blank_length hy
    simp only [typing] at h1
    simp [readPasswordTwice, read_eq m x (y ++ 10 :: rest) hf hx, h1]
  simp [commandPassword, getPassword, endBlock, two p p' hp hp', two q q' hq hq', ownMemory, wiped_same len, wiped_same len', ne]

/-- **C123 (too long).**  A line of more than 4000 characters: the exception leaves nothing of it on the stack or elsewhere, but for the buffer of `stdin` and
    what was not read. -/
theorem C123_long (m : Mem) (hf : m.frame.length = 4000) (p q : Bytes) (c d : UInt8) (rest : Bytes) (hp : Typable p) (hq : Typable q) (lp : p.length = 4000)
    (lq : q.length = 4000) (hc : c ≠ 10 ∧ c ≠ 13) (hd : d ≠ 10 ∧ d ≠ 13) :
    (readPassword { m with input := p ++ c :: rest }).1 = false ∧
      ownMemory (readPassword { m with input := p ++ c :: rest }).2 = ownMemory (readPassword { m with input := q ++ d :: rest }).2 := by
  have one : ∀ (x : Bytes) (a : UInt8), Typable x → x.length = 4000 → a ≠ 10 ∧ a ≠ 13 → readPassword { m with input := x ++ a :: rest } =
      (false, { m with frame := blank, stdio := x ++ [a], input := rest }) := by
    intro x a hx lx ha
    obtain ⟨h1, h2⟩ := fill_long x rest a m.frame 0 (by omega) hx.2 ha.1 ha.2
    have t : (x ++ a :: rest).take (x.length + 1) = x ++ [a] := by rw [List.take_length_add_append]; rfl
    have e : (x ++ a :: rest).drop (x.length + 1) = rest := by rw [List.drop_length_add_append]; rfl
    simp only [readPassword, readOne, h2, wiped_frame (h1.trans hf), t, e]
  rw [one p c hp lp hc, one q d hq lq hd]
  exact ⟨rfl, rfl⟩

/-- **C123 (option, partial).**  Missing: the arguments of the process, of which `C123_argv_violated` shows that they keep the password.  With `--pass`, and a
    library that lets its values be changed, all other memory is the same as for any other password of that length. -/
theorem C123_option_partial (m : Mem) (byKey : Bool) (p q : Bytes) (some_ : p ≠ []) (len : p.length = q.length) :
    (mountPassword true true byKey (asOption m p)).1 = true ∧
      besideArgv (mountPassword true true byKey (asOption m p)).2 = besideArgv (mountPassword true true byKey (asOption m q)).2 := by
  have hq : q ≠ [] := by
    rintro rfl
    exact some_ (List.length_eq_zero_iff.1 len)
  simp [mountPassword, getPassword, asOption, some_, hq, besideArgv, wiped_same len]

private def fresh : Mem := ⟨List.replicate 4000 7, [], [], [], [], [], []⟩

private theorem fresh_length : fresh.frame.length = 4000 := List.length_replicate

example : fresh.frame.length = 4000 ∧ Typable [115, 51, 99] ∧ Typable [97, 98, 99] := by
  refine ⟨fresh_length, ⟨by decide, by decide⟩, ⟨by decide, by decide⟩⟩
/-- Before it is wiped, the block has the password: the memory of two passwords differs. -/
example : (getPassword true false false false false (typing fresh [115, 51, 99] [])).2.block = [115, 51, 99] := by
  simp only [getPassword]
  rw [show (readPassword (typing fresh [115, 51, 99] [])) = _ from read_eq fresh [115, 51, 99] [] fresh_length ⟨by decide, by decide⟩]
  rfl
example : Typable (List.replicate 4000 97) := ⟨Nat.le_of_eq List.length_replicate, by intro c hc; rw [List.eq_of_mem_replicate hc]; decide⟩

/-- **C123 (stdin, violated).**  While the volume is served, the buffer of `stdin` has the line with the password: nothing switches buffering off or wipes it. -/
theorem C123_stdio_violated : (mountPassword true false false (typing fresh [115, 51, 99] [])).2.stdio = [115, 51, 99, 10] := by
  simp only [mountPassword, getPassword]
  rw [show (readPassword (typing fresh [115, 51, 99] [])) = _ from read_eq fresh [115, 51, 99] [] fresh_length ⟨by decide, by decide⟩]
  rfl

/-- **C123 (arguments, violated).**  A password given with `--pass` stays in the arguments of the process, where the system shows it. -/
theorem C123_argv_violated : (mountPassword true true false (asOption fresh [115, 51, 99])).2.argv = [115, 51, 99] := rfl

/-- **C123 (chpass, violated).**  `chpass` does not wipe the values of `--oldpass` and `--newpass`. -/
theorem C123_chpass_violated : (chpassOption (asOption fresh [115, 51, 99])).option = [115, 51, 99] := rfl

/-- **C123 (values that cannot be changed, violated).**  With a library that gives its values as constants, the value of `--pass` stays. -/
theorem C123_const_violated : (mountPassword false true false (asOption fresh [115, 51, 99])).2.option = [115, 51, 99] := rfl

end Securefs.Props
