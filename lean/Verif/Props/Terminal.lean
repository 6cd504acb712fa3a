import Verif.Spec.Terminal
/-!
# C121: the terminal: passwords are not shown, settings are put back, colours end with the line
-/

namespace Securefs.Props

open Term Spec

private theorem line_stop {c : UInt8} {rest : Bytes} (h : c = 13 ∨ c = 10) : typedLine (c :: rest) = [] ∧ typedRest (c :: rest) = rest := by
  rcases h with rfl | rfl <;> exact ⟨rfl, rfl⟩

private theorem line_go {c : UInt8} {rest : Bytes} (h : ¬ (c = 13 ∨ c = 10)) : typedLine (c :: rest) = c :: typedLine rest ∧ typedRest (c :: rest) = typedRest rest := by
  have hc : isEol c = false := by
    simp only [isEol, Bool.or_eq_false_iff, beq_eq_false_iff_ne]
    exact ⟨fun e => h (.inl e), fun e => h (.inr e)⟩
  simp [typedLine, typedRest, hc]

private theorem loop_eq (f : Files) : ∀ (input buffer : Bytes) (t : Tty), (f.inTty && t.echo) = false → buffer.length ≤ 4000 →
    typeLoop f buffer input t =
      if buffer.length + (typedLine input).length ≤ 4000 then (.ok (buffer ++ typedLine input), { t with input := typedRest input })
      else (.error .runtime, { t with input := input.drop (4001 - buffer.length) }) := by
  intro input
  induction input with
  | nil =>
    intro buffer t h hb
    simp [typeLoop, typedLine, typedRest, hb]
  | cons c rest ih =>
    intro buffer t h hb
    simp only [typeLoop, h, Bool.false_eq_true, if_false]
    by_cases hc : c = 13 ∨ c = 10
    · simp [hc, line_stop hc, hb]
    · simp only [hc, if_false]
      rw [(line_go hc).1, (line_go hc).2]
      by_cases hl : buffer.length < 4000
      · rw [if_pos hl]
        refine (ih (buffer ++ [c]) { t with input := rest } h (by simp only [List.length_append, List.length_cons, List.length_nil]; omega)).trans ?_
        simp only [List.length_append, List.length_cons, List.length_nil, List.append_assoc, List.cons_append, List.nil_append]
        by_cases hs : buffer.length + ((typedLine rest).length + 1) ≤ 4000
        · rw [if_pos hs, if_pos (by omega)]
        · rw [if_neg hs, if_neg (by omega)]
          rw [show 4001 - buffer.length = (4001 - (buffer.length + (0 + 1))) + 1 by omega]
          rfl
      · rw [if_neg hl, if_neg (by simp only [List.length_cons]; omega)]
        rw [show 4001 - buffer.length = 1 by omega]
        rfl

private theorem read_eq (f : Files) (hsets : f.sets = true) (prompt : Bytes) (t : Tty) :
    Term.readPassword f prompt t =
      let said := t.said ++ (if f.inTty && f.errTty then prompt else [])
      if (typedLine t.input).length ≤ 4000 then
        (.ok (typedLine t.input), { t with said := said ++ (if f.inTty then [10] else []), input := typedRest t.input })
      else (.error .runtime, { t with said := said, input := t.input.drop 4001, echo := if f.inTty then false else t.echo }) := by
  unfold Term.readPassword
  cases hi : f.inTty with
  | true =>
    simp only [if_true, hsets, Bool.true_and]
    rw [loop_eq f _ _ _ (by simp) (by simp)]
    simp only [List.length_nil, Nat.zero_add, List.nil_append]
    by_cases hl : (typedLine t.input).length ≤ 4000
    · simp only [if_pos hl]
      cases f.errTty <;> simp
    · simp only [if_neg hl]
      cases f.errTty <;> simp
  | false =>
    simp only [Bool.false_eq_true, if_false, Bool.false_and, List.append_nil]
    rw [loop_eq f _ _ _ (by simp [hi]) (by simp)]
    simp only [List.length_nil, Nat.zero_add, List.nil_append]
    by_cases hl : (typedLine t.input).length ≤ 4000
    · simp only [if_pos hl]
    · simp only [if_neg hl]

/-- A password of at most 4000 characters is the line that is typed.  Nothing of it is shown; the settings of the terminal are those of before; what is
    written is the prompt, if both streams are terminals, and the end of the line; and what is typed after it is left. -/
theorem C121_typed (f : Files) (hsets : f.sets = true) (prompt : Bytes) (t : Tty) (hlen : (typedLine t.input).length ≤ 4000) :
    Term.readPassword f prompt t = (.ok (typedLine t.input), ⟨t.echo, t.flags, t.shown,
      t.said ++ (if f.inTty && f.errTty then prompt else []) ++ (if f.inTty then [10] else []), typedRest t.input⟩) := by
  rw [read_eq f hsets]
  simp only [if_pos hlen]

example : (typedLine [112, 119, 10, 120]).length ≤ 4000 ∧ Term.readPassword ⟨true, true, true⟩ [63] ⟨true, 7, [1], [2], [112, 119, 10, 120]⟩
    = (.ok [112, 119], ⟨true, 7, [1], [2, 63, 10], [120]⟩) := by
  exact ⟨by decide, by rfl⟩

/-- It is what the theorems about commands (C71) take it for. -/
theorem C121_same (f : Files) (hsets : f.sets = true) (prompt : Bytes) (t : Tty) :
    (match Term.readPassword f prompt t with
      | (.ok p, t') => Except.ok (p, t'.input)
      | (.error e, _) => .error e) = Securefs.readPassword t.input := by
  have key : ∀ (input buffer : Bytes), buffer.length ≤ 4000 → readPasswordLoop buffer input =
      if buffer.length + (typedLine input).length ≤ 4000 then .ok (buffer ++ typedLine input, typedRest input) else .error .runtime := by
    intro input
    induction input with
    | nil => intro buffer hb; simp [readPasswordLoop, typedLine, typedRest, hb]
    | cons c rest ih =>
      intro buffer hb
      simp only [readPasswordLoop]
      by_cases hc : c = 13 ∨ c = 10
      · simp [hc, line_stop hc, hb]
      · simp only [hc, if_false]
        rw [(line_go hc).1, (line_go hc).2]
        by_cases hl : buffer.length < 4000
        · rw [if_pos hl, ih _ (by simp only [List.length_append, List.length_cons, List.length_nil]; omega)]
          simp only [List.length_append, List.length_cons, List.length_nil, List.append_assoc, List.cons_append, List.nil_append]
          by_cases hs : buffer.length + ((typedLine rest).length + 1) ≤ 4000
          · rw [if_pos hs, if_pos (by omega)]
          · rw [if_neg hs, if_neg (by omega)]
        · rw [if_neg hl, if_neg (by simp only [List.length_cons]; omega)]
  rw [read_eq f hsets, Securefs.readPassword, key _ _ (by simp)]
  simp only [List.length_nil, Nat.zero_add, List.nil_append]
  by_cases hl : (typedLine t.input).length ≤ 4000
  · simp only [if_pos hl]
  · simp only [if_neg hl]

example : Securefs.readPassword [112, 119, 10, 120] = .ok ([112, 119], [120]) := by rfl

/-- Nothing that is typed is shown, also if it is too long, and also when it is typed twice. -/
theorem C121_hidden (f : Files) (hsets : f.sets = true) (prompt : Bytes) (t : Tty) :
    (Term.readPassword f prompt t).2.shown = t.shown ∧ (Term.readPasswordTwice f prompt t).2.shown = t.shown := by
  have h1 : ∀ prompt t, (Term.readPassword f prompt t).2.shown = t.shown := by
    intro prompt t
    rw [read_eq f hsets]
    dsimp only
    split <;> rfl
  refine ⟨h1 prompt t, ?_⟩
  unfold Term.readPasswordTwice
  have hp := h1 prompt t
  generalize Term.readPassword f prompt t = r at hp ⊢
  obtain ⟨e | p, t1⟩ := r
  · exact hp
  · dsimp only at hp ⊢
    split
    · exact hp
    · have hq := h1 ("Again: ".toList.map Char.toUInt8) t1
      generalize Term.readPassword f ("Again: ".toList.map Char.toUInt8) t1 = r at hq ⊢
      obtain ⟨e | q, t2⟩ := r
      · exact hq.trans hp
      · dsimp only at hq ⊢
        split
        · exact hq.trans hp
        · exact hq.trans hp

example : (Term.readPasswordTwice ⟨true, true, true⟩ [63] ⟨true, 7, [], [], [112, 119, 10, 112, 10]⟩).1 = .error .runtime := by rfl

/-- Typed twice: it returns exactly if both lines are the same, or if it need not be typed twice; the settings are those of before even if the lines differ. -/
theorem C121_twice_partial (f : Files) (hsets : f.sets = true) (prompt : Bytes) (t : Tty) (hlen : (typedLine t.input).length ≤ 4000)
    (hlen2 : (typedLine (typedRest t.input)).length ≤ 4000) :
    (Term.readPasswordTwice f prompt t).2.echo = t.echo ∧ (Term.readPasswordTwice f prompt t).2.flags = t.flags ∧
    (Term.readPasswordTwice f prompt t).1 =
      if f.inTty = true ∧ f.errTty = true ∧ typedLine t.input ≠ typedLine (typedRest t.input) then .error .runtime else .ok (typedLine t.input) := by
  unfold Term.readPasswordTwice
  rw [C121_typed f hsets _ _ hlen]
  dsimp only
  cases hi : f.inTty <;> cases he : f.errTty <;> simp only [Bool.false_eq_true, true_or, or_true, if_true, false_and, and_false, if_false, true_and, or_self, Bool.true_eq_false]
  · rw [C121_typed f hsets _ _ hlen2]
    dsimp only
    by_cases hd : typedLine t.input = typedLine (typedRest t.input)
    · rw [if_neg (by rw [← hd]; simp), if_neg (fun h : typedLine t.input ≠ _ => h hd)]
      exact ⟨rfl, rfl, rfl⟩
    · rw [if_pos (.inr hd), if_pos hd]
      exact ⟨rfl, rfl, rfl⟩

example : (typedLine [112, 119, 10, 112, 10]).length ≤ 4000 ∧ (typedLine (typedRest [112, 119, 10, 112, 10])).length ≤ 4000 := by decide

/-- What is missing: after a line of more than 4000 characters there is an exception, and the terminal stays without echo. -/
theorem C121_long_violated : ∃ (f : Files) (t : Tty), f.sets = true ∧ t.echo = true ∧ (Term.readPassword f [] t).1 = .error .runtime
    ∧ (Term.readPassword f [] t).2.echo = false := by
  have hl : ¬ (typedLine (List.replicate 4001 (97 : UInt8))).length ≤ 4000 := by
    have : typedLine (List.replicate 4001 (97 : UInt8)) = List.replicate 4001 97 := by
      unfold typedLine
      rw [List.takeWhile_replicate]
      rfl
    rw [this, List.length_replicate]
    decide
  refine ⟨⟨true, true, true⟩, ⟨true, 0, [], [], List.replicate 4001 97⟩, rfl, rfl, ?_, ?_⟩
  · rw [read_eq _ rfl]
    simp only [if_neg hl]
  · rw [read_eq _ rfl]
    simp only [if_neg hl]
    rfl

/-- And what is assumed: if `tcsetattr` fails, which is not looked at, the password is shown. -/
theorem C121_unset_violated : ∃ (f : Files) (t : Tty), (Term.readPassword f [] t).1 = .ok [112, 119] ∧ (Term.readPassword f [] t).2.shown = [112, 119, 10] :=
  ⟨⟨true, true, false⟩, ⟨true, 0, [], [], [112, 119, 10]⟩, by rfl, by rfl⟩

/-! ## Colours -/

/-- The sequence of each colour, except blue, shows no characters and gives the look that it stands for. -/
theorem C121_colours_partial (c : Colour) (hc : c ≠ .blue) (s : Screen) (hs : s.within = .text) :
    s.puts (use c) = { s with look := lookOf c } := by
  obtain ⟨l, w, sh⟩ := s
  subst hs
  cases c <;> first | rfl | exact absurd rfl hc

example : Colour.brightRed ≠ .blue ∧ (Screen.puts ⟨plainLook, .text, []⟩ (use .brightRed)).look = ⟨true, 31⟩ := by decide +kernel

/-- What is missing: that of blue has a colon, and is not understood. -/
theorem C121_blue_violated : (Screen.puts ⟨plainLook, .text, []⟩ (use .blue)).look ≠ lookOf .blue := by decide +kernel

private theorem puts_text : ∀ (b : Bytes) (s : Screen), s.within = .text → (27 : UInt8) ∉ b → s.puts b = { s with shown := s.shown ++ b.map fun c => (c, s.look) } := by
  intro b
  induction b with
  | nil => intro s _ _; simp [Screen.puts]
  | cons c rest ih =>
    intro s hs hb
    have hc : c.toNat ≠ 27 := fun e => hb (by
      have : c = 27 := UInt8.toNat_inj.mp e
      simp [this])
    have h1 : s.put c = { s with shown := s.shown ++ [(c, s.look)] } := by
      unfold Screen.put
      rw [hs]
      simp [hc]
    show (s.put c).puts rest = _
    rw [h1]
    refine (ih { s with shown := s.shown ++ [(c, s.look)] } hs (fun e => hb (List.mem_cons_of_mem _ e))).trans ?_
    simp

private theorem puts_append (s : Screen) (a b : Bytes) : s.puts (a ++ b) = (s.puts a).puts b := List.foldl_append

private theorem line_shown (l : Level) (text : Bytes) (ht : (27 : UInt8) ∉ text) (sh : List (UInt8 × Look)) (tty : Bool) :
    Screen.puts ⟨plainLook, .text, sh⟩ (logLine tty l text)
      = ⟨plainLook, .text, sh ++ (text.map fun c => (c, if tty then levelLook l else plainLook)) ++ [(10, plainLook)]⟩ := by
  unfold logLine
  simp only [puts_append]
  have hpre : Screen.puts ⟨plainLook, .text, sh⟩ (prelogColour tty l) = ⟨if tty then levelLook l else plainLook, .text, sh⟩ := by
    cases tty <;> cases l <;> rfl
  rw [hpre, puts_text text _ rfl ht]
  cases tty <;> cases l <;> rfl

/-- The log on a terminal: however many lines there are, each of its characters has the look of its level, the end of a line has the look of the terminal
    itself, and so has what comes after; on other streams there are no looks at all. -/
theorem C121_log (tty : Bool) (lines : List (Level × Bytes)) (ht : ∀ p ∈ lines, (27 : UInt8) ∉ p.2) (sh : List (UInt8 × Look)) :
    Screen.puts ⟨plainLook, .text, sh⟩ (lines.flatMap fun p => logLine tty p.1 p.2)
      = ⟨plainLook, .text, sh ++ lines.flatMap fun p => (p.2.map fun c => (c, if tty then levelLook p.1 else plainLook)) ++ [(10, plainLook)]⟩ := by
  induction lines generalizing sh with
  | nil => simp [Screen.puts]
  | cons p rest ih =>
    simp only [List.flatMap_cons, puts_append]
    rw [line_shown p.1 p.2 (ht p (by simp)), ih (fun q hq => ht q (List.mem_cons_of_mem _ hq))]
    simp

/-- A stream that is no terminal gets the text and nothing else. -/
theorem C121_file (l : Level) (text : Bytes) : logLine false l text = text ++ [10] := by
  cases l <;> simp [logLine, prelogColour]

example : (∀ p ∈ [(Level.error, [(65 : UInt8), 66]), (.info, [67])], (27 : UInt8) ∉ p.2) ∧
    (Screen.puts ⟨plainLook, .text, []⟩ ([(Level.error, [(65 : UInt8), 66]), (.info, [67])].flatMap fun p => logLine true p.1 p.2)).shown
      = [(65, ⟨true, 31⟩), (66, ⟨true, 31⟩), (10, plainLook), (67, plainLook), (10, plainLook)] := by decide +kernel

end Securefs.Props
