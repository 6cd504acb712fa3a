import Verif.Proofs.Wire
/-!
# What a parsed message can contain

Every message that is parsed has numbers of 32 bits, strings that are not longer than the input, and text that is UTF-8.
-/

namespace Securefs

theorem getFields_len (fuel : Nat) : ∀ {depth : Nat} {group : Option Nat} {bs : Bytes} {fs : List (Nat × WireVal)} {r : Bytes},
    getFields fuel depth group bs = some (fs, r) → ∀ f ∈ fs, ∀ b, f.2 = .len b → b.length ≤ bs.length := by
  induction fuel with
  | zero => intro depth group bs fs r h; cases h
  | succ fuel ih =>
    intro depth group bs fs r h
    cases bs with
    | nil =>
      cases group with
      | none => injection h with h; injection h with h _; subst h; exact nofun
      | some g => cases h
    | cons b bs =>
      rw [getFields] at h
      cases htag : getVarint 5 (b :: bs) with
      | none => rw [htag] at h; cases h
      | some x =>
        obtain ⟨tag, rest⟩ := x
        obtain ⟨a, _, ha⟩ := getVarint_suffix 5 htag
        have hrest : rest.length ≤ (b :: bs).length := by rw [ha, List.length_append]; omega
        rw [htag] at h
        dsimp only at h
        have hgo : ∀ (v : WireVal) (r' : Bytes), (∃ c, rest = c ++ r') → (∀ x, v = .len x → x.length ≤ rest.length) →
            (match getFields fuel depth group r' with
              | none => none
              | some (fs, r) => some ((tag % 2 ^ 32 / 8, v) :: fs, r)) = some (fs, r) →
            ∀ f ∈ fs, ∀ x, f.2 = .len x → x.length ≤ (b :: bs).length := by
          rintro v r' ⟨c, hc⟩ hv hx
          cases hg : getFields fuel depth group r' with
          | none => rw [hg] at hx; cases hx
          | some y =>
            obtain ⟨fs', r''⟩ := y
            rw [hg] at hx
            injection hx with hx
            injection hx with hx _
            subst hx
            intro f hf x hfx
            rcases List.mem_cons.mp hf with rfl | hf
            · have := hv x hfx; omega
            · have h1 := ih hg f hf x hfx
              have h2 : rest.length = c.length + r'.length := by rw [hc, List.length_append]
              omega
        split at h
        · cases h
        · split at h
          · split at h
            · cases h
            · rename_i hx
              obtain ⟨c, _, hc⟩ := getVarint_suffix 10 hx
              exact hgo _ _ ⟨c, hc⟩ (fun _ hn => by cases hn) h
          · split at h
            · cases h
            · rename_i hx
              exact hgo _ _ ⟨_, getBytes_suffix hx⟩ (fun _ hn => by cases hn) h
          · split at h
            · cases h
            · rename_i hx
              obtain ⟨c, _, hc⟩ := getVarint_suffix 5 hx
              split at h
              · split at h
                · cases h
                · rename_i hy
                  have hs := getBytes_suffix hy
                  refine hgo _ _ (by rw [hc, hs]; exact ⟨_, (List.append_assoc _ _ _).symm⟩) ?_ h
                  intro x hx
                  injection hx with hx
                  subst hx
                  rw [hc, hs]
                  simp only [List.length_append]
                  omega
              · cases h
          · split at h
            · cases h
            · split at h
              · cases h
              · rename_i hx
                exact hgo _ _ (getFields_suffix fuel hx) (fun _ hn => by cases hn) h
          · split at h
            · injection h with h
              injection h with h _
              subst h
              exact nofun
            · cases h
          · split at h
            · cases h
            · rename_i hx
              exact hgo _ _ ⟨_, getBytes_suffix hx⟩ (fun _ hn => by cases hn) h
          · cases h

theorem parseFields_len {depth : Nat} {bs : Bytes} {fs : List (Nat × WireVal)} (h : parseFields depth bs = some fs) :
    ∀ f ∈ fs, ∀ b, f.2 = .len b → b.length ≤ bs.length := by
  unfold parseFields at h
  cases hg : getFields (bs.length + 1) depth none bs with
  | none => rw [hg] at h; cases h
  | some x =>
    obtain ⟨fs', r⟩ := x
    rw [hg] at h
    injection h with h
    subst h
    exact getFields_len _ hg

theorem putAll_inv {α : Type} {P : α → Prop} {Q : Nat × WireVal → Prop} {put : α → Nat × WireVal → Option α}
    (hstep : ∀ p f q, P p → Q f → put p f = some q → P q) (fs : List (Nat × WireVal)) : ∀ p q, P p → (∀ f ∈ fs, Q f) → putAll put p fs = some q → P q := by
  induction fs with
  | nil => intro p q hp _ h; injection h with h; subst h; exact hp
  | cons f rest ih =>
    intro p q hp hf h
    unfold putAll at h
    cases hx : put p f with
    | none => rw [hx] at h; cases h
    | some p' =>
      rw [hx] at h
      exact ih p' q (hstep p f p' hp (hf f List.mem_cons_self) hx) (fun g hg => hf g (List.mem_cons_of_mem _ hg)) h

theorem foldl_inv {α : Type} {P : α → Prop} {Q : Nat × WireVal → Prop} {put : α → Nat × WireVal → α}
    (hstep : ∀ p f, P p → Q f → P (put p f)) (fs : List (Nat × WireVal)) : ∀ p, P p → (∀ f ∈ fs, Q f) → P (fs.foldl put p) := by
  induction fs with
  | nil => intro p hp _; exact hp
  | cons f rest ih =>
    intro p hp hf
    exact ih _ (hstep p f hp (hf f List.mem_cons_self)) (fun g hg => hf g (List.mem_cons_of_mem _ hg))

theorem EncParams.parse_length {bs : Bytes} {p : EncParams} (h : EncParams.parse bs = some p) : p.ciphertext.length ≤ bs.length := by
  unfold EncParams.parse at h
  cases hf : parseFields 100 bs with
  | none => rw [hf] at h; cases h
  | some fs =>
    rw [hf] at h
    refine putAll_inv (P := fun p : EncParams => p.ciphertext.length ≤ bs.length) (Q := fun f => ∀ b, f.2 = .len b → b.length ≤ bs.length) ?_ fs {} p
      (Nat.zero_le _) (parseFields_len hf) h
    intro p f q hp hq hput
    unfold EncParams.put at hput
    split at hput
    · injection hput with hput; subst hput; exact hp
    · injection hput with hput; subst hput; exact hp
    · injection hput with hput; subst hput; exact hp
    · injection hput with hput; subst hput; exact hq _ rfl
    · split at hput
      · cases hput
      · injection hput with hput; subst hput; exact hp
    · injection hput with hput; subst hput; exact hp

theorem SizeParams.put_ok (p : SizeParams) (f : Nat × WireVal) (hp : p.Ok) : (p.put f).Ok := by
  obtain ⟨h1, h2, h3⟩ := hp
  unfold SizeParams.put
  split
  · exact ⟨Nat.mod_lt _ (by decide), h2, h3⟩
  · exact ⟨h1, Nat.mod_lt _ (by decide), h3⟩
  · exact ⟨h1, h2, Nat.mod_lt _ (by decide)⟩
  · exact ⟨h1, h2, h3⟩

theorem FullParams.put_ok (p : FullParams) (f : Nat × WireVal) (hp : p.Ok) (hf : ∀ b, f.2 = .len b → b.length < 2 ^ 27) : (p.put f).Ok := by
  unfold FullParams.put
  split
  · exact hf _ rfl
  all_goals exact hp

theorem LiteParams.put_ok (p : LiteParams) (f : Nat × WireVal) (q : LiteParams) (hp : p.Ok) (hf : ∀ b, f.2 = .len b → b.length < 2 ^ 27)
    (h : p.put f = some q) : q.Ok := by
  obtain ⟨h1, h2, h3, h4, h5, h6, h7⟩ := hp
  unfold LiteParams.put at h
  split at h
  · injection h with h; subst h; exact ⟨hf _ rfl, h2, h3, h4, h5, h6, h7⟩
  · injection h with h; subst h; exact ⟨h1, hf _ rfl, h3, h4, h5, h6, h7⟩
  · injection h with h; subst h; exact ⟨h1, h2, hf _ rfl, h4, h5, h6, h7⟩
  · injection h with h; subst h; exact ⟨h1, h2, h3, hf _ rfl, h5, h6, h7⟩
  · injection h with h; subst h
    exact ⟨h1, h2, h3, h4, fun t ht => by injection ht with ht; subst ht; exact Nat.mod_lt _ (by decide), h6, h7⟩
  · split at h
    · rename_i hu
      injection h with h; subst h; exact ⟨h1, h2, h3, h4, h5, hf _ rfl, hu⟩
    · cases h
  · injection h with h; subst h; exact ⟨h1, h2, h3, h4, h5, h6, h7⟩

/-- Parameters that were parsed can be serialized again. -/
theorem DecParams.parse_ok {bs : Bytes} {d : DecParams} (hlen : bs.length < 2 ^ 27) (h : DecParams.parse bs = some d) : d.Ok := by
  unfold DecParams.parse at h
  cases hf : parseFields 100 bs with
  | none => rw [hf] at h; cases h
  | some fs =>
    rw [hf] at h
    refine putAll_inv (P := DecParams.Ok) (Q := fun f => ∀ b, f.2 = .len b → b.length < 2 ^ 27) ?_ fs {} d
      ⟨nofun, nofun, nofun⟩ (fun f hm b hb => Nat.lt_of_le_of_lt (parseFields_len hf f hm b hb) hlen) h
    intro p f q hp hq hput
    have hsub : ∀ {b : Bytes} {fs : List (Nat × WireVal)}, b.length < 2 ^ 27 → parseFields 99 b = some fs → ∀ f ∈ fs, ∀ x, f.2 = .len x → x.length < 2 ^ 27 :=
      fun hb hfs f hm x hx => Nat.lt_of_le_of_lt (parseFields_len hfs f hm x hx) hb
    obtain ⟨h1, h2, h3⟩ := hp
    unfold DecParams.put at hput
    split at hput
    · rename_i b
      split at hput
      · cases hput
      · rename_i sub hsubf
        injection hput with hput
        subst hput
        refine ⟨fun s hs => ?_, h2, h3⟩
        injection hs with hs
        subst hs
        refine foldl_inv (P := SizeParams.Ok) (Q := fun _ => True) (fun p f hp _ => p.put_ok f hp) sub _ ?_ (fun _ _ => trivial)
        cases hsz : p.size with
        | none => exact ⟨by decide, by decide, by decide⟩
        | some s => exact h1 s hsz
    · rename_i b
      split at hput
      · cases hput
      · rename_i sub hsubf
        split at hput
        · cases hput
        · rename_i l hl
          injection hput with hput
          subst hput
          refine ⟨h1, fun l' hl' => ?_, nofun⟩
          injection hl' with hl'
          subst hl'
          refine putAll_inv (P := LiteParams.Ok) (Q := fun f => ∀ b, f.2 = .len b → b.length < 2 ^ 27) (fun p f q hp hq => p.put_ok f q hp hq) sub _ l ?_
            (hsub (hq _ rfl) hsubf) hl
          have hdef : (({} : LiteParams)).Ok := ⟨by decide, by decide, by decide, by decide, nofun, by decide, by decide⟩
          cases hsz : p.format with
          | none => exact hdef
          | lite s => exact h2 s hsz
          | full s => exact hdef
    · rename_i b
      split at hput
      · cases hput
      · rename_i sub hsubf
        injection hput with hput
        subst hput
        refine ⟨h1, nofun, fun l' hl' => ?_⟩
        injection hl' with hl'
        subst hl'
        refine foldl_inv (P := FullParams.Ok) (Q := fun f => ∀ b, f.2 = .len b → b.length < 2 ^ 27) (fun p f hp hq => p.put_ok f hp hq) sub _ ?_
          (hsub (hq _ rfl) hsubf)
        have hdef : (({} : FullParams)).Ok := show 0 < 2 ^ 27 by decide
        cases hsz : p.format with
        | none => exact hdef
        | lite s => exact hdef
        | full s => exact h3 s hsz
    · injection hput with hput
      subst hput
      exact ⟨h1, h2, h3⟩

end Securefs
