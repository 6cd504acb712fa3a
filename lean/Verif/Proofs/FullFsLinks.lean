import Verif.Proofs.FullFsTree
/-!
# Path resolution ends
-/

namespace Securefs

open Spec

/-- A program that ends within `n` sections as long as every state satisfies `P`, and returns what satisfies `Q`. -/
def Within (P : FullFs → Prop) {α : Type} (Q : α → Prop) : Nat → Prog α → Prop
  | _, .ret a => Q a
  | _, .throw _ => True
  | 0, .sec _ _ => False
  | n + 1, .sec f k => ∀ fs, P fs → ∀ b, (f fs).1 = .ok b → Within P Q n (k b)

theorem within_ret {P : FullFs → Prop} {α : Type} {Q : α → Prop} (n : Nat) {a : α} (h : Q a) : Within P Q n (.ret a) := by
  cases n <;> exact h

theorem within_throw {P : FullFs → Prop} {α : Type} {Q : α → Prop} (n : Nat) (e : Err) : Within P Q n (.throw e) := by
  cases n <;> exact trivial

theorem Within.le {P : FullFs → Prop} {α : Type} {Q : α → Prop} : ∀ {n m : Nat} {p : Prog α}, n ≤ m → Within P Q n p → Within P Q m p
  | _, m, .ret a, _, h => within_ret m (by simpa [Within] using h)
  | _, m, .throw e, _, _ => within_throw m e
  | 0, _, .sec _ _, _, h => by simp [Within] at h
  | n + 1, 0, .sec _ _, hl, _ => by omega
  | n + 1, m + 1, .sec f k, hl, h => by
    intro fs hP b hb
    exact Within.le (by omega) (h fs hP b hb)

theorem Within.bind {P : FullFs → Prop} {α β : Type} {Q : α → Prop} {R : β → Prop} {g : α → Prog β} {m : Nat}
    (hg : ∀ a, Q a → Within P R m (g a)) : ∀ (n : Nat) (p : Prog α), Within P Q n p → Within P R (n + m) (p.bind g)
  | n, .ret a, h => by
    simp only [Prog.bind]
    exact Within.le (by omega) (hg a (by simpa [Within] using h))
  | n, .throw e, _ => by simp only [Prog.bind]; exact within_throw _ e
  | 0, .sec _ _, h => by simp [Within] at h
  | n + 1, .sec f k, h => by
    simp only [Prog.bind]
    rw [show n + 1 + m = n + m + 1 by omega]
    intro fs hP b hb
    exact Within.bind hg n (k b) (h fs hP b hb)

theorem within_one {P : FullFs → Prop} {α : Type} {Q : α → Prop} {f : Sec α} (h : ∀ fs, P fs → ∀ b, (f fs).1 = .ok b → Q b) :
    Within P Q 1 (Prog.one f) := h

theorem within_any {P : FullFs → Prop} {α : Type} (f : Sec α) : Within P (fun _ => True) 1 (Prog.one f) := fun _ _ _ _ => trivial

theorem within_finished {P : FullFs → Prop} {α : Type} {Q : α → Prop} : ∀ (n : Nat) (p : Prog α) (states : Nat → FullFs), (∀ i, P (states i)) →
    Within P Q n p → Finished (remains p states n)
  | 0, .ret a, _, _, _ => .inl ⟨a, rfl⟩
  | n + 1, .ret a, _, _, _ => .inl ⟨a, rfl⟩
  | 0, .throw e, _, _, _ => .inr ⟨e, rfl⟩
  | n + 1, .throw e, _, _, _ => .inr ⟨e, rfl⟩
  | 0, .sec _ _, _, _, h => by simp [Within] at h
  | n + 1, .sec f k, states, hP, h => by
    simp only [remains]
    cases hf : (f (states 0)).1 with
    | error e => exact .inr ⟨e, rfl⟩
    | ok b => exact within_finished n (k b) _ (fun i => hP (i + 1)) (h (states 0) (hP 0) b hf)

attribute [irreducible] Within

theorem within_linkGet {cfg : FsCfg} {L : Nat} (h : FH) :
    Within (ShortLinks L) (fun t => (splitPath t).length ≤ L) 1 (Prog.one (secLinkGet cfg h)) := by
  refine within_one fun fs hP b hb => ?_
  unfold secLinkGet at hb
  cases hg : fs.get h.id with
  | none => unfold Sec.file at hb; rw [hg] at hb; cases hb
  | some n =>
    rw [file_run hg] at hb
    dsimp only at hb
    cases hc : castAs h typeSymlink n with
    | error e => rw [hc] at hb; cases hb
    | ok u =>
      rw [hc] at hb
      injection hb with hb
      rw [← hb, splitPath_eq]
      refine hP h.id (viewFile n) (view_of_get hg) ?_
      unfold castAs at hc
      split at hc
      · cases hc
      · next hm =>
        split at hc
        · cases hc
        · next hk =>
          rw [ne_eq, not_not] at hm hk
          rw [hk] at hm
          have hm : n.attr.mode &&& 0xf000 = 0xa000 := hm.symm
          unfold AFile.kind viewFile
          dsimp only
          rw [hm]
          decide

theorem within_walk {cfg : FsCfg} {L B : Nat} {rec : Bytes → FH → List Bytes → Prog (Option FH)}
    (hrec : ∀ i h l, l.length ≤ L → Within (ShortLinks L) (fun _ => True) B (rec i h l)) :
    ∀ (l : List Bytes) (i : Bytes) (h : FH), Within (ShortLinks L) (fun _ => True) (l.length * (4 + B)) (walk cfg rec i h l)
  | [], i, h => within_ret _ trivial
  | s :: rest, i, h => by
    have ih := within_walk (cfg := cfg) hrec rest
    have hlen : (s :: rest).length * (4 + B) = (4 + B) + rest.length * (4 + B) := by
      rw [List.length_cons, Nat.add_mul, Nat.one_mul, Nat.add_comm]
    rw [hlen]
    unfold walk
    by_cases h1 : s = dotName
    · rw [if_pos h1]
      exact Within.le (by omega) (ih i h)
    · rw [if_neg h1]
      by_cases h2 : s = dotDotName
      · rw [if_pos h2]
        refine Within.le (n := 1 + (1 + rest.length * (4 + B))) (by omega) ?_
        exact Within.bind (fun _ _ => Within.bind (fun _ _ => ih _ _) 1 _ (within_any _)) 1 _ (within_any _)
      · rw [if_neg h2]
        refine Within.le (n := 1 + (1 + (1 + (1 + (B + rest.length * (4 + B)))))) (by omega) ?_
        refine Within.bind (fun found _ => ?_) 1 _ (within_any _)
        cases found with
        | none => exact within_ret _ trivial
        | some e =>
          dsimp only
          refine Within.bind (fun child _ => ?_) 1 _ (within_any _)
          refine Within.bind (fun _ _ => ?_) 1 _ (within_any _)
          by_cases h3 : e.type = typeSymlink
          · rw [if_pos h3]
            refine Within.bind (fun target ht => ?_) 1 _ (within_linkGet child)
            refine Within.bind (fun r _ => ?_) B _ (hrec _ _ _ ht)
            cases r with
            | none => exact within_ret _ trivial
            | some c => exact ih _ _
          · rw [if_neg h3]
            exact Within.le (by omega) (ih _ _)

theorem within_genericOpen {cfg : FsCfg} {L : Nat} : ∀ (d : Nat) (i : Bytes) (h : FH) (l : List Bytes), l.length ≤ L →
    Within (ShortLinks L) (fun _ => True) (sectionBound L d) (genericOpen cfg d i h l)
  | 0, _, _, _, _ => within_throw _ _
  | d + 1, i, h, l, hl => by
    have := within_walk (cfg := cfg) (fun i h l hl => within_genericOpen (cfg := cfg) (L := L) d i h l hl) l i h
    exact Within.le (Nat.mul_le_mul_right _ hl) this

theorem within_openBase {cfg : FsCfg} {L : Nat} {path : Bytes} (hp : (parts path).length ≤ L) :
    Within (ShortLinks L) (fun _ => True) (1 + sectionBound L 16) (openBase cfg path) := by
  have hgo : ∀ i h l, l.length ≤ L → Within (ShortLinks L) (fun _ => True) (sectionBound L 16) (genericOpen cfg maxDepth i h l) :=
    fun i h l hl => within_genericOpen 16 i h l hl
  generalize sectionBound L 16 = B at *
  unfold openBase
  refine Within.bind (fun root _ => ?_) 1 _ (within_any _)
  rw [splitPath_eq]
  cases hl : (parts path).getLast? with
  | none => exact within_ret _ trivial
  | some last =>
    dsimp only
    by_cases h1 : (parts path).length = 1
    · rw [if_pos h1]; exact within_ret _ trivial
    · rw [if_neg h1]
      have hlen : (parts path).dropLast.length ≤ L := by rw [List.length_dropLast]; omega
      refine Within.le (n := B + 0) (by omega) ?_
      refine Within.bind (fun r _ => ?_) _ _ (hgo kRootId root _ hlen)
      cases r with
      | none => exact within_throw _ _
      | some d => exact within_ret _ trivial

theorem within_openAll_aux {cfg : FsCfg} {L B : Nat} {path : Bytes} (follow : Bool)
    (hgo : ∀ i h l, l.length ≤ L → Within (ShortLinks L) (fun _ => True) B (genericOpen cfg maxDepth i h l))
    (hbase : Within (ShortLinks L) (fun _ => True) (1 + B) (openBase cfg path)) :
    Within (ShortLinks L) (fun _ => True) (5 + 2 * B) (openAll cfg path follow) := by
  unfold openAll
  by_cases h0 : path = [] ∨ path = [slash]
  · rw [if_pos h0]
    refine Within.le (n := 1 + 0) (by omega) ?_
    exact Within.bind (fun _ _ => within_ret _ trivial) 1 _ (within_any _)
  · rw [if_neg h0]
    refine Within.le (n := (1 + B) + (1 + (1 + (1 + (1 + B))))) (by omega) ?_
    refine Within.bind (fun r _ => ?_) _ _ hbase
    obtain ⟨base, last⟩ := r
    dsimp only
    refine Within.bind (fun found _ => ?_) 1 _ (within_any _)
    cases found with
    | none => exact within_ret _ trivial
    | some e =>
      dsimp only
      refine Within.bind (fun holder _ => ?_) 1 _ (within_any _)
      refine Within.bind (fun _ _ => ?_) 1 _ (within_any _)
      by_cases h3 : follow = true ∧ holder.cls = typeSymlink
      · rw [if_pos h3]
        refine Within.bind (fun t ht => ?_) 1 _ (within_linkGet holder)
        exact hgo _ _ _ ht
      · rw [if_neg h3]; exact within_ret _ trivial

theorem within_openAll {cfg : FsCfg} {L B : Nat} (hB : B = sectionBound L 16) {path : Bytes} (follow : Bool) (hp : (parts path).length ≤ L) :
    Within (ShortLinks L) (fun _ => True) (5 + 2 * B) (openAll cfg path follow) :=
  within_openAll_aux follow (fun i h l hl => by rw [hB]; exact within_genericOpen 16 i h l hl) (by rw [hB]; exact within_openBase hp)

/-- Every program ends, whatever happens in between. -/
theorem finishes {α : Type} : ∀ (p : Prog α) (states : Nat → FullFs), ∃ n, Finished (remains p states n)
  | .ret a, _ => ⟨0, .inl ⟨a, rfl⟩⟩
  | .throw e, _ => ⟨0, .inr ⟨e, rfl⟩⟩
  | .sec f k, states => by
    cases hf : (f (states 0)).1 with
    | error e =>
      refine ⟨1, .inr ⟨e, ?_⟩⟩
      simp only [remains, hf]
    | ok b =>
      obtain ⟨n, hn⟩ := finishes (k b) fun i => states (i + 1)
      refine ⟨n + 1, ?_⟩
      simp only [remains, hf]
      exact hn

/-! ## Chains of links -/

theorem chain_resolve {same : Bytes → Bytes → Bool} {A : AFs} {p : Place} {last : Bytes} : ∀ (k : Nat) (name : Bytes) (n : Nat),
    LinkChain same A p.1 k name last →
    resolve same A n p [name] = if k < n then .ok (some (last, p.1 :: p.2)) else .error (.vfs 40)
  | 0, name, 0, _ => rfl
  | 0, name, n + 1, h => by
    obtain ⟨h1, h2, e, h4, h3, rfl⟩ := h
    rw [if_pos (by omega)]
    unfold resolve resolveWith
    rw [if_neg h1, if_neg h2, h4]
    dsimp only
    rw [if_neg h3]
    unfold resolveWith
    rfl
  | k + 1, name, 0, _ => rfl
  | k + 1, name, n + 1, h => by
    obtain ⟨h1, h2, e, f, next, h3, hty, h4, h5, h6⟩ := h
    have ih := chain_resolve k next n h6
    unfold resolve resolveWith
    rw [if_neg h1, if_neg h2, h3]
    dsimp only
    rw [if_pos hty, h4]
    dsimp only
    rw [h5, ih]
    by_cases hk : k < n
    · rw [if_pos hk, if_pos (by omega)]
      unfold resolveWith
      rfl
    · rw [if_neg hk, if_neg (by omega)]

/-- A link that leads to itself over any number of other links in its directory never resolves. -/
theorem cycle_resolve {same : Bytes → Bytes → Bool} {A : AFs} {p : Place} (S : Bytes → Prop)
    (hS : ∀ name, S name → name ≠ [46] ∧ name ≠ [46, 46] ∧ ∃ e f next, lookupIn same A p.1 name = .ok (some e) ∧ e.type = 10 ∧
      A e.id = some f ∧ parts f.data = [next] ∧ S next) : ∀ (n : Nat) (name : Bytes), S name → resolve same A n p [name] = .error (.vfs 40)
  | 0, _, _ => rfl
  | n + 1, name, h => by
    obtain ⟨h1, h2, e, f, next, h3, h4, h5, h6, h7⟩ := hS name h
    unfold resolve resolveWith
    rw [if_neg h1, if_neg h2, h3]
    dsimp only
    rw [if_pos h4, h5]
    dsimp only
    rw [h6, cycle_resolve S hS n next h7]

/-! ## Errors -/

/-- The errors of path resolution. -/
def PathErr (e : Err) : Prop := e = .vfs 1 ∨ e = .vfs 2 ∨ e = .vfs 36 ∨ e = .vfs 40

theorem lookupIn_errors {same : Bytes → Bytes → Bool} {A : AFs} {d name : Bytes} {e : Err} (h : lookupIn same A d name = .error e) : PathErr e := by
  unfold lookupIn at h
  cases hA : A d with
  | none => rw [hA] at h; cases h; exact .inr (.inl rfl)
  | some f =>
    rw [hA] at h
    dsimp only at h
    by_cases h1 : f.kind ≠ 4
    · rw [if_pos h1] at h; cases h; exact .inl rfl
    · rw [if_neg h1] at h
      by_cases h2 : name.length > 255
      · rw [if_pos h2] at h; cases h; exact .inr (.inr (.inl rfl))
      · rw [if_neg h2] at h; cases h

theorem resolveWith_errors {same : Bytes → Bytes → Bool} {A : AFs} {link : Place → List Bytes → Res (Option Place)}
    (hl : ∀ p l e, link p l = .error e → PathErr e) : ∀ (l : List Bytes) (p : Place) {e : Err}, resolveWith same A link p l = .error e → PathErr e
  | [], p, e, h => by cases h
  | s :: rest, p, e, h => by
    unfold resolveWith at h
    by_cases h1 : s = [46]
    · rw [if_pos h1] at h; exact resolveWith_errors hl rest _ h
    rw [if_neg h1] at h
    by_cases h2 : s = [46, 46]
    · rw [if_pos h2] at h; exact resolveWith_errors hl rest _ h
    rw [if_neg h2] at h
    cases hk : lookupIn same A p.1 s with
    | error e' => rw [hk] at h; cases h; exact lookupIn_errors hk
    | ok o =>
      rw [hk] at h
      cases o with
      | none => cases h
      | some en =>
        dsimp only at h
        by_cases h3 : en.type = 10
        · rw [if_pos h3] at h
          cases hA : A en.id with
          | none => rw [hA] at h; cases h; exact .inr (.inl rfl)
          | some f =>
            rw [hA] at h
            dsimp only at h
            cases hr : link p (parts f.data) with
            | error e' => rw [hr] at h; cases h; exact hl _ _ _ hr
            | ok o =>
              rw [hr] at h
              cases o with
              | none => cases h
              | some p' => exact resolveWith_errors hl rest _ h
        · rw [if_neg h3] at h; exact resolveWith_errors hl rest _ h

theorem resolve_errors {same : Bytes → Bytes → Bool} {A : AFs} : ∀ (n : Nat) (p : Place) (l : List Bytes) (e : Err),
    resolve same A n p l = .error e → PathErr e
  | 0, _, _, e, h => by cases h; exact .inr (.inr (.inr rfl))
  | n + 1, p, l, e, h => resolveWith_errors (resolve_errors n) l p h

theorem resolvePath_errors {same : Bytes → Bytes → Bool} {A : AFs} {path : Bytes} {follow : Bool} {e : Err}
    (h : resolvePath same A path follow = .error e) : PathErr e := by
  unfold resolvePath at h
  by_cases h1 : path = [] ∨ path = [47]
  · rw [if_pos h1] at h; cases h
  rw [if_neg h1] at h
  cases hp : resolveParent same A path with
  | error e' =>
    rw [hp] at h
    cases h
    unfold resolveParent at hp
    cases hl : (parts path).getLast? with
    | none => rw [hl] at hp; cases hp
    | some last =>
      rw [hl] at hp
      dsimp only at hp
      cases hr : resolve same A 16 rootPlace (parts path).dropLast with
      | error e' => rw [hr] at hp; cases hp; exact resolve_errors _ _ _ _ hr
      | ok o =>
        rw [hr] at hp
        cases o with
        | none => cases hp; exact .inr (.inl rfl)
        | some p => cases hp
  | ok r =>
    obtain ⟨p, last⟩ := r
    rw [hp] at h
    dsimp only at h
    cases hk : lookupIn same A p.1 last with
    | error e' => rw [hk] at h; cases h; exact lookupIn_errors hk
    | ok o =>
      rw [hk] at h
      cases o with
      | none => cases h
      | some en =>
        dsimp only at h
        by_cases h3 : follow = true ∧ en.type = 10
        · rw [if_pos h3] at h
          cases hA : A en.id with
          | none => rw [hA] at h; cases h; exact .inr (.inl rfl)
          | some f => rw [hA] at h; exact resolve_errors _ _ _ _ h
        · rw [if_neg h3] at h; cases h

end Securefs
