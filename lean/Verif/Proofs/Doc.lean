import Verif.Spec.Doc
import Mathlib.Tactic.ByContra
import Mathlib.Tactic.Tauto
import Mathlib.Data.List.Nodup
/-!
# Lemmas for the command `doc`
-/

namespace Securefs
namespace Dc

theorem insert_perm (x : Nat × DocArg) : ∀ l, (docInsert x l).Perm (x :: l)
  | [] => List.Perm.refl _
  | y :: rest => by
    rw [docInsert]
    split
    · exact List.Perm.refl _
    · exact ((insert_perm x rest).cons y).trans (List.Perm.swap x y rest)

theorem sort_perm : ∀ l, (docSort l).Perm l
  | [] => List.Perm.refl _
  | x :: rest => by
    rw [docSort]
    exact (insert_perm x _).trans ((sort_perm rest).cons x)

theorem insert_sorted (x : Nat × DocArg) : ∀ l, l.Pairwise (fun a b => a.1 ≤ b.1) → (docInsert x l).Pairwise (fun a b => a.1 ≤ b.1)
  | [], _ => by rw [docInsert]; exact List.pairwise_singleton _ _
  | y :: rest, h => by
    rw [docInsert]
    have ⟨hy, hr⟩ := List.pairwise_cons.1 h
    split
    · rename_i hle
      refine List.pairwise_cons.2 ⟨fun z hz => ?_, h⟩
      rcases List.mem_cons.1 hz with rfl | hz
      · exact hle
      · exact Nat.le_trans hle (hy z hz)
    · rename_i hlt
      refine List.pairwise_cons.2 ⟨fun z hz => ?_, insert_sorted x rest hr⟩
      rcases List.mem_cons.1 ((insert_perm x rest).mem_iff.1 hz) with rfl | hz
      · omega
      · exact hy z hz

theorem sort_sorted : ∀ l, (docSort l).Pairwise (fun a b => a.1 ≤ b.1)
  | [] => List.Pairwise.nil
  | x :: rest => by rw [docSort]; exact insert_sorted x _ (sort_sorted rest)

/-- A list with strictly growing numbers is what sorting makes of any arrangement of it. -/
theorem sort_eq {l m : List (Nat × DocArg)} (hp : m.Perm l) (hs : m.Pairwise (fun a b => a.1 < b.1)) : docSort l = m := by
  refine List.Perm.eq_of_pairwise (le := fun a b => a.1 ≤ b.1) ?_ (sort_sorted l) (hs.imp Nat.le_of_lt) ((sort_perm l).trans hp.symm)
  intro a b ha hb h1 h2
  have ha' : a ∈ m := hp.symm.mem_iff.1 ((sort_perm l).mem_iff.1 ha)
  have hnd : (m.map Prod.fst).Nodup := List.pairwise_map.2 (hs.imp Nat.ne_of_lt)
  exact List.inj_on_of_nodup_map hnd ha' hb (Nat.le_antisymm h1 h2)

abbrev isPos (a : DocArg) : Bool := decide (a.cls = .positional)

/-- The numbers that the loop gives, split by class: positional ones grow, the others fall, and all of the others are above. -/
theorem pairs_split (n : Nat) : ∀ (l : List DocArg) (i : Nat), i + l.length ≤ n →
    let ps := (docPairs n i l).filter (fun p => isPos p.2)
    let os := (docPairs n i l).filter (fun p => !isPos p.2)
    ps.Pairwise (fun a b => a.1 < b.1) ∧ os.reverse.Pairwise (fun a b => a.1 < b.1) ∧ (∀ p ∈ ps, i < p.1) ∧ (∀ p ∈ os, p.1 < 2 * n - i) ∧
      (∀ p ∈ ps, ∀ q ∈ os, p.1 < q.1) ∧ (∀ p ∈ ps, p.1 ≤ n) ∧ (∀ q ∈ os, n ≤ q.1) ∧ ps.map Prod.snd = l.filter isPos ∧
      os.map Prod.snd = l.filter (fun a => !isPos a)
  | [], _, _ => by simp [docPairs]
  | a :: rest, i, hn => by
    simp only [List.length_cons] at hn
    obtain ⟨h1, h2, h3, h4, h5, h6, h7, h8, h9⟩ := pairs_split n rest (i + 1) (by omega)
    by_cases ha : a.cls = .positional
    · have hk : docKey n (i + 1) a = i + 1 := by rw [docKey, if_pos ha]
      have hp : isPos a = true := by simp [ha]
      simp only [docPairs, List.filter_cons, hp, hk, if_true, Bool.not_true, Bool.false_eq_true, if_false, List.map_cons, h8, h9]
      refine ⟨List.pairwise_cons.2 ⟨fun p hp => h3 p hp, h1⟩, h2, ?_, ?_, ?_, ?_, h7, trivial, trivial⟩
      · intro p hp
        rcases List.mem_cons.1 hp with rfl | hp
        · exact Nat.lt_succ_self i
        · have := h3 p hp; omega
      · intro p hp; have := h4 p hp; omega
      · intro p hp q hq
        rcases List.mem_cons.1 hp with rfl | hp
        · have hq1 := h7 q hq
          have hq2 := h4 q hq
          show i + 1 < q.1
          have : rest.length ≠ 0 := by
            intro h0
            rw [List.eq_nil_of_length_eq_zero h0] at hq
            simp [docPairs] at hq
          omega
        · exact h5 p hp q hq
      · intro p hp
        rcases List.mem_cons.1 hp with rfl | hp
        · show i + 1 ≤ n; omega
        · exact h6 p hp
    · have hk : docKey n (i + 1) a = 2 * n - (i + 1) := by rw [docKey, if_neg ha]
      have hp : isPos a = false := by simp [ha]
      simp only [docPairs, List.filter_cons, hp, hk, if_true, Bool.not_false, Bool.false_eq_true, if_false, List.map_cons, h8, h9,
        List.reverse_cons]
      refine ⟨h1, List.pairwise_append.2 ⟨h2, List.pairwise_singleton _ _, ?_⟩, ?_, ?_, ?_, h6, ?_, trivial, trivial⟩
      · intro p hp q hq
        rw [List.mem_singleton.1 hq]
        exact h4 p (List.mem_reverse.1 hp)
      · intro p hp; have := h3 p hp; omega
      · intro p hp
        rcases List.mem_cons.1 hp with rfl | hp
        · show 2 * n - (i + 1) < 2 * n - i; omega
        · have := h4 p hp; omega
      · intro p hp q hq
        rcases List.mem_cons.1 hq with rfl | hq
        · have := h6 p hp
          have h3' := h3 p hp
          show p.1 < 2 * n - (i + 1)
          have : rest.length ≠ 0 := by
            intro h0
            rw [List.eq_nil_of_length_eq_zero h0] at hp
            simp [docPairs] at hp
          omega
        · exact h5 p hp q hq
      · intro p hp
        rcases List.mem_cons.1 hp with rfl | hp
        · show n ≤ 2 * n - (i + 1); omega
        · exact h7 p hp

/-- The order in which arguments are shown, for every list that TCLAP may return. -/
theorem order_eq (args : List DocArg) : docOrder args = args.filter isPos ++ (args.filter (fun a => !isPos a)).reverse := by
  obtain ⟨h1, h2, _, _, h5, _, _, h8, h9⟩ := pairs_split args.length args 0 (by omega)
  rw [docOrder, sort_eq (m := (docPairs args.length 0 args).filter (fun p => isPos p.2) ++
    ((docPairs args.length 0 args).filter (fun p => !isPos p.2)).reverse)]
  · rw [List.map_append, List.map_reverse, h8, h9]
  · exact ((List.Perm.refl _).append (List.reverse_perm _)).trans (List.filter_append_perm _ _)
  · exact List.pairwise_append.2 ⟨h1, h2, fun p hp q hq => h5 p hp q (List.mem_reverse.1 hq)⟩

theorem tclap_eq : ∀ (l acc : List DocArg),
    tclapList acc l = (l.filter (fun a => !isPos a)).reverse ++ acc ++ l.filter isPos
  | [], acc => by simp [tclapList]
  | a :: rest, acc => by
    rw [tclapList, tclap_eq rest]
    by_cases ha : a.cls = .positional <;> simp [ha]

/-- Arguments are shown in the order of declaration, the positional ones first. -/
theorem order_declared (l : List DocArg) : docOrder (tclapList [] l) = l.filter isPos ++ l.filter (fun a => !isPos a) := by
  rw [order_eq, tclap_eq]
  have e1 : ((l.filter (fun a => !isPos a)).reverse).filter isPos = [] := by
    rw [List.filter_eq_nil_iff]
    intro a ha
    have := (List.mem_filter.1 (List.mem_reverse.1 ha)).2
    simpa using this
  have e2 : (l.filter isPos).filter (fun a => !isPos a) = [] := by
    rw [List.filter_eq_nil_iff]
    intro a ha
    have := (List.mem_filter.1 ha).2
    simpa using this
  have e3 : (l.filter isPos).filter isPos = l.filter isPos := by rw [List.filter_filter]; simp
  have e4 : ((l.filter (fun a => !isPos a)).reverse).filter (fun a => !isPos a) = (l.filter (fun a => !isPos a)).reverse := by
    rw [List.filter_reverse, List.filter_filter]; simp
  simp only [List.append_nil, List.filter_append, e1, e2, e3, e4, List.nil_append, List.reverse_reverse, List.append_nil]

theorem skipped_iff (name : Bytes) : docSkipped name = true ↔ name ∈ ownNames := by
  simp only [docSkipped, ownNames, Bool.or_eq_true, decide_eq_true_eq, List.mem_cons, List.not_mem_nil, or_false]
  tauto

/-- An argument that is not left out is documented, or its class is not known. -/
theorem line_of (a : DocArg) (h : a.cls = .positional ∨ a.name ∉ ownNames) (hk : a.cls ≠ .unknown) :
    ∃ l, docLine a = some (l, .ok ()) ∧ Documented a l := by
  rw [docLine]
  by_cases hp : a.cls = .positional
  · rw [if_pos hp]
    refine ⟨_, rfl, ?_, ?_, fun h => (h hp).elim, ?_, ?_, ?_⟩
    · exact ⟨say "- **", say "**: (*positional*) " ++ a.description ++ say "\n", by simp [docPositional]⟩
    · exact ⟨say "- **" ++ a.name ++ say "**: (*positional*) ", say "\n", by simp [docPositional]⟩
    all_goals
      intro v hv
      rw [hp] at hv
      exact ArgClass.noConfusion hv
  · rw [if_neg hp, if_neg (fun hs => (h.resolve_left hp) ((skipped_iff _).1 hs))]
    have hn : a.name <:+: docHead a := ⟨say "- " ++ (if a.flag = [] then [] else say "**-" ++ a.flag ++ say "** or ") ++ say "**--",
      say "**" ++ say ": " ++ a.description ++ say ". ", by rw [docHead]; simp only [List.append_assoc]⟩
    have hd : a.description <:+: docHead a := ⟨_, say ". ", by rw [docHead]⟩
    have hf : a.flag ≠ [] → say "**-" ++ a.flag ++ say "**" <:+: docHead a := fun hne => by
      have e : say "** or " = say "**" ++ say " or " := by decide +kernel
      exact ⟨say "- ", say " or " ++ say "**--" ++ a.name ++ say "**" ++ say ": " ++ a.description ++ say ". ", by
        rw [docHead, if_neg hne, e]; simp only [List.append_assoc]⟩
    have fin : ∀ tail : Bytes, (∀ v, a.cls = .text v → v <:+: tail) → (∀ v, a.cls = .number v → say (toString v) <:+: tail) →
        (∀ on, a.cls = .switch on → (if on then say "true" else say "false") <:+: tail) → Documented a (docHead a ++ tail) := fun tail h1 h2 h3 =>
      have pre : docHead a <:+: docHead a ++ tail := List.infix_append' [] _ _
      have suf : tail <:+: docHead a ++ tail := (List.suffix_append _ _).isInfix
      ⟨hn.trans pre, hd.trans pre, fun _ hne => (hf hne).trans pre, fun v hv => (h1 v hv).trans suf, fun v hv => (h2 v hv).trans suf,
        fun v hv => (h3 v hv).trans suf⟩
    cases hc : a.cls with
    | positional => exact (hp hc).elim
    | unknown => exact (hk hc).elim
    | multi =>
      refine ⟨_, rfl, fin _ ?_ ?_ ?_⟩ <;> (intro v hv; rw [hc] at hv; exact ArgClass.noConfusion hv)
    | number v =>
      refine ⟨docHead a ++ say "*Default: " ++ say (toString v) ++ say ".*\n", rfl, ?_⟩
      rw [List.append_assoc, List.append_assoc]
      refine fin _ ?_ ?_ ?_
      · intro w hw; rw [hc] at hw; exact ArgClass.noConfusion hw
      · intro w hw
        rw [hc] at hw
        injection hw with hw
        rw [← hw]
        exact ⟨say "*Default: ", say ".*\n", by rw [List.append_assoc]⟩
      · intro w hw; rw [hc] at hw; exact ArgClass.noConfusion hw
    | text v =>
      cases v with
      | nil =>
        refine ⟨_, rfl, fin _ ?_ ?_ ?_⟩
        · intro w hw
          rw [hc] at hw
          injection hw with hw
          rw [← hw]
          exact List.nil_infix
        all_goals (intro w hw; rw [hc] at hw; exact ArgClass.noConfusion hw)
      | cons b t =>
        refine ⟨docHead a ++ say "*Default: " ++ (b :: t) ++ say ".*\n", rfl, ?_⟩
        rw [List.append_assoc, List.append_assoc]
        refine fin _ ?_ ?_ ?_
        · intro w hw
          rw [hc] at hw
          injection hw with hw
          rw [← hw]
          exact ⟨say "*Default: ", say ".*\n", by rw [List.append_assoc]⟩
        all_goals (intro w hw; rw [hc] at hw; exact ArgClass.noConfusion hw)
    | switch on =>
      have et : say "true" <:+: say "*This is a switch arg. Default: true.*\n" := by decide +kernel
      have ef : say "false" <:+: say "*This is a switch arg. Default: false.*\n" := by decide +kernel
      cases on
      · refine ⟨_, rfl, fin _ ?_ ?_ ?_⟩
        · intro w hw; rw [hc] at hw; exact ArgClass.noConfusion hw
        · intro w hw; rw [hc] at hw; exact ArgClass.noConfusion hw
        · intro w hw
          rw [hc] at hw
          injection hw with hw
          rw [← hw]
          exact ef
      · refine ⟨_, rfl, fin _ ?_ ?_ ?_⟩
        · intro w hw; rw [hc] at hw; exact ArgClass.noConfusion hw
        · intro w hw; rw [hc] at hw; exact ArgClass.noConfusion hw
        · intro w hw
          rw [hc] at hw
          injection hw with hw
          rw [← hw]
          exact et

/-- The loop over arguments whose classes are known. -/
theorem lines_of : ∀ l : List DocArg, (∀ a ∈ l, a.cls = .unknown → a.name ∈ ownNames) →
    ∃ ls, docLines l = (ls, .ok ()) ∧ List.Forall₂ Documented (l.filter fun a => decide (a.cls = .positional ∨ a.name ∉ ownNames)) ls
  | [], _ => ⟨[], rfl, List.Forall₂.nil⟩
  | a :: rest, h => by
    obtain ⟨ls, hls, hd⟩ := lines_of rest fun b hb => h b (List.mem_cons_of_mem _ hb)
    rw [docLines]
    by_cases hs : a.cls = .positional ∨ a.name ∉ ownNames
    · obtain ⟨l, hl, hdl⟩ := line_of a hs fun hk => hs.elim (fun hp => by rw [hk] at hp; exact ArgClass.noConfusion hp)
        fun hn => hn (h a List.mem_cons_self hk)
      rw [hl, List.filter_cons_of_pos (by simpa using hs)]
      exact ⟨l :: ls, by simp only [hls], List.Forall₂.cons hdl hd⟩
    · have hp : a.cls ≠ .positional := fun hp => hs (.inl hp)
      have hm : a.name ∈ ownNames := by
        by_contra hm
        exact hs (.inr hm)
      have hl : docLine a = none := by rw [docLine, if_neg hp, if_pos ((skipped_iff _).2 hm)]
      rw [hl, List.filter_cons_of_neg (by simpa using hs)]
      exact ⟨ls, hls, hd⟩

/-- An argument of a class that is not known ends the loop. -/
theorem lines_fail : ∀ l : List DocArg, (∃ a ∈ l, a.cls = .unknown ∧ a.name ∉ ownNames) → (docLines l).2 = .error .runtime
  | [], h => by obtain ⟨a, ha, _⟩ := h; exact (List.not_mem_nil ha).elim
  | a :: rest, h => by
    rw [docLines]
    by_cases hu : a.cls = .unknown ∧ a.name ∉ ownNames
    · have : docLine a = some (docHead a, .error .runtime) := by
        rw [docLine, if_neg (by rw [hu.1]; exact fun h => ArgClass.noConfusion h), if_neg (fun hs => hu.2 ((skipped_iff _).1 hs)), hu.1]
      rw [this]
    · have hr : ∃ b ∈ rest, b.cls = .unknown ∧ b.name ∉ ownNames := by
        obtain ⟨b, hb, hbu⟩ := h
        rcases List.mem_cons.1 hb with rfl | hb
        · exact (hu hbu).elim
        · exact ⟨b, hb, hbu⟩
      have ih := lines_fail rest hr
      by_cases hs : a.cls = .positional ∨ a.name ∉ ownNames
      · have hk : a.cls ≠ .unknown := fun hk => hs.elim (fun hp => by rw [hk] at hp; exact ArgClass.noConfusion hp) fun hn => hu ⟨hk, hn⟩
        obtain ⟨l, hl, _⟩ := line_of a hs hk
        rw [hl]
        exact ih
      · have hp : a.cls ≠ .positional := fun hp => hs (.inl hp)
        have hm : a.name ∈ ownNames := by
          by_contra hm
          exact hs (.inr hm)
        have hl : docLine a = none := by rw [docLine, if_neg hp, if_pos ((skipped_iff _).2 hm)]
        rw [hl]
        exact ih

theorem hidden_iff (c : Command) : c.hidden = true ↔ c = .protomount := by cases c <;> simp [Command.hidden]

theorem title_of (c : DocCmd) : c.cmd.longName <:+: docTitle c ∧ (c.cmd.shortName ≠ 0 → [c.cmd.shortName] <:+: docTitle c) := by
  rw [docTitle]
  by_cases h : c.cmd.shortName = 0
  · rw [if_neg (fun h' => h' h)]
    exact ⟨⟨say "## ", say "\n" ++ c.help ++ say "\n\n", by simp only [List.append_assoc]⟩, fun h' => (h' h).elim⟩
  · rw [if_pos h]
    exact ⟨⟨say "## ", say " (short name: " ++ [c.cmd.shortName] ++ say ")\n" ++ c.help ++ say "\n\n", by simp only [List.append_assoc]⟩,
      fun _ => ⟨say "## " ++ c.cmd.longName ++ say " (short name: ", say ")\n" ++ c.help ++ say "\n\n", by simp only [List.append_assoc]⟩⟩

theorem shown_eq (l : List DocArg) :
    (l.filter isPos ++ l.filter (fun a => !isPos a)).filter (fun a => decide (a.cls = .positional ∨ a.name ∉ ownNames)) = Shown l := by
  rw [Shown, List.filter_append, List.filter_filter, List.filter_filter]
  congr 1
  · refine List.filter_congr fun a _ => ?_
    by_cases h : a.cls = .positional <;> simp [h]
  · refine List.filter_congr fun a _ => ?_
    by_cases h : a.cls = .positional <;> simp [h]

/-- A command as it is in the program, from its declarations. -/
def declared (help : Command → Bytes) (d : Command × List DocArg) : DocCmd := ⟨d.1, help d.1, tclapList [] d.2⟩

theorem order_perm (l : List DocArg) (a : DocArg) : a ∈ docOrder (tclapList [] l) ↔ a ∈ l := by
  rw [order_declared, List.mem_append, List.mem_filter, List.mem_filter]
  by_cases h : a.cls = .positional <;> simp [h]

/-- The loop over the commands. -/
theorem cmds_of (help : Command → Bytes) : ∀ ds : List (Command × List DocArg), (∀ d ∈ ds, d.1 ≠ .protomount → ∀ a ∈ d.2, a.cls = .unknown → a.name ∈ ownNames) →
    ∃ out, docCmds (ds.map (declared help)) = (out, .ok ()) ∧ Manual ds out
  | [], _ => ⟨[], rfl, .nil⟩
  | d :: rest, h => by
    obtain ⟨out, ho, hm⟩ := cmds_of help rest fun e he => h e (List.mem_cons_of_mem _ he)
    obtain ⟨c, args⟩ := d
    rw [List.map_cons, docCmds]
    by_cases hc : c = .protomount
    · subst hc
      exact ⟨out, by rw [if_pos ((hidden_iff (declared help (.protomount, args)).cmd).2 rfl)]; exact ho, .hidden hm⟩
    · obtain ⟨ls, hls, hd⟩ := lines_of (docOrder (tclapList [] args)) fun a ha =>
        h (c, args) List.mem_cons_self hc a ((order_perm args a).1 ha)
      rw [order_declared, shown_eq] at hd
      have ht := title_of (declared help (c, args))
      refine ⟨docTitle (declared help (c, args)) :: ls ++ out, ?_, .shown hc ht.1 ht.2 hd hm⟩
      rw [if_neg (fun hh => hc ((hidden_iff (declared help (c, args)).cmd).1 hh))]
      have : docLines (docOrder (declared help (c, args)).args) = (ls, .ok ()) := hls
      rw [this, ho]

theorem cmds_fail (help : Command → Bytes) : ∀ ds : List (Command × List DocArg),
    (∃ d ∈ ds, d.1 ≠ .protomount ∧ ∃ a ∈ d.2, a.cls = .unknown ∧ a.name ∉ ownNames) → (docCmds (ds.map (declared help))).2 = .error .runtime
  | [], h => by obtain ⟨d, hd, _⟩ := h; exact (List.not_mem_nil hd).elim
  | d :: rest, h => by
    obtain ⟨c, args⟩ := d
    rw [List.map_cons, docCmds]
    by_cases hc : c = .protomount
    · rw [if_pos ((hidden_iff (declared help (c, args)).cmd).2 hc)]
      obtain ⟨e, he, hne, hb⟩ := h
      rcases List.mem_cons.1 he with rfl | he
      · exact (hne hc).elim
      · exact cmds_fail help rest ⟨e, he, hne, hb⟩
    · rw [if_neg (fun hh => hc ((hidden_iff (declared help (c, args)).cmd).1 hh))]
      have e : (declared help (c, args)).args = tclapList [] args := rfl
      rw [e]
      by_cases hu : ∃ a ∈ args, a.cls = .unknown ∧ a.name ∉ ownNames
      · have := lines_fail (docOrder (tclapList [] args)) (by
          obtain ⟨a, ha, hb⟩ := hu
          exact ⟨a, (order_perm args a).2 ha, hb⟩)
        rcases hl : docLines (docOrder (tclapList [] args)) with ⟨ls, r⟩
        rw [hl] at this
        simp only at this
        subst this
        rfl
      · have hr : (docCmds (rest.map (declared help))).2 = .error .runtime := by
          obtain ⟨e, he, hne, hb⟩ := h
          rcases List.mem_cons.1 he with rfl | he
          · exact (hu hb).elim
          · exact cmds_fail help rest ⟨e, he, hne, hb⟩
        rcases hl : docLines (docOrder (tclapList [] args)) with ⟨ls, r⟩
        have hr2 : r = .ok () ∨ r = .error .runtime := by
          have key : ∀ l : List DocArg, (docLines l).2 = .ok () ∨ (docLines l).2 = .error .runtime := by
            intro l
            by_cases hx : ∃ a ∈ l, a.cls = .unknown ∧ a.name ∉ ownNames
            · exact .inr (lines_fail l hx)
            · left
              induction l with
              | nil => rfl
              | cons a t ih =>
                have ih := ih fun ⟨b, hb, hbu⟩ => hx ⟨b, List.mem_cons_of_mem _ hb, hbu⟩
                rw [docLines]
                by_cases hs : a.cls = .positional ∨ a.name ∉ ownNames
                · obtain ⟨l, hl, _⟩ := line_of a hs fun hk =>
                    hx ⟨a, List.mem_cons_self, hk, hs.resolve_left fun hp => by rw [hk] at hp; exact ArgClass.noConfusion hp⟩
                  rw [hl]
                  exact ih
                · have hm : a.name ∈ ownNames := by
                    by_contra hm
                    exact hs (.inr hm)
                  have hl : docLine a = none := by rw [docLine, if_neg (fun hp => hs (.inl hp)), if_pos ((skipped_iff _).2 hm)]
                  rw [hl]
                  exact ih
          have := key (docOrder (tclapList [] args))
          rw [hl] at this
          exact this
        rcases hr2 with rfl | rfl
        · exact hr
        · rfl

end Dc
end Securefs
