import Verif.Spec.Walk
import Verif.Proofs.Names
/-!
# Walking a tree of backing files: lemmas
-/

namespace Securefs

open Spec

mutual
/-- The entries that are visited, and how the walk ends. -/
def visitsDir (dir : Bytes) : HNode → List (Bytes × Bytes × Nat) × Res Unit
  | .dir none l => visitsList dir l
  | .dir (some e) _ => ([], .error e)
  | .file => ([], .error (.vfs 20))
  | .link => ([], .error (.vfs 20))
  | .special => ([], .error (.vfs 20))
/-- The same for a list. -/
def visitsList (dir : Bytes) : HList → List (Bytes × Bytes × Nat) × Res Unit
  | .nil => ([], .ok ())
  | .broken e _ => ([], .error e)
  | .cons name told node rest =>
    if name = [46] ∨ name = [46, 46] then visitsList dir rest
    else if traverserMode told node = sIfDir then
      match (visitsDir (dir ++ 47 :: name) node).2 with
      | .error e => ((dir, name, traverserMode told node) :: (visitsDir (dir ++ 47 :: name) node).1, .error e)
      | .ok _ => ((dir, name, traverserMode told node) :: ((visitsDir (dir ++ 47 :: name) node).1 ++ (visitsList dir rest).1), (visitsList dir rest).2)
    else ((dir, name, traverserMode told node) :: (visitsList dir rest).1, (visitsList dir rest).2)
end

/-- A result that is followed by another. -/
def andThen {σ : Type} (a : σ × Res Unit) (r : Res Unit) : σ × Res Unit :=
  match a with
  | (s, .error e) => (s, .error e)
  | (s, .ok _) => (s, r)

theorem callEach_append {σ : Type} (cb : WalkCb σ) (L M : List (Bytes × Bytes × Nat)) (s : σ) :
    callEach cb (L ++ M) s = match callEach cb L s with
      | (s, .error e) => (s, .error e)
      | (s, .ok _) => callEach cb M s := by
  induction L generalizing s with
  | nil => rfl
  | cons c rest ih =>
    obtain ⟨d, n, m⟩ := c
    simp only [List.cons_append, callEach]
    rcases h : cb d n m s with ⟨s', e | u⟩
    · rfl
    · exact ih s'

mutual
theorem walkDir_eq {σ : Type} (cb : WalkCb σ) : ∀ (x : HNode) (dir : Bytes) (s : σ),
    walkDir cb dir x s = andThen (callEach cb (visitsDir dir x).1 s) (visitsDir dir x).2
  | .dir none l, dir, s => by rw [walkDir, visitsDir]; exact walkList_eq cb l dir s
  | .dir (some e) _, _, _ => rfl
  | .file, _, _ => rfl
  | .link, _, _ => rfl
  | .special, _, _ => rfl
theorem walkList_eq {σ : Type} (cb : WalkCb σ) : ∀ (l : HList) (dir : Bytes) (s : σ),
    walkList cb dir l s = andThen (callEach cb (visitsList dir l).1 s) (visitsList dir l).2
  | .nil, _, _ => rfl
  | .broken _ _, _, _ => rfl
  | .cons name told node rest, dir, s => by
    rw [walkList, visitsList]
    by_cases hd : name = [46] ∨ name = [46, 46]
    · rw [if_pos hd, if_pos hd]; exact walkList_eq cb rest dir s
    · rw [if_neg hd, if_neg hd]
      by_cases hm : traverserMode told node = sIfDir
      · rw [if_pos hm]
        have hx := fun s => walkDir_eq cb node (dir ++ 47 :: name) s
        have hr := fun s => walkList_eq cb rest dir s
        generalize visitsDir (dir ++ 47 :: name) node = V at hx
        generalize visitsList dir rest = W at hr
        obtain ⟨L, r⟩ := V
        obtain ⟨M, q⟩ := W
        rcases hc : cb dir name (traverserMode told node) s with ⟨s', e | u⟩
        · cases r <;> simp [callEach, hc, andThen]
        · dsimp only
          rw [if_pos hm, hx s']
          dsimp only at hx ⊢
          cases r with
          | error e =>
            simp only [callEach, hc]
            rcases callEach cb L s' with ⟨s2, e2 | u2⟩ <;> rfl
          | ok v =>
            simp only [callEach, hc, callEach_append]
            rcases callEach cb L s' with ⟨s2, e2 | u2⟩
            · rfl
            · exact hr s2
      · rw [if_neg hm]
        dsimp only [callEach]
        rcases hc : cb dir name (traverserMode told node) s with ⟨s', e | u⟩
        · rfl
        · dsimp only; rw [if_neg hm]; exact walkList_eq cb rest dir s'
end

theorem callEach_record (L : List (Bytes × Bytes × Nat)) (s : List (Bytes × Bytes × Nat)) : callEach recordCb L s = (s ++ L, .ok ()) := by
  induction L generalizing s with
  | nil => simp [callEach]
  | cons c rest ih =>
    obtain ⟨d, n, m⟩ := c
    show callEach recordCb rest (s ++ [(d, n, m)]) = _
    rw [ih]; simp

theorem record_eq (x : HNode) (dir : Bytes) : walkDir recordCb dir x [] = visitsDir dir x := by
  rw [walkDir_eq, callEach_record]; simp [andThen]

theorem pathText_snoc (dir : Bytes) (p : List Bytes) (n : Bytes) : pathText dir (p ++ [n]) = pathText dir p ++ 47 :: n := by
  simp [pathText]

theorem pathText_cons (dir : Bytes) (p : List Bytes) (n : Bytes) : pathText dir (n :: p) = pathText (dir ++ 47 :: n) p := by
  simp [pathText]

theorem below_cons {o o' : Option Err} {m : Bytes} {u : Bool} {y : HNode} {rest : HList} {p : List Bytes} {t : Bool} {x : HNode} :
    Below (.dir o (.cons m u y rest)) p t x ↔
      RealName m ∧ (p = [m] ∧ t = u ∧ x = y ∨ ∃ q, p = m :: q ∧ Below y q t x) ∨ Below (.dir o' rest) p t x := by
  constructor
  · intro h
    cases h with
    | last h hn =>
      cases h with
      | here => exact .inl ⟨hn, .inl ⟨rfl, rfl, rfl⟩⟩
      | there h => exact .inr (.last h hn)
    | step h hn hb =>
      cases h with
      | here => exact .inl ⟨hn, .inr ⟨_, rfl, hb⟩⟩
      | there h => exact .inr (.step h hn hb)
  · rintro (⟨hn, ⟨rfl, rfl, rfl⟩ | ⟨q, rfl, hb⟩⟩ | h)
    · exact .last .here hn
    · exact .step .here hn hb
    · cases h with
      | last h hn => exact .last (.there h) hn
      | step h hn hb => exact .step (.there h) hn hb

theorem below_any {o o' : Option Err} {l : HList} {p : List Bytes} {t : Bool} {x : HNode} (h : Below (.dir o l) p t x) : Below (.dir o' l) p t x := by
  cases h with
  | last h hn => exact .last h hn
  | step h hn hb => exact .step h hn hb

theorem below_ne {d : HNode} {p : List Bytes} {t : Bool} {x : HNode} (h : Below d p t x) : p ≠ [] := by
  cases h <;> simp

theorem not_below_nil {o : Option Err} {p : List Bytes} {t : Bool} {x : HNode} : ¬ Below (.dir o .nil) p t x := by
  intro h
  cases h with
  | last h _ => cases h
  | step h _ _ => cases h

theorem realName_iff {n : Bytes} : RealName n ↔ ¬ (n = [46] ∨ n = [46, 46]) := by
  unfold RealName; constructor
  · rintro ⟨h1, h2⟩ (h | h)
    · exact h1 h
    · exact h2 h
  · intro h; exact ⟨fun e => h (.inl e), fun e => h (.inr e)⟩

theorem traverserMode_dir {told : Bool} {node : HNode} : traverserMode told node = sIfDir ↔ told = true ∧ ∃ o l, node = .dir o l := by
  cases told with
  | false => simp [traverserMode, sIfDir]
  | true => cases node <;> simp [traverserMode, sIfDir, sIfReg, sIfLnk]

theorem traverserMode_told (node : HNode) : traverserMode true node = nodeType node := by
  cases node <;> rfl

mutual
/-- Everything visited is below. -/
theorem visitsDir_sound : ∀ (x : HNode) (dir : Bytes) (c : Bytes × Bytes × Nat), c ∈ (visitsDir dir x).1 →
    ∃ p t y, Below x (p ++ [c.2.1]) t y ∧ c.1 = pathText dir p ∧ c.2.2 = traverserMode t y
  | .dir none l, dir, c, h => visitsList_sound l dir c h
  | .dir (some e) _, _, _, h => nomatch h
  | .file, _, _, h => nomatch h
  | .link, _, _, h => nomatch h
  | .special, _, _, h => nomatch h
theorem visitsList_sound : ∀ (l : HList) (dir : Bytes) (c : Bytes × Bytes × Nat), c ∈ (visitsList dir l).1 →
    ∃ p t y, Below (.dir none l) (p ++ [c.2.1]) t y ∧ c.1 = pathText dir p ∧ c.2.2 = traverserMode t y
  | .nil, _, _, h => nomatch h
  | .broken _ _, _, _, h => nomatch h
  | .cons name told node rest, dir, c, h => by
    rw [visitsList] at h
    have hrest : c ∈ (visitsList dir rest).1 →
        ∃ p t y, Below (.dir none (.cons name told node rest)) (p ++ [c.2.1]) t y ∧ c.1 = pathText dir p ∧ c.2.2 = traverserMode t y := by
      intro h
      obtain ⟨p, t, y, h1, h2⟩ := visitsList_sound rest dir c h
      exact ⟨p, t, y, below_cons.mpr (.inr h1), h2⟩
    by_cases hd : name = [46] ∨ name = [46, 46]
    · rw [if_pos hd] at h; exact hrest h
    · rw [if_neg hd] at h
      have hfirst : c = (dir, name, traverserMode told node) →
          ∃ p t y, Below (.dir none (.cons name told node rest)) (p ++ [c.2.1]) t y ∧ c.1 = pathText dir p ∧ c.2.2 = traverserMode t y := by
        rintro rfl
        exact ⟨[], told, node, .last .here (realName_iff.mpr hd), by simp [pathText], rfl⟩
      have hsub : c ∈ (visitsDir (dir ++ 47 :: name) node).1 →
          ∃ p t y, Below (.dir none (.cons name told node rest)) (p ++ [c.2.1]) t y ∧ c.1 = pathText dir p ∧ c.2.2 = traverserMode t y := by
        intro h
        obtain ⟨p, t, y, h1, h2, h3⟩ := visitsDir_sound node _ c h
        exact ⟨name :: p, t, y, .step .here (realName_iff.mpr hd) h1, by rw [h2, pathText_cons], h3⟩
      by_cases hm : traverserMode told node = sIfDir
      · rw [if_pos hm] at h
        cases hr : (visitsDir (dir ++ 47 :: name) node).2 with
        | error e =>
          rw [hr] at h
          rcases List.mem_cons.mp h with h | h
          · exact hfirst h
          · exact hsub h
        | ok v =>
          rw [hr] at h
          rcases List.mem_cons.mp h with h | h
          · exact hfirst h
          · rcases List.mem_append.mp h with h | h
            · exact hsub h
            · exact hrest h
      · rw [if_neg hm] at h
        rcases List.mem_cons.mp h with h | h
        · exact hfirst h
        · exact hrest h
end

mutual
/-- If the walk succeeds and the host tells all types, then everything below is visited and every directory could be read. -/
theorem visitsDir_complete : ∀ (x : HNode) (dir : Bytes), (visitsDir dir x).2 = .ok () → AllTold x →
    AllOpen x ∧ ∀ p n t y, Below x (p ++ [n]) t y → (pathText dir p, n, nodeType y) ∈ (visitsDir dir x).1
  | .dir none l, dir, h, ht => by
    obtain ⟨h1, h2, h3⟩ := visitsList_complete l dir h ht
    exact ⟨⟨⟨l, rfl, h1⟩, h2⟩, h3⟩
  | .dir (some e) _, _, h, _ => nomatch h
  | .file, _, h, _ => nomatch h
  | .link, _, h, _ => nomatch h
  | .special, _, h, _ => nomatch h
theorem visitsList_complete : ∀ (l : HList) (dir : Bytes), (visitsList dir l).2 = .ok () → AllTold (.dir none l) →
    (∀ e rest, ¬ Open.Ends l e rest) ∧ (∀ p t x, Below (.dir none l) p t x → (∃ o l, x = .dir o l) → Open x) ∧
      ∀ p n t y, Below (.dir none l) (p ++ [n]) t y → (pathText dir p, n, nodeType y) ∈ (visitsList dir l).1
  | .nil, _, _, _ => ⟨fun _ _ h => h, fun _ _ _ h => absurd h not_below_nil, fun _ _ _ _ h => absurd h not_below_nil⟩
  | .broken _ _, _, h, _ => nomatch h
  | .cons name told node rest, dir, h, ht => by
    have htr : AllTold (.dir none rest) := fun p t x hb => ht p t x (below_cons.mpr (.inr hb))
    rw [visitsList] at h ⊢
    by_cases hd : name = [46] ∨ name = [46, 46]
    · rw [if_pos hd] at h ⊢
      obtain ⟨h1, h2, h3⟩ := visitsList_complete rest dir h htr
      have hsame : ∀ p t x, Below (.dir none (.cons name told node rest)) p t x → Below (.dir none rest) p t x := by
        intro p t x hb
        rcases (below_cons (o' := none)).mp hb with ⟨hn, _⟩ | hb
        · exact absurd hd (realName_iff.mp hn)
        · exact hb
      exact ⟨h1, fun p t x hb => h2 p t x (hsame _ _ _ hb), fun p n t y hb => h3 p n t y (hsame _ _ _ hb)⟩
    · rw [if_neg hd] at h ⊢
      have hn := realName_iff.mpr hd
      have htold : told = true := ht _ _ _ (.last .here hn)
      subst htold
      by_cases hm : traverserMode true node = sIfDir
      · rw [if_pos hm] at h ⊢
        have htn : AllTold node := fun p t x hb => ht _ _ _ (.step .here hn hb)
        cases hr : (visitsDir (dir ++ 47 :: name) node).2 with
        | error e => rw [hr] at h; cases h
        | ok v =>
          rw [hr] at h
          dsimp only at h ⊢
          obtain ⟨h1, h2, h3⟩ := visitsList_complete rest dir h htr
          obtain ⟨⟨g0, g1⟩, g2⟩ := visitsDir_complete node _ hr htn
          refine ⟨h1, ?_, ?_⟩
          · intro p t x hb hx
            rcases (below_cons (o' := none)).mp hb with ⟨_, ⟨_, _, rfl⟩ | ⟨q, _, hb⟩⟩ | hb
            · exact g0
            · exact g1 _ _ _ hb hx
            · exact h2 _ _ _ hb hx
          · intro p n t y hb
            rcases (below_cons (o' := none)).mp hb with ⟨_, ⟨hp, rfl, rfl⟩ | ⟨q, hp, hc⟩⟩ | hb
            · cases p with
              | nil => injection hp with hp; subst hp; rw [traverserMode_told]; simp [pathText]
              | cons a p => simp at hp
            · cases p with
              | nil => injection hp with _ hq; exact absurd hq.symm (below_ne hc)
              | cons a p =>
                injection hp with ha hq
                subst ha hq
                rw [pathText_cons]
                exact List.mem_cons_of_mem _ (List.mem_append_left _ (g2 _ _ _ _ hc))
            · exact List.mem_cons_of_mem _ (List.mem_append_right _ (h3 _ _ _ _ hb))
      · rw [if_neg hm] at h ⊢
        dsimp only at h ⊢
        obtain ⟨h1, h2, h3⟩ := visitsList_complete rest dir h htr
        have hnd : ¬ ∃ o l, node = .dir o l := fun hx => hm (traverserMode_dir.mpr ⟨rfl, hx⟩)
        have hnb : ∀ q t x, ¬ Below node q t x := by
          intro q t x hb
          cases hb with
          | last => exact hnd ⟨_, _, rfl⟩
          | step => exact hnd ⟨_, _, rfl⟩
        refine ⟨h1, ?_, ?_⟩
        · intro p t x hb hx
          rcases (below_cons (o' := none)).mp hb with ⟨_, ⟨_, _, rfl⟩ | ⟨q, _, hb⟩⟩ | hb
          · exact absurd hx hnd
          · exact absurd hb (hnb _ _ _)
          · exact h2 _ _ _ hb hx
        · intro p n t y hb
          rcases (below_cons (o' := none)).mp hb with ⟨_, ⟨hp, rfl, rfl⟩ | ⟨q, _, hb⟩⟩ | hb
          · cases p with
            | nil => injection hp with hp; subst hp; rw [traverserMode_told]; simp [pathText]
            | cons a p => simp at hp
          · exact absurd hb (hnb _ _ _)
          · exact List.mem_cons_of_mem _ (h3 _ _ _ _ hb)
end

mutual
/-- If every directory can be read, the walk comes to its end. -/
theorem visitsDir_ok : ∀ (x : HNode) (dir : Bytes), AllOpen x → (visitsDir dir x).2 = .ok ()
  | .dir none l, dir, ⟨⟨l', h, h1⟩, h2⟩ => by cases h; exact visitsList_ok l dir h1 h2
  | .dir (some e) _, _, ⟨⟨_, h, _⟩, _⟩ => nomatch h
  | .file, _, ⟨⟨_, h, _⟩, _⟩ => nomatch h
  | .link, _, ⟨⟨_, h, _⟩, _⟩ => nomatch h
  | .special, _, ⟨⟨_, h, _⟩, _⟩ => nomatch h
theorem visitsList_ok : ∀ (l : HList) (dir : Bytes), (∀ e rest, ¬ Open.Ends l e rest) →
    (∀ p t x, Below (.dir none l) p t x → (∃ o l, x = .dir o l) → Open x) → (visitsList dir l).2 = .ok ()
  | .nil, _, _, _ => rfl
  | .broken e rest, _, h, _ => absurd ⟨rfl, rfl⟩ (h e rest)
  | .cons name told node rest, dir, h, h2 => by
    have hrest := visitsList_ok rest dir h fun p t x hb => h2 p t x (below_cons.mpr (.inr hb))
    rw [visitsList]
    by_cases hd : name = [46] ∨ name = [46, 46]
    · rw [if_pos hd]; exact hrest
    · rw [if_neg hd]
      have hn := realName_iff.mpr hd
      by_cases hm : traverserMode told node = sIfDir
      · rw [if_pos hm]
        have ho : AllOpen node :=
          ⟨h2 _ _ _ (.last .here hn) (traverserMode_dir.mp hm).2, fun p t x hb => h2 _ _ _ (.step .here hn hb)⟩
        rw [visitsDir_ok node (dir ++ 47 :: name) ho]
        exact hrest
      · rw [if_neg hm]; exact hrest
end

theorem mem_entryNamesOf {l : HList} {n : Bytes} {t : Bool} {x : HNode} (h : Lists l n t x) (hn : RealName n) : n ∈ entryNamesOf l := by
  induction h with
  | here => rw [entryNamesOf, if_neg (realName_iff.mp hn)]; exact List.mem_cons_self
  | there _ ih => rw [entryNamesOf]; split
                  · exact ih hn
                  · exact List.mem_cons_of_mem _ (ih hn)
  | behind _ ih => exact ih hn

theorem pathText_inj {dir : Bytes} {p q : List Bytes} (hp : ∀ n ∈ p, (47 : UInt8) ∉ n) (hq : ∀ n ∈ q, (47 : UInt8) ∉ n)
    (h : pathText dir p = pathText dir q) : p = q := by
  have h := List.append_cancel_left h
  have key : ∀ p q : List Bytes, (∀ n ∈ p, (47 : UInt8) ∉ n) → (∀ n ∈ q, (47 : UInt8) ∉ n) →
      p.flatMap ((47 : UInt8) :: ·) = q.flatMap (47 :: ·) → p = q := by
    intro p
    induction p with
    | nil =>
      intro q _ _ h
      cases q with
      | nil => rfl
      | cons b q => cases h
    | cons a p ih =>
      intro q hp hq h
      cases q with
      | nil => cases h
      | cons b q =>
        simp only [List.flatMap_cons, List.cons_append] at h
        injection h with _ h
        have hab : a = b ∧ p.flatMap ((47 : UInt8) :: ·) = q.flatMap (47 :: ·) := by
          have ha := hp a List.mem_cons_self
          have hb := hq b List.mem_cons_self
          have : ∀ (a b : Bytes) (x y : Bytes), (47 : UInt8) ∉ a → (47 : UInt8) ∉ b → (x = [] ∨ ∃ x', x = 47 :: x') → (y = [] ∨ ∃ y', y = 47 :: y') →
              a ++ x = b ++ y → a = b ∧ x = y := by
            intro a
            induction a with
            | nil =>
              intro b x y _ hb hx _ h
              cases b with
              | nil => exact ⟨rfl, h⟩
              | cons c b =>
                rcases hx with rfl | ⟨x', rfl⟩
                · cases h
                · injection h with h _; subst h; simp at hb
            | cons c a iha =>
              intro b x y ha hb hx hy h
              cases b with
              | nil =>
                rcases hy with rfl | ⟨y', rfl⟩
                · cases h
                · injection h with h _; subst h; simp at ha
              | cons d b =>
                injection h with hcd h
                obtain ⟨h1, h2⟩ := iha b x y (fun m => ha (List.mem_cons_of_mem _ m)) (fun m => hb (List.mem_cons_of_mem _ m)) hx hy h
                exact ⟨by rw [hcd, h1], h2⟩
          have tail : ∀ l : List Bytes, l.flatMap ((47 : UInt8) :: ·) = [] ∨ ∃ x', l.flatMap ((47 : UInt8) :: ·) = 47 :: x' := by
            intro l
            cases l with
            | nil => exact .inl rfl
            | cons a l => exact .inr ⟨_, rfl⟩
          exact this a b _ _ ha hb (tail p) (tail q) h
        rw [hab.1, ih q (fun n hn => hp n (List.mem_cons_of_mem _ hn)) (fun n hn => hq n (List.mem_cons_of_mem _ hn)) hab.2]
  exact key p q hp hq h

theorem proper_slash {d : HNode} (h : Proper d) {p : List Bytes} {t : Bool} {x : HNode} (hb : Below d p t x) : ∀ n ∈ p, (47 : UInt8) ∉ n := by
  induction hb with
  | last hl hn =>
    intro n hm
    rw [List.mem_singleton.mp hm]
    exact (h.1 _ _ rfl).2 _ (mem_entryNamesOf hl hn)
  | step hl hn hb ih =>
    intro n hm
    rcases List.mem_cons.mp hm with rfl | hm
    · exact (h.1 _ _ rfl).2 _ (mem_entryNamesOf hl hn)
    · exact ih ⟨h.2 _ _ _ (.last hl hn), fun p t x hb => h.2 _ _ _ (.step hl hn hb)⟩ n hm

mutual
/-- Nothing is visited twice. -/
theorem visitsDir_nodup : ∀ (x : HNode) (dir : Bytes), Proper x → ((visitsDir dir x).1.map fun c => (c.1, c.2.1)).Nodup
  | .dir none l, dir, h => by
    rw [visitsDir]
    exact visitsList_nodup l dir h
  | .dir (some e) _, _, _ => List.nodup_nil
  | .file, _, _ => List.nodup_nil
  | .link, _, _ => List.nodup_nil
  | .special, _, _ => List.nodup_nil
theorem visitsList_nodup : ∀ (l : HList) (dir : Bytes), Proper (.dir none l) → ((visitsList dir l).1.map fun c => (c.1, c.2.1)).Nodup
  | .nil, _, _ => List.nodup_nil
  | .broken _ _, _, _ => List.nodup_nil
  | .cons name told node rest, dir, h => by
    have hnames := (h.1 _ _ rfl)
    rw [entryNamesOf] at hnames
    have hbelow : ∀ p t x, Below (.dir none rest) p t x → Below (.dir none (.cons name told node rest)) p t x := fun _ _ _ hb => below_cons.mpr (.inr hb)
    rw [visitsList]
    by_cases hd : name = [46] ∨ name = [46, 46]
    · rw [if_pos hd] at hnames ⊢
      refine visitsList_nodup rest dir ⟨fun o l hl => ?_, fun p t x hb => h.2 _ _ _ (hbelow _ _ _ hb)⟩
      cases hl; exact hnames
    · rw [if_neg hd] at hnames ⊢
      obtain ⟨hnd, hns⟩ := hnames
      rw [List.nodup_cons] at hnd
      have hn := realName_iff.mpr hd
      have hPr : Proper (.dir none rest) :=
        ⟨fun o l hl => by cases hl; exact ⟨hnd.2, fun n hn => hns n (List.mem_cons_of_mem _ hn)⟩, fun p t x hb => h.2 _ _ _ (hbelow _ _ _ hb)⟩
      have hPn : Proper node := ⟨h.2 _ _ _ (.last .here hn), fun p t x hb => h.2 _ _ _ (.step .here hn hb)⟩
      have hr := visitsList_nodup rest dir hPr
      have hsub := visitsDir_nodup node (dir ++ 47 :: name) hPn
      -- where the others come from
      have frest : ∀ c ∈ (visitsList dir rest).1, ∃ p, c.1 ++ 47 :: c.2.1 = pathText dir p ∧ (∀ n ∈ p, (47 : UInt8) ∉ n) ∧
          ∃ a q, p = a :: q ∧ a ≠ name := by
        intro c hc
        obtain ⟨p, t, y, h1, h2, _⟩ := visitsList_sound rest dir c hc
        refine ⟨p ++ [c.2.1], by rw [h2, pathText_snoc], proper_slash hPr h1, ?_⟩
        cases h1e : p ++ [c.2.1] with
        | nil => simp at h1e
        | cons a q =>
          refine ⟨a, q, rfl, ?_⟩
          rw [h1e] at h1
          rintro rfl
          cases h1 with
          | last hl hn => exact hnd.1 (mem_entryNamesOf hl hn)
          | step hl hn _ => exact hnd.1 (mem_entryNamesOf hl hn)
      have fsub : ∀ c ∈ (visitsDir (dir ++ 47 :: name) node).1, ∃ p, c.1 ++ 47 :: c.2.1 = pathText dir p ∧ (∀ n ∈ p, (47 : UInt8) ∉ n) ∧
          ∃ b q, p = name :: b :: q := by
        intro c hc
        obtain ⟨p, t, y, h1, h2, _⟩ := visitsDir_sound node _ c hc
        refine ⟨name :: (p ++ [c.2.1]), by rw [h2, pathText_cons, pathText_snoc], ?_, ?_⟩
        · intro n hn
          rcases List.mem_cons.mp hn with rfl | hn
          · exact hns _ List.mem_cons_self
          · exact proper_slash hPn h1 n hn
        · cases h1e : p ++ [c.2.1] with
          | nil => simp at h1e
          | cons a q => exact ⟨a, q, rfl⟩
      have hself : dir ++ 47 :: name = pathText dir [name] := by simp [pathText]
      have hnslash : ∀ n ∈ [name], (47 : UInt8) ∉ n := fun n hn => hns n (by rw [List.mem_singleton.mp hn]; exact List.mem_cons_self)
      have d1 : ∀ c ∈ (visitsList dir rest).1, (c.1, c.2.1) ≠ (dir, name) := by
        intro c hc he
        obtain ⟨p, h1, h2, a, q, h3, h4⟩ := frest c hc
        injection he with e1 e2
        rw [e1, e2, hself] at h1
        have := pathText_inj hnslash h2 h1
        rw [h3] at this
        injection this with this _
        exact h4 this.symm
      have d2 : ∀ c ∈ (visitsDir (dir ++ 47 :: name) node).1, (c.1, c.2.1) ≠ (dir, name) := by
        intro c hc he
        obtain ⟨p, h1, h2, b, q, h3⟩ := fsub c hc
        injection he with e1 e2
        rw [e1, e2, hself] at h1
        have := pathText_inj hnslash h2 h1
        rw [h3] at this
        simp at this
      have d3 : ∀ c ∈ (visitsDir (dir ++ 47 :: name) node).1, ∀ c' ∈ (visitsList dir rest).1, (c.1, c.2.1) ≠ (c'.1, c'.2.1) := by
        intro c hc c' hc' he
        obtain ⟨p, h1, h2, b, q, h3⟩ := fsub c hc
        obtain ⟨p', h1', h2', a', q', h3', h4'⟩ := frest c' hc'
        injection he with e1 e2
        rw [e1, e2, h1'] at h1
        have := pathText_inj h2' h2 h1
        rw [h3, h3'] at this
        injection this with this _
        exact h4' this
      have m1 : (dir, name) ∉ (visitsList dir rest).1.map fun c => (c.1, c.2.1) := by
        intro hm
        obtain ⟨c, hc, he⟩ := List.mem_map.mp hm
        exact d1 c hc he
      have m2 : (dir, name) ∉ (visitsDir (dir ++ 47 :: name) node).1.map fun c => (c.1, c.2.1) := by
        intro hm
        obtain ⟨c, hc, he⟩ := List.mem_map.mp hm
        exact d2 c hc he
      by_cases hm : traverserMode told node = sIfDir
      · rw [if_pos hm]
        cases (visitsDir (dir ++ 47 :: name) node).2 with
        | error e => exact List.nodup_cons.mpr ⟨m2, hsub⟩
        | ok v =>
          dsimp only
          rw [List.map_cons, List.map_append]
          refine List.nodup_cons.mpr ⟨fun hmem => ?_, ?_⟩
          · rcases List.mem_append.mp hmem with h | h
            · exact m2 h
            · exact m1 h
          · refine List.nodup_append.mpr ⟨hsub, hr, ?_⟩
            intro a ha b hb
            obtain ⟨c, hc, rfl⟩ := List.mem_map.mp ha
            obtain ⟨c', hc', rfl⟩ := List.mem_map.mp hb
            exact d3 c hc c' hc'
      · rw [if_neg hm]
        exact List.nodup_cons.mpr ⟨m1, hr⟩
end

theorem sCollect_entries (fs : SFs) (fuel : Nat) (path : List Bytes)
    (ih : ∀ d path s, walkDir collectCb (pathText [46] path) (sTree true fs fuel d) s = (s ++ (sCollect fs fuel d path).map (pathText [46]), .ok ()))
    (l : List (Bytes × SNode)) (hl : ∀ e ∈ l, RealName e.1) (s : List Bytes) :
    walkList collectCb (pathText [46] path) (sEntryList true (sTree true fs fuel) l) s =
      (s ++ (l.flatMap fun (name, node) => (if name = tableFileName then [path] else []) ++
        match node with
        | .dir e => sCollect fs fuel e (path ++ [name])
        | _ => []).map (pathText [46]), .ok ()) := by
  induction l generalizing s with
  | nil => simp [sEntryList, walkList]
  | cons e rest ihl =>
    obtain ⟨n, node⟩ := e
    have hn := realName_iff.mp (hl _ List.mem_cons_self)
    have ihl := ihl fun e he => hl e (List.mem_cons_of_mem _ he)
    have hfirst : ∀ s : List Bytes, (if n = tableFileName then s ++ [pathText [46] path] else s) =
        s ++ (if n = tableFileName then [path] else []).map (pathText [46]) := by
      intro s; split <;> simp
    cases node with
    | dir x =>
      have hmode : traverserMode true (sTree true fs fuel x) = sIfDir := by cases fuel <;> rfl
      rw [sEntryList, walkList, if_neg hn]
      dsimp only [collectCb]
      rw [if_pos hmode, ← pathText_snoc, ih]
      dsimp only
      rw [ihl, hfirst]
      simp
    | file i =>
      rw [sEntryList, walkList, if_neg hn]
      dsimp only [collectCb]
      rw [if_neg (by decide), ihl, hfirst]
      simp
    | db =>
      rw [sEntryList, walkList, if_neg hn]
      dsimp only [collectCb]
      rw [if_neg (by decide), ihl, hfirst]
      simp

theorem walk_sTree (fs : SFs) (h : ∀ d, ∀ e ∈ (fs d).entries, RealName e.1) (fuel : Nat) : ∀ d path s,
    walkDir collectCb (pathText [46] path) (sTree true fs fuel d) s = (s ++ (sCollect fs fuel d path).map (pathText [46]), .ok ()) := by
  induction fuel with
  | zero => intro d path s; simp [sTree, walkDir, walkList, sCollect]
  | succ fuel ih =>
    intro d path s
    rw [sTree, walkDir, sCollect]
    exact sCollect_entries fs fuel path ih _ (h d) s

theorem sCollect_slash (fs : SFs) (h : ∀ d, ∀ e ∈ (fs d).entries, (47 : UInt8) ∉ e.1) (fuel : Nat) : ∀ d path, (∀ n ∈ path, (47 : UInt8) ∉ n) →
    ∀ p ∈ sCollect fs fuel d path, ∀ n ∈ p, (47 : UInt8) ∉ n := by
  induction fuel with
  | zero => intro d path _ p hp; cases hp
  | succ fuel ih =>
    intro d path hpath p hp
    rw [sCollect] at hp
    obtain ⟨⟨n, node⟩, he, hp⟩ := List.mem_flatMap.mp hp
    rcases List.mem_append.mp hp with hp | hp
    · split at hp
      · rw [List.mem_singleton.mp hp]; exact hpath
      · cases hp
    · cases node with
      | dir x =>
        refine ih x (path ++ [n]) (fun m hm => ?_) p hp
        rcases List.mem_append.mp hm with hm | hm
        · exact hpath m hm
        · rw [List.mem_singleton.mp hm]; exact h d _ he
      | file i => cases hp
      | db => cases hp

theorem split_pathText (p : List Bytes) (hp : ∀ n ∈ p, (47 : UInt8) ∉ n) : (splitSlash [] (pathText [46] p)).tail = p := by
  have : PiecesOf (pathText [46] p) ([46] :: p) := by
    refine ⟨by simp, ?_, ?_⟩
    · intro n hn
      rcases List.mem_cons.mp hn with rfl | hn
      · decide
      · exact hp n hn
    · have key : ∀ (l : List Bytes) (a : Bytes), join (a :: l) = a ++ l.flatMap (47 :: ·) := by
        intro l
        induction l with
        | nil => intro a; simp [join]
        | cons b l ih => intro a; rw [join, ih]; simp
      rw [key]; rfl
  rw [pieces_eq this]; rfl

/-- The longest name of some entries without links. -/
theorem callEach_migrate (L : List (Bytes × Bytes × Nat)) (s : Nat) :
    callEach migrateCb L s = match migrateScan s (L.map fun c => (c.2.1, decide (c.2.2 = sIfLnk))) with
      | .ok m => (m, .ok ())
      | .error e => ((callEach migrateCb L s).1, .error e) := by
  induction L generalizing s with
  | nil => rfl
  | cons c rest ih =>
    obtain ⟨d, n, m⟩ := c
    simp only [List.map_cons, migrateScan, callEach, migrateCb]
    by_cases hm : m = sIfLnk
    · simp [hm]
    · simp only [hm, decide_false, if_false, Bool.false_eq_true]
      exact ih _

theorem callEach_collect (L : List (Bytes × Bytes × Nat)) (s : List Bytes) :
    callEach collectCb L s = (s ++ (L.filter fun c => c.2.1 = tableFileName).map (·.1), .ok ()) := by
  induction L generalizing s with
  | nil => simp [callEach]
  | cons c rest ih =>
    obtain ⟨d, n, m⟩ := c
    simp only [callEach, collectCb]
    rw [ih]
    by_cases hn : n = tableFileName <;> simp [hn]

end Securefs
