import Verif.Spec.FileStore
import Verif.Proofs.FilePaths
import Verif.Proofs.FileTable
import Verif.Props.Encoding
/-!
# The store of backing files: layouts, the host, and the invariant
-/

namespace Securefs

/-! ## Layouts -/

/-- The value of `storePaths`, which never fails. -/
def layoutPaths (legacy : Bool) (id : Bytes) : StorePaths :=
  if legacy then
    let a := hexDigits (id.take 1)
    let b := hexDigits ((id.drop 1).take 5)
    let c := hexDigits (id.drop 6)
    ⟨[[a], [a, b]], [a, b, c], [a, b, c ++ metaSuffix], [[a, b], [a, b]]⟩
  else
    let a := hexDigits (id.take 1)
    let b := hexDigits (id.drop 1)
    ⟨[[a]], [a, b], [a, b ++ metaSuffix], [[a]]⟩

theorem storePaths_eq (legacy : Bool) (id : Bytes) : storePaths legacy id = .ok (layoutPaths legacy id) := by
  cases legacy <;> simp [storePaths, layoutPaths, hexify_eq, bind, Except.bind]

theorem hexDigits_ne_meta (x y : Bytes) : hexDigits x ≠ y ++ metaSuffix := by
  intro h
  have h1 : (46 : UInt8) ∈ y ++ metaSuffix := by rw [List.mem_append]; right; decide
  rw [← h] at h1
  exact digit_ne_dot (hexDigits_digit _ _ h1) rfl

theorem take1_inj {x y : Bytes} (h : x.take 1 = y.take 1) (h2 : x.drop 1 = y.drop 1) : x = y := by
  rw [← List.take_append_drop 1 x, ← List.take_append_drop 1 y, h, h2]

theorem take6_inj {x y : Bytes} (h : x.take 1 = y.take 1) (h2 : (x.drop 1).take 5 = (y.drop 1).take 5) (h3 : x.drop 6 = y.drop 6) : x = y := by
  refine take1_inj h ?_
  rw [← List.take_append_drop 5 (x.drop 1), ← List.take_append_drop 5 (y.drop 1), h2, List.drop_drop, List.drop_drop]
  rw [show 1 + 5 = 6 from rfl, h3]

/-- What the proofs use of a layout. -/
structure StoreLayout (P : Bytes → StorePaths) : Prop where
  fileInj : ∀ i j, (P i).file = (P j).file → i = j
  metaInj : ∀ i j, (P i).metaFile = (P j).metaFile → i = j
  fileMeta : ∀ i j, (P i).file ≠ (P j).metaFile
  dirFile : ∀ i j, ∀ d ∈ (P i).dirs, d ≠ (P j).file ∧ d ≠ (P j).metaFile
  top : ∀ i p, p = (P i).file ∨ p = (P i).metaFile ∨ p ∈ (P i).dirs → p.head? = some (hexDigits (i.take 1))
  fileNe : ∀ i, (P i).file ≠ [] ∧ (P i).metaFile ≠ []
  fileDir : ∀ i, (P i).file.dropLast ∈ (P i).dirs
  metaDir : ∀ i, (P i).metaFile.dropLast = (P i).file.dropLast
  chain : ∀ i l1 d l2, (P i).dirs = l1 ++ d :: l2 → d ≠ [] ∧ (d.dropLast = [] ∨ d.dropLast ∈ l1)
  removedNe : ∀ i, (P i).removed ≠ []
  removedSub : ∀ i, ∀ d ∈ (P i).removed, d = (P i).file.dropLast
  lastDir : ∀ i j, ∀ d ∈ (P i).dirs, d ≠ (P i).file.dropLast → d ≠ (P j).file.dropLast
  below : ∀ i j, ∀ d ∈ (P i).dirs, d.dropLast ≠ (P j).file.dropLast

theorem layoutPaths_layout (legacy : Bool) : StoreLayout (layoutPaths legacy) := by
  cases legacy with
  | false =>
    constructor
    · intro i j h
      simp only [layoutPaths, Bool.false_eq_true, if_false, List.cons.injEq, and_true] at h
      exact take1_inj (hexDigits_inj h.1) (hexDigits_inj h.2)
    · intro i j h
      simp only [layoutPaths, Bool.false_eq_true, if_false, List.cons.injEq, and_true] at h
      exact take1_inj (hexDigits_inj h.1) (hexDigits_inj (List.append_cancel_right h.2))
    · intro i j h
      simp only [layoutPaths, Bool.false_eq_true, if_false, List.cons.injEq, and_true] at h
      exact hexDigits_ne_meta _ _ h.2
    · intro i j d hd
      simp only [layoutPaths, Bool.false_eq_true, if_false, List.mem_singleton] at hd ⊢
      subst hd
      simp
    · intro i p h
      simp only [layoutPaths, Bool.false_eq_true, if_false, List.mem_singleton] at h
      rcases h with rfl | rfl | rfl <;> rfl
    · intro i; simp [layoutPaths]
    · intro i; simp [layoutPaths]
    · intro i; simp [layoutPaths]
    · intro i l1 d l2 h
      simp only [layoutPaths, Bool.false_eq_true, if_false] at h
      cases l1 with
      | nil => simp only [List.nil_append, List.cons.injEq] at h; obtain ⟨rfl, _⟩ := h; simp
      | cons x l1 => simp at h
    · intro i; simp [layoutPaths]
    · intro i d hd; simpa [layoutPaths] using hd
    · intro i j d hd hn
      simp only [layoutPaths, Bool.false_eq_true, if_false, List.mem_singleton] at hd hn ⊢
      subst hd; exact absurd rfl hn
    · intro i j d hd
      simp only [layoutPaths, Bool.false_eq_true, if_false, List.mem_singleton] at hd ⊢
      subst hd; simp
  | true =>
    constructor
    · intro i j h
      simp only [layoutPaths, if_true, List.cons.injEq, and_true] at h
      exact take6_inj (hexDigits_inj h.1) (hexDigits_inj h.2.1) (hexDigits_inj h.2.2)
    · intro i j h
      simp only [layoutPaths, if_true, List.cons.injEq, and_true] at h
      exact take6_inj (hexDigits_inj h.1) (hexDigits_inj h.2.1) (hexDigits_inj (List.append_cancel_right h.2.2))
    · intro i j h
      simp only [layoutPaths, if_true, List.cons.injEq, and_true] at h
      exact hexDigits_ne_meta _ _ h.2.2
    · intro i j d hd
      simp only [layoutPaths, if_true, List.mem_cons, List.not_mem_nil, or_false] at hd ⊢
      rcases hd with rfl | rfl <;> simp
    · intro i p h
      simp only [layoutPaths, if_true, List.mem_cons, List.not_mem_nil, or_false] at h
      rcases h with rfl | rfl | rfl | rfl <;> rfl
    · intro i; simp [layoutPaths]
    · intro i; simp [layoutPaths]
    · intro i; simp [layoutPaths]
    · intro i l1 d l2 h
      simp only [layoutPaths, if_true] at h
      cases l1 with
      | nil => simp only [List.nil_append, List.cons.injEq] at h; obtain ⟨rfl, _⟩ := h; simp
      | cons x l1 =>
        cases l1 with
        | nil =>
          simp only [List.cons_append, List.nil_append, List.cons.injEq] at h
          obtain ⟨rfl, rfl, _⟩ := h; simp
        | cons y l1 => simp at h
    · intro i; simp [layoutPaths]
    · intro i d hd; simpa [layoutPaths] using hd
    · intro i j d hd hn
      simp only [layoutPaths, if_true, List.mem_cons, List.not_mem_nil, or_false] at hd hn ⊢
      rcases hd with rfl | rfl
      · simp
      · exact absurd rfl hn
    · intro i j d hd
      simp only [layoutPaths, if_true, List.mem_cons, List.not_mem_nil, or_false] at hd ⊢
      rcases hd with rfl | rfl <;> simp

/-- Files in the same directory of the host are in the same shard. -/
theorem shard_of_top {i j : Bytes} (hi : i.length = 32) (hj : j.length = 32) (h : hexDigits (i.take 1) = hexDigits (j.take 1))
    {s t : Nat} (hs : FileTab.shardOf i = .ok s) (ht : FileTab.shardOf j = .ok t) : s = t := by
  have h1 := hexDigits_inj h
  have key : ∀ {x : Bytes} {n : Nat}, x.length = 32 → FileTab.shardOf x = .ok n → ∃ b rest, x = b :: rest ∧ n = 31 - b.toNat % 32 := by
    intro x n hx hn
    cases x with
    | nil => simp at hx
    | cons b rest =>
      refine ⟨b, rest, rfl, ?_⟩
      unfold FileTab.shardOf at hn
      split at hn
      · cases hn
      · rw [Props.C18_inode_value _ (by omega)] at hn
        simp only [bind, Except.bind, Except.ok.injEq] at hn
        rw [← hn, List.take_succ_cons]
        simp only [Spec.leValue, kNumShards]
        have hb := b.toNat_lt
        have hlt : Spec.leValue (List.take 7 rest) < 256 ^ 7 := by
          have : ∀ l : Bytes, Spec.leValue l < 256 ^ l.length := by
            intro l
            induction l with
            | nil => simp [Spec.leValue]
            | cons x l ih =>
              simp only [Spec.leValue, List.length_cons, Nat.pow_succ]
              have := x.toNat_lt
              omega
          have h7 := this (List.take 7 rest)
          have : (List.take 7 rest).length = 7 := by simp only [List.length_cons] at hx; simp; omega
          rwa [this] at h7
        omega
  obtain ⟨b, r, rfl, rfl⟩ := key hi hs
  obtain ⟨b', r', rfl, rfl⟩ := key hj ht
  simp only [List.take_succ_cons, List.take_zero, List.cons.injEq, and_true] at h1
  rw [h1]

/-! ## The host -/

namespace HostDir

/-- Every entry is in a directory. -/
def Closed (h : HostDir) : Prop := ∀ p e, h.look p = some e → p ≠ [] ∧ (p.dropLast = [] ∨ h.look p.dropLast = some .dir)

theorem walkDirs_ok {h : HostDir} : ∀ (rest done : List Bytes), h.walkDirs done rest = .ok () ↔
    ∀ a b, rest = a ++ b → a ≠ [] → h.look (done ++ a) = some .dir := by
  intro rest
  induction rest with
  | nil => intro done; simp [walkDirs]
  | cons c cs ih =>
    intro done
    unfold walkDirs
    constructor
    · intro h a b hab hne
      cases a with
      | nil => exact absurd rfl hne
      | cons x a =>
        simp only [List.cons_append, List.cons.injEq] at hab
        obtain ⟨rfl, hab⟩ := hab
        split at h
        · cases h
        · cases h
        · rename_i hd
          cases a with
          | nil => exact hd
          | cons y a =>
            have := (ih _).1 h (y :: a) b hab (by simp)
            simpa using this
    · intro h
      have h1 := h [c] cs rfl (by simp)
      rw [h1]
      exact (ih _).2 fun a b hab hne => by
        have := h (c :: a) b (by rw [hab]; rfl) (by simp)
        simpa using this

theorem walkDirs_err {h : HostDir} : ∀ (rest done : List Bytes), (∀ a b, rest = a ++ b → a ≠ [] → ∀ n, h.look (done ++ a) ≠ some (.file n)) →
    h.walkDirs done rest = .ok () ∨ h.walkDirs done rest = .error 2 := by
  intro rest
  induction rest with
  | nil => intro done _; exact Or.inl rfl
  | cons c cs ih =>
    intro done hn
    unfold walkDirs
    split
    · exact Or.inr rfl
    · rename_i n hd; exact absurd hd (hn [c] cs rfl (by simp) n)
    · exact ih _ fun a b hab hne n => by
        have := hn (c :: a) b (by rw [hab]; rfl) (by simp) n
        simpa using this

theorem Closed.walk {h : HostDir} (hc : h.Closed) : ∀ (n : Nat) (p : List Bytes), p.length ≤ n → (p = [] ∨ h.look p = some .dir) → h.walkDirs [] p = .ok () := by
  intro n
  suffices H : ∀ p : List Bytes, p.length ≤ n → (p = [] ∨ h.look p = some .dir) → ∀ a b, p = a ++ b → a ≠ [] → h.look a = some .dir by
    intro p hp hd
    exact (walkDirs_ok p []).2 fun a b hab hne => by simpa using H p hp hd a b hab hne
  induction n with
  | zero =>
    intro p hp _ a b hab hne
    have : p = [] := List.length_eq_zero_iff.mp (by omega)
    rw [this] at hab
    exact absurd (List.append_eq_nil_iff.mp hab.symm).1 hne
  | succ n ih =>
    intro p hp hd a b hab hne
    rcases hd with rfl | hd
    · exact absurd (List.append_eq_nil_iff.mp hab.symm).1 hne
    · by_cases hb : b = []
      · subst hb; rw [List.append_nil] at hab; rw [← hab]; exact hd
      · obtain ⟨h1, h2⟩ := hc p _ hd
        have hlen : 0 < p.length := List.length_pos_of_ne_nil h1
        refine ih p.dropLast (by rw [List.length_dropLast]; omega) h2 a b.dropLast ?_ hne
        rw [hab, List.dropLast_append_of_ne_nil hb]

theorem Closed.walk_of {h : HostDir} (hc : h.Closed) {p : List Bytes} (hd : p = [] ∨ h.look p = some .dir) : h.walkDirs [] p = .ok () :=
  hc.walk _ p (Nat.le_refl _) hd

theorem walk_parent {h : HostDir} {p : List Bytes} (hw : h.walkDirs [] p = .ok ()) : p = [] ∨ h.look p = some .dir := by
  by_cases hp : p = []
  · exact Or.inl hp
  · exact Or.inr (by simpa using (walkDirs_ok p []).1 hw p [] (by simp) hp)

theorem look_cons (h : HostDir) (p q : List Bytes) (e : HostEnt) (n : Nat) :
    HostDir.look ⟨(p, e) :: h.ents, n⟩ q = if q = p then some e else h.look q := by
  unfold look
  by_cases hq : q = p
  · subst hq; rw [if_pos rfl, List.lookup_cons_self]
  · rw [if_neg hq, List.lookup_cons]
    have : (q == p) = false := by simpa using hq
    rw [this]

theorem look_filter (h : HostDir) (p q : List Bytes) (n : Nat) :
    HostDir.look ⟨h.ents.filter fun e => e.1 != p, n⟩ q = if q = p then none else h.look q := by
  unfold look
  induction h.ents with
  | nil => simp
  | cons e es ih =>
    rw [List.filter_cons]
    by_cases he : e.1 = p
    · rw [if_neg (by simp [he])]
      rw [ih]
      by_cases hq : q = p
      · simp [hq]
      · rw [if_neg hq, if_neg hq]
        obtain ⟨k, v⟩ := e
        rw [List.lookup_cons]
        have : (q == k) = false := by simp only [beq_eq_false_iff_ne, ne_eq]; intro hk; exact hq (hk.trans he)
        rw [this]
    · rw [if_pos (by simpa using he)]
      obtain ⟨k, v⟩ := e
      rw [List.lookup_cons, List.lookup_cons]
      by_cases hqk : q = k
      · have : (q == k) = true := by simpa using hqk
        rw [this]
        simp only
        rw [if_neg (by rw [hqk]; exact he)]
      · have : (q == k) = false := by simpa using hqk
        rw [this]
        exact ih

theorem look_mem {h : HostDir} {p : List Bytes} {e : HostEnt} (hl : h.look p = some e) : (p, e) ∈ h.ents := by
  unfold look at hl
  obtain ⟨l1, l2, h1, _⟩ := List.lookup_eq_some_iff.mp hl
  rw [h1]; simp

/-- A directory that is not empty, as far as names can be looked up, cannot be removed. -/
theorem not_empty {h : HostDir} {p q : List Bytes} {e : HostEnt} (hq : h.look q = some e) (hne : q ≠ []) (hp : q.dropLast = p) :
    h.isEmptyDir p = false := by
  unfold isEmptyDir
  rw [List.all_eq_false]
  refine ⟨_, look_mem hq, ?_⟩
  cases q with
  | nil => exact absurd rfl hne
  | cons a q => simp [hp]

theorem empty_children {h : HostDir} {p : List Bytes} (he : h.isEmptyDir p = true) {q : List Bytes} {e : HostEnt} (hq : h.look q = some e)
    (hne : q ≠ []) : q.dropLast ≠ p := by
  intro hp
  rw [not_empty hq hne hp] at he
  cases he

theorem child_of_not_empty {h : HostDir} {p : List Bytes} (he : h.isEmptyDir p = false) : ∃ q e, h.look q = some e ∧ q ≠ [] ∧ q.dropLast = p := by
  unfold isEmptyDir at he
  rw [List.all_eq_false] at he
  obtain ⟨⟨q, e⟩, hm, hx⟩ := he
  have hne : q ≠ [] := by rintro rfl; simp at hx
  have : ∃ e', h.look q = some e' := by
    unfold look
    cases hl : h.ents.lookup q with
    | some e' => exact ⟨e', rfl⟩
    | none =>
      rw [List.lookup_eq_none_iff] at hl
      have := hl _ hm
      simp at this
  obtain ⟨e', he'⟩ := this
  refine ⟨q, e', he', hne, ?_⟩
  simp only [Bool.or_eq_true, not_or, bne_iff_ne, ne_eq, Decidable.not_not] at hx
  exact hx.2

/-- A call changes what its path stands for and nothing else. -/
theorem call_frame {h h' : HostDir} {c : HostCall} {r : Option Nat} (hc : h.call c = .ok (h', r)) {q : List Bytes} (hq : q ≠ c.path) :
    h'.look q = h.look q := by
  unfold call at hc
  split at hc
  · cases hc
  · cases c <;> simp only [HostCall.path] at hq hc <;> split at hc <;> (try cases hc)
    · exact (look_cons h _ q .dir h.next).trans (if_neg hq)
    · exact (look_cons h _ q _ (h.next + 1)).trans (if_neg hq)
    · rfl
    · exact (look_filter h _ q h.next).trans (if_neg hq)
    · split at hc
      · cases hc
        exact (look_filter h _ q h.next).trans (if_neg hq)
      · cases hc

theorem call_next {h h' : HostDir} {c : HostCall} {r : Option Nat} (hc : h.call c = .ok (h', r)) : h.next ≤ h'.next := by
  unfold call at hc
  split at hc
  · cases hc
  · cases c <;> simp only at hc <;> split at hc <;> (try cases hc)
    · exact Nat.le_refl _
    · exact Nat.le_succ _
    · exact Nat.le_refl _
    · exact Nat.le_refl _
    · split at hc
      · cases hc; exact Nat.le_refl _
      · cases hc

theorem Closed.add {h : HostDir} (H : h.Closed) {p : List Bytes} {e : HostEnt} {n : Nat} (hp : p ≠ [])
    (hd : p.dropLast = [] ∨ h.look p.dropLast = some .dir) (hn : h.look p = none) : HostDir.Closed ⟨(p, e) :: h.ents, n⟩ := by
  have keep : ∀ q, h.look q = some .dir → HostDir.look ⟨(p, e) :: h.ents, n⟩ q = some .dir := by
    intro q hq
    rw [look_cons, if_neg (by rintro rfl; rw [hn] at hq; cases hq)]
    exact hq
  intro q x hq
  rw [look_cons] at hq
  split at hq
  · rename_i e; subst e
    exact ⟨hp, hd.imp_right (keep _)⟩
  · obtain ⟨h1, h2⟩ := H q x hq
    exact ⟨h1, h2.imp_right (keep _)⟩

theorem Closed.del {h : HostDir} (H : h.Closed) {p : List Bytes} {n : Nat}
    (hc : ∀ q e, h.look q = some e → q ≠ [] → q.dropLast ≠ p) : HostDir.Closed ⟨h.ents.filter fun e => e.1 != p, n⟩ := by
  intro q x hq
  rw [look_filter] at hq
  split at hq
  · cases hq
  · obtain ⟨h1, h2⟩ := H q x hq
    refine ⟨h1, h2.imp_right fun h3 => ?_⟩
    rw [look_filter, if_neg (hc q x hq h1)]
    exact h3

theorem Closed.call {h h' : HostDir} (H : h.Closed) {c : HostCall} (hp : c.path ≠ []) {r : Option Nat} (hc : h.call c = .ok (h', r)) : h'.Closed := by
  unfold HostDir.call at hc
  split at hc
  · cases hc
  · rename_i hw
    have hpar := walk_parent hw
    cases c <;> simp only [HostCall.path] at hp hpar hc <;> split at hc <;> (try cases hc)
    · exact H.add hp hpar (by assumption)
    · exact H.add hp hpar (by assumption)
    · exact H
    · rename_i n hn
      refine H.del fun q e hq hne hd => ?_
      rcases (H q e hq).2 with h1 | h1
      · rw [hd] at h1; exact hp h1
      · rw [hd, hn] at h1; cases h1
    · split at hc
      · rename_i he
        cases hc
        exact H.del fun q e hq hne => empty_children he hq hne
      · cases hc

/-! The calls on paths whose directory exists. -/

theorem mkdir_there {h : HostDir} {p : List Bytes} {e : HostEnt} (H : h.Closed) (hl : h.look p = some e) : h.call (.mkdir p) = .error 17 := by
  have hw := H.walk_of (H p e hl).2
  simp only [HostDir.call, HostCall.path, hw, hl]

theorem mkdir_new {h : HostDir} {p : List Bytes} (H : h.Closed) (hd : p.dropLast = [] ∨ h.look p.dropLast = some .dir) (hl : h.look p = none) :
    ∃ h', h.call (.mkdir p) = .ok (h', none) ∧ h'.look p = some .dir ∧ h'.next = h.next := by
  have hw := H.walk_of hd
  refine ⟨⟨(p, .dir) :: h.ents, h.next⟩, by simp only [HostDir.call, HostCall.path, hw, hl], ?_, rfl⟩
  rw [look_cons, if_pos rfl]

theorem new_there {h : HostDir} {p : List Bytes} {e : HostEnt} (H : h.Closed) (hl : h.look p = some e) : h.call (.openNew p) = .error 17 := by
  have hw := H.walk_of (H p e hl).2
  simp only [HostDir.call, HostCall.path, hw, hl]

theorem new_new {h : HostDir} {p : List Bytes} (H : h.Closed) (hd : p.dropLast = [] ∨ h.look p.dropLast = some .dir) (hl : h.look p = none) :
    ∃ h', h.call (.openNew p) = .ok (h', some h.next) ∧ h'.look p = some (.file h.next) ∧ h'.next = h.next + 1 := by
  have hw := H.walk_of hd
  refine ⟨⟨(p, .file h.next) :: h.ents, h.next + 1⟩, by simp only [HostDir.call, HostCall.path, hw, hl], ?_, rfl⟩
  rw [look_cons, if_pos rfl]

theorem old_there {h : HostDir} {p : List Bytes} {n : Nat} (H : h.Closed) (hl : h.look p = some (.file n)) : h.call (.openOld p) = .ok (h, some n) := by
  have hw := H.walk_of (H p _ hl).2
  simp only [HostDir.call, HostCall.path, hw, hl]

theorem old_missing {h : HostDir} {p : List Bytes} (hl : h.look p = none)
    (hb : ∀ a b, p.dropLast = a ++ b → a ≠ [] → ∀ n, h.look a ≠ some (.file n)) : h.call (.openOld p) = .error 2 := by
  rcases walkDirs_err (h := h) p.dropLast [] (by simpa using hb) with hw | hw
  · simp only [HostDir.call, HostCall.path, hw, hl]
  · simp only [HostDir.call, HostCall.path, hw]

theorem rm_there {h : HostDir} {p : List Bytes} {n : Nat} (H : h.Closed) (hl : h.look p = some (.file n)) :
    ∃ h', h.call (.rm p) = .ok (h', none) ∧ h'.look p = none ∧ h'.next = h.next := by
  have hw := H.walk_of (H p _ hl).2
  refine ⟨⟨h.ents.filter fun e => e.1 != p, h.next⟩, by simp only [HostDir.call, HostCall.path, hw, hl], ?_, rfl⟩
  rw [look_filter, if_pos rfl]

theorem rm_missing {h : HostDir} {p : List Bytes} (hl : h.look p = none) : ∃ e, h.call (.rm p) = .error e := by
  simp only [HostDir.call, HostCall.path, hl]
  split <;> exact ⟨_, rfl⟩

theorem rmdir_cases {h : HostDir} {p : List Bytes} (H : h.Closed) (hf : ∀ n, h.look p ≠ some (.file n)) :
    (∃ e, h.call (.rmdir p) = .error e ∧ (h.look p = none ∨ h.isEmptyDir p = false)) ∨
    (∃ h', h.call (.rmdir p) = .ok (h', none) ∧ h'.look p = none ∧ h'.next = h.next) := by
  cases hl : h.look p with
  | none =>
    left
    simp only [HostDir.call, HostCall.path, hl]
    split <;> exact ⟨_, rfl, Or.inl trivial⟩
  | some e =>
    cases e with
    | file n => exact absurd hl (hf n)
    | dir =>
      have hw := H.walk_of (H p _ hl).2
      cases he : h.isEmptyDir p with
      | false => left; exact ⟨39, by simp only [HostDir.call, HostCall.path, hw, hl, he]; rfl, Or.inr rfl⟩
      | true =>
        right
        refine ⟨⟨h.ents.filter fun e => e.1 != p, h.next⟩, by simp only [HostDir.call, HostCall.path, hw, hl, he]; rfl, ?_, rfl⟩
        rw [look_filter, if_pos rfl]

end HostDir
end Securefs
