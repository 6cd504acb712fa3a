import Verif.Spec.FullLocks
/-!
# Lemmas about the order of the mutexes of the full format
-/

namespace Securefs.Lk
open Securefs Securefs.Spec.Lk

/-- Holding nothing. -/
abbrev Free : Mu → Prop := fun _ => False

theorem obeys_congr {h h' : Mu → Prop} (e : ∀ m, h m ↔ h' m) {a : List Act} (o : Obeys h a) : Obeys h' a := by
  have : h = h' := funext fun m => propext (e m)
  exact this ▸ o

theorem obeys_append {a b : List Act} : ∀ {held : Mu → Prop}, Obeys held a → Obeys Free b → Obeys held (a ++ b) := by
  induction a with
  | nil => intro held h hb; exact obeys_congr (fun m => ⟨fun f => f.elim, fun f => h m f⟩) hb
  | cons x r ih =>
    intro held h hb
    cases x with
    | lock m => exact ⟨h.1, ih h.2 hb⟩
    | pair p q => exact ⟨h.1, h.2.1, h.2.2.1, h.2.2.2.1, ih h.2.2.2.2 hb⟩
    | use m => exact ⟨h.1, ih h.2 hb⟩
    | unlock m => exact ⟨h.1, ih h.2 hb⟩
    | tryNext p q => exact ⟨h.1, h.2.1, h.2.2.1, h.2.2.2.1, ih h.2.2.2.2 hb⟩
    | back p q => exact ⟨h.1, h.2.1, h.2.2.1, h.2.2.2.1, ih h.2.2.2.2 hb⟩

/-- A part of a call inside a locked region: it comes back to what was held. -/
def Inner (held : Mu → Prop) (a : List Act) : Prop := ∀ b, Obeys held b → Obeys held (a ++ b)

theorem inner_nil {held : Mu → Prop} : Inner held [] := fun _ h => h

theorem inner_append {held : Mu → Prop} {a b : List Act} (ha : Inner held a) (hb : Inner held b) : Inner held (a ++ b) := by
  intro c hc; rw [List.append_assoc]; exact ha _ (hb _ hc)

theorem inner_section {held : Mu → Prop} {m : Mu} {inner : List Act} (hr : ∀ h, held h → rank h < rank m)
    (hi : Inner (fun x => x = m ∨ held x) inner) : Inner held ([.lock m, .use m] ++ inner ++ [.unlock m]) := by
  intro b hb
  simp only [List.cons_append, List.nil_append, List.append_assoc]
  refine ⟨hr, Or.inl rfl, ?_⟩
  refine hi _ ⟨Or.inl rfl, ?_⟩
  refine obeys_congr (fun x => ?_) hb
  constructor
  · intro hx
    refine ⟨Or.inr hx, ?_⟩
    intro e; subst e; exact absurd (hr _ hx) (Nat.lt_irrefl _)
  · rintro ⟨h | h, hn⟩
    · exact absurd h hn
    · exact h

theorem inner_obeys {a : List Act} (h : Inner Free a) : Obeys Free a := by
  have := h [] (fun m f => f)
  simpa using this

theorem inner_log {held : Mu → Prop} (hr : ∀ h, held h → rank h < 3) : Inner held logLine :=
  inner_section (m := .log) (inner := []) hr inner_nil

theorem inner_parent {held : Mu → Prop} (hr : ∀ h, held h → rank h < 2) (id : Bytes) : Inner held (parentOf id) :=
  inner_section (m := .parent id) (inner := []) hr inner_nil

theorem inner_file {held : Mu → Prop} (hr : ∀ h, held h → rank h < 1) (id : Bytes) {inner : List Act}
    (hi : Inner (fun x => x = .file id ∨ held x) inner) : Inner held (withFile id inner) :=
  inner_section (m := .file id) hr hi

theorem free_lt {n : Nat} : ∀ h, Free h → rank h < n := fun _ f => f.elim

theorem free_file (id : Bytes) : Inner Free (withFile id []) := inner_file free_lt id inner_nil

theorem free_shard (id : Bytes) {inner : List Act} (hi : ∀ i, Inner (fun x => x = .shard i ∨ Free x) inner) : Inner Free (withShard id inner) := by
  unfold withShard
  cases FileTab.shardOf id with
  | error e => exact inner_nil
  | ok i => exact inner_section free_lt (hi i)

theorem free_close (id : Bytes) (c : Closing) : Inner Free (close id c) := by
  unfold close
  split
  · exact free_file _
  · refine inner_append ?_ ?_
    · refine free_shard id (fun i => ?_)
      split
      · refine inner_log ?_
        rintro h (rfl | f)
        · simp [rank]
        · exact f.elim
      · exact inner_nil
    · split
      · exact inner_log free_lt
      · exact inner_nil

theorem free_drop (id : Bytes) (l : Option Closing) : Inner Free (drop id l) := by
  cases l with
  | none => exact inner_nil
  | some c => exact free_close id c

theorem free_inShard (id : Bytes) {o : Opened} (h : Mem o) : Inner Free (inShard id o) := by
  cases o with
  | ok => exact free_shard id (fun _ => inner_nil)
  | refused => exact free_shard id (fun _ => inner_nil)
  | noMemory => exact absurd rfl h

theorem free_openAs (id : Bytes) {o : Opened} (h : Mem o) : Inner Free (openAs id o) := by
  unfold openAs
  split
  · exact inner_nil
  · exact free_inShard id h

theorem free_createAs (id : Bytes) {o : Opened} (h : Mem o) : Inner Free (createAs id o) := free_inShard id h

theorem free_pair (f g : Bytes) : Inner Free (withPair f g) := by
  unfold withPair
  split
  · exact free_file f
  · rename_i hne
    intro b hb
    refine ⟨fun _ h => h, trivial, trivial, fun e => hne (Mu.file.inj e), Or.inl rfl, Or.inr rfl, Or.inr rfl, ?_, ?_⟩
    · exact ⟨Or.inl rfl, fun e => hne (Mu.file.inj e)⟩
    · refine obeys_congr (fun x => ?_) hb
      constructor
      · intro h; exact h.elim
      · rintro ⟨⟨h | h, h2⟩, h3⟩
        · exact h3 h
        · exact h2 h

theorem okMem : Mem .ok := by intro h; cases h

macro "free" : tactic => `(tactic| repeat' first
  | exact free_file _ | exact free_drop _ _ | exact free_pair _ _ | exact inner_nil | exact inner_parent free_lt _
  | exact free_openAs _ okMem | exact free_createAs _ okMem | exact free_openAs _ (by assumption) | exact free_createAs _ (by assumption)
  | assumption | apply inner_append)

theorem free_genericOpen (t : Trip) : ∀ cur, TripMem t → Inner Free (genericOpen cur t).1 := by
  induction t with
  | arrived => intro cur _; exact inner_nil
  | tooDeep l => intro cur _; exact free_drop _ _
  | missing l => intro cur _; exact inner_append (free_file _) (free_drop _ _)
  | dot rest ih => intro cur h; exact ih cur h
  | up pid o last rest ih =>
    intro cur h
    have hm := h.1
    have hr := ih pid h.2
    simp only [genericOpen]
    split <;> free
  | child id o last rest ih =>
    intro cur h
    have hm := h.1
    have hr := ih id h.2
    simp only [genericOpen]
    split <;> free
  | link id o last target lastLink rest iht ihr =>
    intro cur h
    have hm := h.1
    have ht := iht cur h.2.1
    simp only [genericOpen]
    split
    · split
      · free
      · rename_i h' _
        have hr := ihr h' h.2.2
        free
    · free

theorem free_openBase {t : Trip} (h : TripMem t) : Inner Free (openBase t).1 := free_genericOpen t _ h

theorem free_openAll (t : AllTrip) (h : AllMem t) : Inner Free (openAll t).1 := by
  cases t with
  | root => exact inner_nil
  | noBase b =>
    have hb := free_openBase (t := b) h
    simp only [openAll]
    exact hb
  | missing b l =>
    have hb := free_openBase (t := b) h
    simp only [openAll]
    split <;> rename_i e <;> rw [e] at hb <;> simp only at hb ⊢ <;> free
  | found b id o l =>
    have hb := free_openBase (t := b) h.1
    have hm := h.2
    simp only [openAll]
    split <;> rename_i e <;> rw [e] at hb <;> simp only at hb ⊢
    · free
    · split <;> simp only <;> free
  | follow b id o l t ll =>
    have hb := free_openBase (t := b) h.1
    have hm := h.2.1
    simp only [openAll]
    split <;> rename_i e <;> rw [e] at hb <;> simp only at hb ⊢
    · free
    · rename_i d
      have ht := free_genericOpen t d h.2.2
      split <;> simp only <;> free

theorem free_create (fresh : Bytes) (b : Trip) (c : Creating) (l : Option Closing) (h : TripMem b) (hc : CreatingMem c) :
    Inner Free (create fresh b c l).1 := by
  have hb := free_openBase (t := b) h
  simp only [create]
  split <;> rename_i e <;> rw [e] at hb <;> simp only at hb ⊢
  · free
  · cases c with
    | refused o =>
      have hm : Mem o := hc
      simp only; free
    | «exists» id l' => simp only; free
    | failed id l' => simp only; free
    | done id => simp only; free

theorem free_getpath (missing : Bool) (le : Option Closing) (met : List Looked) :
    ∀ cur, (∀ l ∈ met, Mem l.o) → Inner Free (getpathLoop missing le cur met) := by
  induction met with
  | nil =>
    intro cur _
    simp only [getpathLoop]
    split <;> free
  | cons l ls ih =>
    intro cur h
    have hm : Mem l.o := h l (by simp)
    have hr := ih l.id (fun x hx => h x (by simp [hx]))
    simp only [getpathLoop]
    split <;> free

theorem free_destroy (live : List (Nat × List Bytes)) : Inner Free (destroyAll live) := by
  unfold destroyAll
  refine inner_append (inner_log free_lt) ?_
  induction live with
  | nil => exact inner_nil
  | cons s r ih =>
    rw [List.flatMap_cons]
    refine inner_append (inner_section free_lt ?_) ih
    generalize s.2 = ids
    induction ids with
    | nil => exact inner_nil
    | cons id ids ih2 =>
      rw [List.flatMap_cons]
      refine inner_append (inner_file ?_ id inner_nil) ih2
      rintro h (rfl | f)
      · simp [rank]
      · exact f.elim

theorem free_acts (c : FullCall) (h : CallMem c) : Inner Free c.acts := by
  cases c with
  | statfs => exact inner_nil
  | onPath t l =>
    have ht := free_openAll t h
    simp only [FullCall.acts]
    split <;> rename_i e <;> rw [e] at ht <;> simp only at ht <;> free
  | onHandle hd => exact free_file _
  | readdir hd full =>
    refine inner_file free_lt hd (inner_append (inner_parent ?_ hd) ?_)
    · rintro x (rfl | f)
      · simp [rank]
      · exact f.elim
    · split
      · refine inner_log ?_
        rintro x (rfl | f)
        · simp [rank]
        · exact f.elim
      · exact inner_nil
  | opendir t k l =>
    have ht := free_openAll t h
    simp only [FullCall.acts]
    split <;> rename_i e <;> rw [e] at ht <;> simp only at ht
    · free
    · split <;> free
  | «open» t tr k l =>
    have ht := free_openAll t h
    simp only [FullCall.acts]
    split <;> rename_i e <;> rw [e] at ht <;> simp only at ht
    · free
    · split <;> split <;> free
  | release hd st l =>
    simp only [FullCall.acts]
    split <;> free
  | unlink b id l lb =>
    have hb := free_openBase h.1
    simp only [FullCall.acts]
    split <;> rename_i e <;> rw [e] at hb <;> simp only at hb
    · free
    · split
      · free
      · rename_i i o
        have hm : Mem o := h.2 (i, o) rfl
        split <;> free
  | create f b c l => exact free_create f b c l h.1 h.2
  | mkdir f b c l ln =>
    have hb := free_create f b c l h.1 h.2
    simp only [FullCall.acts]
    split <;> rename_i e <;> rw [e] at hb <;> simp only at hb <;> free
  | symlink f b c l ln =>
    have hb := free_create f b c l h.1 h.2
    simp only [FullCall.acts]
    split <;> rename_i e <;> rw [e] at hb <;> simp only at hb <;> free
  | link t b lb ls =>
    have ht := free_openAll t h.1
    have hb := free_openBase h.2
    simp only [FullCall.acts]
    split <;> rename_i e <;> rw [e] at ht <;> simp only at ht
    · free
    · split <;> rename_i e <;> rw [e] at hb <;> simp only at hb <;> free
  | rename f t rep lt lf =>
    have hf := free_openBase h.1
    have ht := free_openBase h.2.1
    simp only [FullCall.acts]
    split <;> rename_i e <;> rw [e] at hf <;> simp only at hf
    · free
    · split <;> rename_i e <;> rw [e] at ht <;> simp only at ht
      · free
      · split
        · free
        · rename_i i o l
          have hm : Mem o := h.2.2 (i, o, l) rfl
          split <;> free
  | getpath met m le => exact free_getpath m le met _ h
  | destroy live => exact free_destroy live

theorem obeys_acts (c : FullCall) (h : CallMem c) : Obeys Free c.acts := inner_obeys (free_acts c h)

end Securefs.Lk
