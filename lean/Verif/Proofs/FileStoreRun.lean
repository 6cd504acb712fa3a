import Verif.Proofs.FileStoreInv
/-!
# The store of backing files: every step keeps the invariant
-/

namespace Securefs

open Spec (StoreMap StoreStep StoreRuns PlainEvent)

/-- What a step did: nothing that counts, or the end of an operation. -/
def StepDid (s s' : StoreSys) (M M' : StoreMap) : Prop :=
  (s'.log = s.log ∧ M' = M) ∨ ∃ op out, s'.log = (op, out) :: s.log ∧ StoreStep M op out M'

section
variable {P : Bytes → StorePaths} (L : StoreLayout P)

theorem put_self (M : StoreMap) (i : Bytes) : M.put i (M i) = M := by
  funext k
  unfold StoreMap.put
  split
  · rename_i h; rw [h]
  · rfl

theorem unused_of {h : HostDir} {tasks : List (Nat × StoreTask)} {M : StoreMap} (I : StoreInv P h tasks M) : M.Unused h.next := by
  intro i d m hi
  have := I.nodes i _ hi
  simp only at this
  omega

include L

theorem tidy_of_file {h : HostDir} {i : Bytes} {e : HostEnt} (hl : h.look (P i).file = some e) : TidyDir h (P i).file.dropLast :=
  fun _ => ⟨_, _, hl, (L.fileNe i).1, rfl⟩

theorem tidy_of_meta {h : HostDir} {i : Bytes} {e : HostEnt} (hl : h.look (P i).metaFile = some e) : TidyDir h (P i).file.dropLast :=
  fun _ => ⟨_, _, hl, (L.fileNe i).2, L.metaDir i⟩

theorem prefixes_not_files {h : HostDir} (H : HostOk P h) (i : Bytes) :
    ∀ a b, (P i).file.dropLast = a ++ b → a ≠ [] → ∀ n, h.look a ≠ some (.file n) := by
  have key : ∀ (k : Nat) (d : List Bytes), d.length ≤ k → d ∈ (P i).dirs → ∀ a b, d = a ++ b → a ≠ [] → a ∈ (P i).dirs := by
    intro k
    induction k with
    | zero =>
      intro d hd _ a b hab hne
      have : d = [] := List.length_eq_zero_iff.mp (by omega)
      rw [this] at hab
      exact absurd (List.append_eq_nil_iff.mp hab.symm).1 hne
    | succ k ih =>
      intro d hd hm a b hab hne
      by_cases hb : b = []
      · subst hb; rw [List.append_nil] at hab; rw [← hab]; exact hm
      · have h1 : d.dropLast = a ++ b.dropLast := by rw [hab, List.dropLast_append_of_ne_nil hb]
        obtain ⟨l1, l2, hl⟩ := List.append_of_mem hm
        obtain ⟨hne', h2⟩ := L.chain i l1 d l2 hl
        rcases h2 with h2 | h2
        · rw [h2] at h1
          exact absurd (List.append_eq_nil_iff.mp h1.symm).1 hne
        · refine ih d.dropLast ?_ (by rw [hl]; exact List.mem_append_left _ h2) a _ h1 hne
          have := List.length_pos_of_ne_nil hne'
          rw [List.length_dropLast]; omega
  intro a b hab hne n
  exact H.noBlock i a (key _ _ (Nat.le_refl _) (L.fileDir i) a b hab hne) n

theorem old_missing_file {h : HostDir} (H : HostOk P h) (i : Bytes) {p : List Bytes} (hp : p = (P i).file ∨ p = (P i).metaFile)
    (hl : h.look p = none) : h.call (.openOld p) = .error 2 := by
  refine HostDir.old_missing hl ?_
  have := prefixes_not_files L H i
  rcases hp with rfl | rfl
  · exact this
  · rw [L.metaDir]; exact this

theorem first_or (S : StorePaths) (swap : Bool) : firstPath S swap = S.file ∨ firstPath S swap = S.metaFile := by
  cases swap
  · exact Or.inl rfl
  · exact Or.inr rfl

theorem second_or (S : StorePaths) (swap : Bool) : secondPath S swap = S.file ∨ secondPath S swap = S.metaFile := by
  cases swap
  · exact Or.inr rfl
  · exact Or.inl rfl

theorem done_same {h : HostDir} {tasks : List (Nat × StoreTask)} {M : StoreMap} (I : StoreInv P h tasks M) {t : Nat} {k : StoreTask}
    (hk : tasks.lookup t = some k) (sh : StoreShows P h M k.op.id) (td : TidyDir h (P k.op.id).file.dropLast) :
    StoreInv P h (tasks.filter fun p => p.1 != t) M := by
  have := I.done L hk I.host.touch (M k.op.id) (by rw [put_self]; exact sh) td
  rwa [put_self] at this

/-- One system call without a fault. -/
theorem call_step {s : StoreSys} {M : StoreMap} (I : StoreInv P s.host s.tasks M) (t : Nat) :
    ∃ M', StoreInv P (s.step legacy (.call t none)).host (s.step legacy (.call t none)).tasks M' ∧
      StepDid s (s.step legacy (.call t none)) M M' := by
  cases hk : s.tasks.lookup t with
  | none =>
    refine ⟨M, ?_, Or.inl ⟨?_, rfl⟩⟩ <;> simp only [StoreSys.step, hk]
    exact I
  | some k =>
    have hok := I.ok _ (FileTab.lookup_mem' hk)
    have H := I.host
    cases hok with
    | create1 i swap ds1 ds2 hd made sh =>
      cases ds2 with
      | cons d ds2 =>
        have hmem : d ∈ (P i).dirs := by rw [hd]; simp
        have hpar : d.dropLast = [] ∨ s.host.look d.dropLast = some .dir :=
          (L.chain i ds1 d ds2 hd).2.imp_right fun h => made _ h
        have hd' : (P i).dirs = (ds1 ++ [d]) ++ ds2 := by rw [hd]; simp
        cases hl : s.host.look d with
        | some e =>
          have he : e = .dir := by cases e with
            | dir => rfl
            | file n => exact absurd hl (H.noBlock i d hmem n)
          subst he
          refine ⟨M, ?_, Or.inl ⟨?_, rfl⟩⟩
          · simp only [StoreSys.step, hk, List.map_cons, List.cons_append, HostDir.attempt, HostDir.mkdir_there H.closed hl, HostCall.fatal,
              bne_self_eq_false, Bool.false_eq_true, if_false, StoreSys.advance]
            rw [if_neg (by simp)]
            refine I.replace L hk H.touch rfl (.create1 i swap (ds1 ++ [d]) ds2 hd' ?_ sh)
            intro x hx
            rcases List.mem_append.mp hx with hx | hx
            · exact made x hx
            · rw [List.mem_singleton.mp hx]; exact hl
          · simp only [StoreSys.step, hk, List.map_cons, List.cons_append, HostDir.attempt, HostDir.mkdir_there H.closed hl, HostCall.fatal,
              bne_self_eq_false, Bool.false_eq_true, if_false, StoreSys.advance]
            rw [if_neg (by simp)]
            rfl
        | none =>
          obtain ⟨h', hc, hl', hn⟩ := HostDir.mkdir_new H.closed hpar hl
          have T : Touch P i s.host h' := touch_call L H hc hmem
          refine ⟨M, ?_, Or.inl ⟨?_, rfl⟩⟩
          · simp only [StoreSys.step, hk, List.map_cons, List.cons_append, HostDir.attempt, hc, StoreSys.advance]
            rw [if_neg (by simp)]
            refine I.replace L hk T rfl (.create1 i swap (ds1 ++ [d]) ds2 hd' ?_ ?_)
            · intro x hx
              rcases List.mem_append.mp hx with hx | hx
              · by_cases e : x = d
                · rw [e]; exact hl'
                · exact (HostDir.call_frame hc e).trans (made x hx)
              · rw [List.mem_singleton.mp hx]; exact hl'
            · obtain ⟨h1, h2⟩ := L.dirFile i i d hmem
              exact ⟨(HostDir.call_frame hc (q := (P i).file) (fun e => h1 e.symm)).trans sh.1,
                (HostDir.call_frame hc (q := (P i).metaFile) (fun e => h2 e.symm)).trans sh.2⟩
          · simp only [StoreSys.step, hk, List.map_cons, List.cons_append, HostDir.attempt, hc, StoreSys.advance]
            rw [if_neg (by simp)]
            rfl
      | nil =>
        rw [List.append_nil] at hd
        rw [← hd] at made
        have hown := first_or L (P i) swap
        have hpar : (firstPath (P i) swap).dropLast = [] ∨ s.host.look (firstPath (P i) swap).dropLast = some .dir := by
          right
          have := made _ (L.fileDir i)
          rcases hown with h | h <;> rw [h]
          · exact this
          · rw [L.metaDir]; exact this
        cases hM : M i with
        | some v =>
          have hl : ∃ e, s.host.look (firstPath (P i) swap) = some e := by
            unfold StoreShows at sh
            rw [hM] at sh
            rcases hown with h | h <;> rw [h]
            · exact ⟨_, sh.1⟩
            · exact ⟨_, sh.2⟩
          obtain ⟨e, hl⟩ := hl
          have hdone := done_same L I hk sh (by
            unfold StoreShows at sh
            rw [hM] at sh
            exact tidy_of_file L sh.1)
          refine ⟨M, ?_, Or.inr ⟨.create i, .failed 17, ?_, .createTaken i (by rw [hM]; simp)⟩⟩
          · simp only [StoreSys.step, hk, List.map_nil, List.nil_append, HostDir.attempt, HostDir.new_there H.closed hl, HostCall.fatal,
              if_true, StoreSys.finish]
            exact hdone
          · simp only [StoreSys.step, hk, List.map_nil, List.nil_append, HostDir.attempt, HostDir.new_there H.closed hl, HostCall.fatal,
              if_true, StoreSys.finish]
        | none =>
          unfold StoreShows at sh
          rw [hM] at sh
          have hl : s.host.look (firstPath (P i) swap) = none := by
            rcases hown with h | h <;> rw [h]
            · exact sh.1
            · exact sh.2
          have hl2 : s.host.look (secondPath (P i) swap) = none := by
            rcases second_or L (P i) swap with h | h <;> rw [h]
            · exact sh.1
            · exact sh.2
          have hne : secondPath (P i) swap ≠ firstPath (P i) swap := by
            cases swap
            · exact fun e => L.fileMeta i i e.symm
            · exact fun e => L.fileMeta i i e
          obtain ⟨h', hc, hl', hn⟩ := HostDir.new_new H.closed hpar hl
          have T : Touch P i s.host h' := touch_call L H hc hown
          refine ⟨M, ?_, Or.inl ⟨?_, rfl⟩⟩
          · simp only [StoreSys.step, hk, List.map_nil, List.nil_append, HostDir.attempt, hc, StoreSys.advance]
            rw [if_neg (by simp)]
            refine I.replace L hk T rfl (.create2 i swap s.host.next (fun d hm => ?_) hM hl' ?_ (unused_of I))
            · refine (HostDir.call_frame hc (q := d) ?_).trans (made d hm)
              · show d ≠ firstPath (P i) swap
                rcases hown with h | h <;> rw [h]
                · exact (L.dirFile i i d hm).1
                · exact (L.dirFile i i d hm).2
            · exact (HostDir.call_frame hc hne).trans hl2
          · simp only [StoreSys.step, hk, List.map_nil, List.nil_append, HostDir.attempt, hc, StoreSys.advance]
            rw [if_neg (by simp)]
            rfl
    | create2 i swap n made free one two un =>
      have hown := second_or L (P i) swap
      have hpar : (secondPath (P i) swap).dropLast = [] ∨ s.host.look (secondPath (P i) swap).dropLast = some .dir := by
        right
        have := made _ (L.fileDir i)
        rcases hown with h | h <;> rw [h]
        · exact this
        · rw [L.metaDir]; exact this
      have hne : firstPath (P i) swap ≠ secondPath (P i) swap := by
        cases swap
        · exact fun e => L.fileMeta i i e
        · exact fun e => L.fileMeta i i e.symm
      obtain ⟨h', hc, hl', hn⟩ := HostDir.new_new H.closed hpar two
      have T : Touch P i s.host h' := touch_call L H hc hown
      have hl1 : h'.look (firstPath (P i) swap) = some (.file n) := by rw [HostDir.call_frame hc hne]; exact one
      have hnn : n < s.host.next := H.lt _ _ one
      have hun' := unused_of I
      have hdone : StoreInv P h' (s.tasks.filter fun p => p.1 != t) (M.put i (some (if swap then (s.host.next, n) else (n, s.host.next)))) := by
        refine I.done L hk T (some (if swap then (s.host.next, n) else (n, s.host.next))) ?_ ?_
        · cases swap <;> simp [StoreShows, StoreMap.put, StoreOp.id] <;> exact ⟨‹_›, ‹_›⟩
        · cases swap
          · exact tidy_of_file L hl1
          · exact tidy_of_file L hl'
      refine ⟨M.put i (some (if swap then (s.host.next, n) else (n, s.host.next))), ?_,
        Or.inr ⟨.create i, if swap then .opened s.host.next n else .opened n s.host.next, ?_, ?_⟩⟩
      · simp only [StoreSys.step, hk, HostDir.attempt, hc, StoreSys.advance, List.isEmpty_nil, if_true, StoreSys.finish]
        exact hdone
      · simp only [StoreSys.step, hk, HostDir.attempt, hc, StoreSys.advance, List.isEmpty_nil, if_true, StoreSys.finish, StoreTask.out]
      · cases swap
        · exact .create i n s.host.next free (by omega) un hun'
        · exact .create i s.host.next n free (by omega) hun' un
    | open1 i swap sh td =>
      have hown := first_or L (P i) swap
      cases hM : M i with
      | none =>
        have hl : s.host.look (firstPath (P i) swap) = none := by
          unfold StoreShows at sh
          rw [hM] at sh
          rcases hown with h | h <;> rw [h]
          · exact sh.1
          · exact sh.2
        have hdone := done_same L I hk sh td
        have hc := old_missing_file L H i hown hl
        refine ⟨M, ?_, Or.inr ⟨.open i, .failed 2, ?_, .openMissing i hM⟩⟩
        · simp only [StoreSys.step, hk, HostDir.attempt, hc, HostCall.fatal, if_true, StoreSys.finish]
          exact hdone
        · simp only [StoreSys.step, hk, HostDir.attempt, hc, HostCall.fatal, if_true, StoreSys.finish]
      | some v =>
        have hl : s.host.look (firstPath (P i) swap) = some (.file (if swap then v.2 else v.1)) := by
          unfold StoreShows at sh
          rw [hM] at sh
          cases swap
          · exact sh.1
          · exact sh.2
        have hc := HostDir.old_there H.closed hl
        refine ⟨M, ?_, Or.inl ⟨?_, rfl⟩⟩
        · simp only [StoreSys.step, hk, HostDir.attempt, hc, StoreSys.advance]
          rw [if_neg (by simp)]
          exact I.replace L hk H.touch rfl (.open2 i swap v sh td hM)
        · simp only [StoreSys.step, hk, HostDir.attempt, hc, StoreSys.advance]
          rw [if_neg (by simp)]
          rfl
    | open2 i swap v sh td hM =>
      have hl : s.host.look (secondPath (P i) swap) = some (.file (if swap then v.1 else v.2)) := by
        unfold StoreShows at sh
        rw [hM] at sh
        cases swap
        · exact sh.2
        · exact sh.1
      have hc := HostDir.old_there H.closed hl
      have hdone := done_same L I hk sh td
      refine ⟨M, ?_, Or.inr ⟨.open i, .opened v.1 v.2, ?_, .opens i v.1 v.2 hM⟩⟩
      · simp only [StoreSys.step, hk, HostDir.attempt, hc, StoreSys.advance, List.isEmpty_nil, if_true, StoreSys.finish]
        exact hdone
      · simp only [StoreSys.step, hk, HostDir.attempt, hc, StoreSys.advance, List.isEmpty_nil, if_true, StoreSys.finish, StoreTask.out]
        cases swap <;> rfl
    | unlink1 i swap sh =>
      have hne : (P i).metaFile ≠ (P i).file := fun e => L.fileMeta i i e.symm
      cases hM : M i with
      | none =>
        have sh' := sh
        unfold StoreShows at sh
        rw [hM] at sh
        obtain ⟨e, hc⟩ := HostDir.rm_missing sh.1
        refine ⟨M, ?_, Or.inl ⟨?_, rfl⟩⟩
        · simp only [StoreSys.step, hk, HostDir.attempt, hc, HostCall.fatal, Bool.false_eq_true, if_false, StoreSys.advance]
          rw [if_neg (by simp)]
          exact I.replace L hk H.touch rfl (.unlink2 i swap sh.1 sh'.2)
        · simp only [StoreSys.step, hk, HostDir.attempt, hc, HostCall.fatal, Bool.false_eq_true, if_false, StoreSys.advance]
          rw [if_neg (by simp)]
          rfl
      | some v =>
        have sh' := sh
        unfold StoreShows at sh
        rw [hM] at sh
        obtain ⟨h', hc, hl', hn⟩ := HostDir.rm_there H.closed sh.1
        have T : Touch P i s.host h' := touch_call L H hc (Or.inl rfl)
        refine ⟨M, ?_, Or.inl ⟨?_, rfl⟩⟩
        · simp only [StoreSys.step, hk, HostDir.attempt, hc, StoreSys.advance]
          rw [if_neg (by simp)]
          refine I.replace L hk T rfl (.unlink2 i swap hl' ?_)
          exact (HostDir.call_frame hc hne).trans sh'.2
        · simp only [StoreSys.step, hk, HostDir.attempt, hc, StoreSys.advance]
          rw [if_neg (by simp)]
          rfl
    | unlink2 i swap gone sh =>
      have hne : (P i).file ≠ (P i).metaFile := L.fileMeta i i
      obtain ⟨d, ds, hrm⟩ := List.exists_cons_of_ne_nil (L.removedNe i)
      have hall : ∀ x ∈ d :: ds, x = (P i).file.dropLast := by rw [← hrm]; exact L.removedSub i
      cases hM : M i with
      | none =>
        rw [hM] at sh
        obtain ⟨e, hc⟩ := HostDir.rm_missing sh
        refine ⟨M, ?_, Or.inl ⟨?_, rfl⟩⟩
        · simp only [StoreSys.step, hk, HostDir.attempt, hc, HostCall.fatal, Bool.false_eq_true, if_false, StoreSys.advance]
          rw [if_neg (by simp [hrm])]
          rw [hrm]
          exact I.replace L hk H.touch rfl (.unlink3 i swap d ds hall gone sh)
        · simp only [StoreSys.step, hk, HostDir.attempt, hc, HostCall.fatal, Bool.false_eq_true, if_false, StoreSys.advance]
          rw [if_neg (by simp [hrm])]
          rfl
      | some v =>
        rw [hM] at sh
        obtain ⟨h', hc, hl', hn⟩ := HostDir.rm_there H.closed sh
        have T : Touch P i s.host h' := touch_call L H hc (Or.inr rfl)
        refine ⟨M, ?_, Or.inl ⟨?_, rfl⟩⟩
        · simp only [StoreSys.step, hk, HostDir.attempt, hc, StoreSys.advance]
          rw [if_neg (by simp [hrm])]
          rw [hrm]
          refine I.replace L hk T rfl (.unlink3 i swap d ds hall ?_ hl')
          exact (HostDir.call_frame hc hne).trans gone
        · simp only [StoreSys.step, hk, HostDir.attempt, hc, StoreSys.advance]
          rw [if_neg (by simp [hrm])]
          rfl
    | unlink3 i swap d ds hall gone gone2 =>
      have hdd := hall d (by simp)
      have hmem : d ∈ (P i).dirs := by rw [hdd]; exact L.fileDir i
      rcases HostDir.rmdir_cases H.closed (H.noBlock i d hmem) with ⟨e, hc, hx⟩ | ⟨h', hc, hl', hn⟩
      · have htd : TidyDir s.host (P i).file.dropLast := by
          intro h1
          rcases hx with hx | hx
          · rw [hdd, h1] at hx; cases hx
          · rw [← hdd]; exact HostDir.child_of_not_empty hx
        cases ds with
        | nil =>
          have hdone := I.done L hk H.touch none (by simp [StoreShows, StoreMap.put, StoreOp.id]; exact ⟨gone, gone2⟩) htd
          refine ⟨M.put i none, ?_, Or.inr ⟨.unlink i, .done, ?_, .unlink i⟩⟩
          · simp only [StoreSys.step, hk, List.map_cons, List.map_nil, HostDir.attempt, hc, HostCall.fatal, Bool.false_eq_true, if_false, StoreSys.advance,
              List.isEmpty_nil, if_true, StoreSys.finish]
            exact hdone
          · simp only [StoreSys.step, hk, List.map_cons, List.map_nil, HostDir.attempt, hc, HostCall.fatal, Bool.false_eq_true, if_false, StoreSys.advance,
              List.isEmpty_nil, if_true, StoreSys.finish, StoreTask.out]
        | cons d2 ds =>
          refine ⟨M, ?_, Or.inl ⟨?_, rfl⟩⟩
          · simp only [StoreSys.step, hk, List.map_cons, HostDir.attempt, hc, HostCall.fatal, Bool.false_eq_true, if_false, StoreSys.advance,
              List.isEmpty_cons]
            exact I.replace L hk H.touch rfl (.unlink3 i swap d2 ds (fun x hx => hall x (List.mem_cons_of_mem _ hx)) gone gone2)
          · simp only [StoreSys.step, hk, List.map_cons, HostDir.attempt, hc, HostCall.fatal, Bool.false_eq_true, if_false, StoreSys.advance,
              List.isEmpty_cons]
            rfl
      · have T : Touch P i s.host h' := touch_call L H hc hmem
        obtain ⟨hn1, hn2⟩ := L.dirFile i i d hmem
        have g1 : h'.look (P i).file = none := by rw [HostDir.call_frame hc (q := (P i).file) (fun e => hn1 e.symm)]; exact gone
        have g2 : h'.look (P i).metaFile = none := by rw [HostDir.call_frame hc (q := (P i).metaFile) (fun e => hn2 e.symm)]; exact gone2
        cases ds with
        | nil =>
          have hdone := I.done L hk T none (by simp [StoreShows, StoreMap.put, StoreOp.id]; exact ⟨g1, g2⟩) (by
            intro h1
            have h2 := hl'
            rw [hdd] at h2
            have h1 : h'.look (P i).file.dropLast = some .dir := h1
            rw [h2] at h1; cases h1)
          refine ⟨M.put i none, ?_, Or.inr ⟨.unlink i, .done, ?_, .unlink i⟩⟩
          · simp only [StoreSys.step, hk, List.map_cons, List.map_nil, HostDir.attempt, hc, StoreSys.advance,
              List.isEmpty_nil, if_true, StoreSys.finish]
            exact hdone
          · simp only [StoreSys.step, hk, List.map_cons, List.map_nil, HostDir.attempt, hc, StoreSys.advance,
              List.isEmpty_nil, if_true, StoreSys.finish, StoreTask.out]
        | cons d2 ds =>
          refine ⟨M, ?_, Or.inl ⟨?_, rfl⟩⟩
          · simp only [StoreSys.step, hk, List.map_cons, HostDir.attempt, hc, StoreSys.advance,
              List.isEmpty_cons, Bool.false_eq_true, if_false]
            exact I.replace L hk T rfl (.unlink3 i swap d2 ds (fun x hx => hall x (List.mem_cons_of_mem _ hx)) g1 g2)
          · simp only [StoreSys.step, hk, List.map_cons, HostDir.attempt, hc, StoreSys.advance,
              List.isEmpty_cons, Bool.false_eq_true, if_false]
            rfl

end

theorem topOf_eq {P : Bytes → StorePaths} (L : StoreLayout P) {i j : Bytes} (h : (P i).file.dropLast = (P j).file.dropLast) : topOf i = topOf j := by
  have h1 := OwnPath.head L (i := i) (q := (P i).file.dropLast) (Or.inr (Or.inr (L.fileDir i)))
  have h2 := OwnPath.head L (i := j) (q := (P j).file.dropLast) (Or.inr (Or.inr (L.fileDir _)))
  rw [h, h2] at h1
  exact (Option.some.inj h1).symm

/-- The beginning of an operation. -/
theorem start_step {legacy : Bool} {s : StoreSys} {M : StoreMap} (I : StoreInv (layoutPaths legacy) s.host s.tasks M) (t : Nat) (op : StoreOp)
    (swap : Bool) (hid : op.id.length = 32) :
    StoreInv (layoutPaths legacy) (s.step legacy (.start t op swap)).host (s.step legacy (.start t op swap)).tasks M ∧
      (s.step legacy (.start t op swap)).log = s.log := by
  have L := layoutPaths_layout legacy
  simp only [StoreSys.step, storePaths_eq]
  cases hk : s.tasks.lookup t with
  | some k => exact ⟨I, rfl⟩
  | none =>
    cases hs : FileTab.shardOf op.id with
    | error e => exact ⟨I, rfl⟩
    | ok shard =>
      simp only
      by_cases hb : s.busy shard = true
      · rw [if_pos hb]; exact ⟨I, rfl⟩
      · rw [if_neg hb]
        refine ⟨?_, rfl⟩
        have hfree : ∀ p ∈ s.tasks, topOf op.id ≠ topOf p.2.op.id := by
          intro p hp e
          obtain ⟨h1, sh', h2⟩ := I.ids p hp
          have := shard_of_top hid h1 e hs h2
          subst this
          refine hb (List.any_eq_true.mpr ⟨p, hp, ?_⟩)
          rw [h2]
          simp [Except.toOption]
        have hsh : StoreShows (layoutPaths legacy) s.host M op.id := I.shows_ _ fun p hp e => hfree p hp (by rw [e])
        have htd : TidyDir s.host (layoutPaths legacy op.id).file.dropLast := I.tidy _ fun p hp e => hfree p hp (topOf_eq L e).symm
        have hnew : TaskOk (layoutPaths legacy) s.host M ⟨op, swap, op.calls (layoutPaths legacy op.id) swap, []⟩ := by
          cases op with
          | «open» i =>
            have := TaskOk.open1 (P := layoutPaths legacy) (h := s.host) (M := M) i swap hsh htd
            cases swap <;> exact this
          | create i =>
            have := TaskOk.create1 (P := layoutPaths legacy) (h := s.host) (M := M) i swap [] (layoutPaths legacy i).dirs rfl (by simp) hsh
            cases swap <;> exact this
          | unlink i => exact .unlink1 i swap hsh
        have hmem : ∀ p, p ∈ s.tasks → p ∈ s.tasks.filter fun p => p.1 != t := by
          intro p hp
          refine List.mem_filter.mpr ⟨hp, ?_⟩
          have := List.lookup_eq_none_iff.mp hk p hp
          simp only [bne_iff_ne, ne_eq]
          intro e
          simp [e] at this
        constructor
        · exact I.host
        · exact I.nodes
        · intro i hi
          exact I.shows_ i fun p hp => hi p (List.mem_cons_of_mem _ (hmem p hp))
        · intro i hi
          exact I.tidy i fun p hp => hi p (List.mem_cons_of_mem _ (hmem p hp))
        · intro p hp
          rcases List.mem_cons.mp hp with rfl | hp
          · exact hnew
          · exact I.ok p (List.mem_filter.mp hp).1
        · refine List.pairwise_cons.mpr ⟨?_, I.apart.sublist List.filter_sublist⟩
          intro p hp
          obtain ⟨h1, h2⟩ := List.mem_filter.mp hp
          exact ⟨hfree p h1, fun e => (bne_iff_ne.mp h2) e.symm⟩
        · intro p hp
          rcases List.mem_cons.mp hp with rfl | hp
          · exact ⟨hid, shard, hs⟩
          · exact I.ids p (List.mem_filter.mp hp).1

theorem store_run {legacy : Bool} : ∀ (es : List StoreEvent) {s : StoreSys} {M0 M : StoreMap}, StoreInv (layoutPaths legacy) s.host s.tasks M →
    StoreRuns M0 s.log M → (∀ e ∈ es, PlainEvent e) →
    ∃ M', StoreInv (layoutPaths legacy) (s.run legacy es).host (s.run legacy es).tasks M' ∧ StoreRuns M0 (s.run legacy es).log M' := by
  intro es
  induction es with
  | nil => intro s M0 M I R _; exact ⟨M, I, R⟩
  | cons e es ih =>
    intro s M0 M I R hp
    have he := hp e (by simp)
    have hes : ∀ e ∈ es, PlainEvent e := fun e h => hp e (List.mem_cons_of_mem _ h)
    show ∃ M', StoreInv _ ((s.step legacy e).run legacy es).host ((s.step legacy e).run legacy es).tasks M' ∧ StoreRuns M0 ((s.step legacy e).run legacy es).log M'
    cases e with
    | start t op swap =>
      obtain ⟨h1, h2⟩ := start_step I t op swap he
      exact ih h1 (by rw [h2]; exact R) hes
    | call t fault =>
      have he : fault = none := he
      subst he
      obtain ⟨M1, h1, h2⟩ := call_step (layoutPaths_layout legacy) (legacy := legacy) I t
      rcases h2 with ⟨h2, rfl⟩ | ⟨op, out, h2, h3⟩
      · exact ih h1 (by rw [h2]; exact R) hes
      · exact ih h1 (by rw [h2]; exact .cons op out _ _ _ R h3) hes

/-! ## Runs with faults -/

/-- The calls still to be made are about the paths of the file of the operation. -/
def OwnCalls (P : Bytes → StorePaths) (k : StoreTask) : Prop := ∀ c ∈ k.todo, OwnPath P k.op.id c.path

theorem own_calls {P : Bytes → StorePaths} (L : StoreLayout P) (op : StoreOp) (swap : Bool) : ∀ c ∈ op.calls (P op.id) swap, OwnPath P op.id c.path := by
  intro c hc
  cases op with
  | «open» i =>
    cases swap <;> simp [StoreOp.calls] at hc <;> rcases hc with rfl | rfl <;> simp [OwnPath, HostCall.path, StoreOp.id]
  | create i =>
    simp only [StoreOp.calls, List.mem_append, List.mem_map] at hc
    rcases hc with ⟨d, hd, rfl⟩ | hc
    · exact Or.inr (Or.inr hd)
    · cases swap <;> simp at hc <;> rcases hc with rfl | rfl <;> simp [OwnPath, HostCall.path, StoreOp.id]
  | unlink i =>
    simp only [StoreOp.calls, List.mem_append, List.mem_map] at hc
    rcases hc with hc | ⟨d, hd, rfl⟩
    · simp at hc; rcases hc with rfl | rfl <;> simp [OwnPath, HostCall.path, StoreOp.id]
    · refine Or.inr (Or.inr ?_)
      show d ∈ _
      rw [L.removedSub _ d hd]; exact L.fileDir _

theorem own_ne {P : Bytes → StorePaths} (L : StoreLayout P) {i : Bytes} {q : List Bytes} (h : OwnPath P i q) : q ≠ [] := by
  intro e
  have := OwnPath.head L h
  rw [e] at this
  cases this

theorem fault_run {legacy : Bool} {S : Bytes → Prop} {q : List Bytes} (hq : ∀ i, S i → ¬ OwnPath (layoutPaths legacy) i q) :
    ∀ (es : List StoreEvent) {s : StoreSys}, s.host.Closed → (∀ p ∈ s.tasks, OwnCalls (layoutPaths legacy) p.2 ∧ S p.2.op.id) →
    (∀ t op swap, StoreEvent.start t op swap ∈ es → S op.id) →
    (s.run legacy es).host.Closed ∧ (s.run legacy es).host.look q = s.host.look q := by
  have L := layoutPaths_layout legacy
  have hadv : ∀ (s : StoreSys) (t : Nat) (k : StoreTask), (s.advance t k).host = s.host ∧
      ∀ p ∈ (s.advance t k).tasks, p = (t, k) ∨ p ∈ s.tasks := by
    intro s t k
    unfold StoreSys.advance
    split
    · exact ⟨rfl, fun p hp => Or.inr (List.mem_filter.mp hp).1⟩
    · refine ⟨rfl, fun p hp => ?_⟩
      rcases List.mem_cons.mp hp with rfl | hp
      · exact Or.inl rfl
      · exact Or.inr (List.mem_filter.mp hp).1
  intro es
  induction es with
  | nil => intro s hc _ _; exact ⟨hc, rfl⟩
  | cons e es ih =>
    intro s hc ht hS
    show ((s.step legacy e).run legacy es).host.Closed ∧ ((s.step legacy e).run legacy es).host.look q = s.host.look q
    have hS' : ∀ t op swap, StoreEvent.start t op swap ∈ es → S op.id := fun t op swap h => hS t op swap (List.mem_cons_of_mem _ h)
    suffices h : (s.step legacy e).host.Closed ∧ (s.step legacy e).host.look q = s.host.look q ∧
        ∀ p ∈ (s.step legacy e).tasks, OwnCalls (layoutPaths legacy) p.2 ∧ S p.2.op.id by
      obtain ⟨h1, h2⟩ := ih h.1 h.2.2 hS'
      exact ⟨h1, h2.trans h.2.1⟩
    cases e with
    | start t op swap =>
      simp only [StoreSys.step, storePaths_eq]
      split
      · split
        · exact ⟨hc, rfl, ht⟩
        · refine ⟨hc, rfl, fun p hp => ?_⟩
          rcases List.mem_cons.mp hp with rfl | hp
          · rename_i h1 _
            injection h1 with h1
            subst h1
            exact ⟨own_calls L op swap, hS t op swap (by simp)⟩
          · exact ht p (List.mem_filter.mp hp).1
      · exact ⟨hc, rfl, ht⟩
    | call t fault =>
      simp only [StoreSys.step]
      split
      · rename_i op swap c cs got hk
        obtain ⟨ho, hs⟩ := ht _ (FileTab.lookup_mem' hk)
        have hoc : OwnPath (layoutPaths legacy) op.id c.path := ho c (by simp)
        have hrest : ∀ got', OwnCalls (layoutPaths legacy) ⟨op, swap, cs, got'⟩ ∧ S op.id :=
          fun _ => ⟨fun c' h' => ho c' (List.mem_cons_of_mem _ h'), hs⟩
        have hgood : ∀ h' r, s.host.attempt fault c = .ok (h', r) → h'.Closed ∧ h'.look q = s.host.look q := by
          intro h' r hr
          cases fault with
          | some e => cases hr
          | none =>
            exact ⟨HostDir.Closed.call hc (own_ne L hoc) hr, HostDir.call_frame hr (q := q) fun e => hq _ hs (e ▸ hoc)⟩
        split
        · split
          · exact ⟨hc, rfl, fun p hp => ht p (List.mem_filter.mp hp).1⟩
          · obtain ⟨h1, h2⟩ := hadv s t ⟨op, swap, cs, got⟩
            rw [h1]
            refine ⟨hc, rfl, fun p hp => ?_⟩
            rcases h2 p hp with rfl | hp
            · exact hrest _
            · exact ht p hp
        · rename_i h' hr
          obtain ⟨h1, h2⟩ := hadv { s with host := h' } t ⟨op, swap, cs, got⟩
          rw [h1]
          refine ⟨(hgood _ _ hr).1, (hgood _ _ hr).2, fun p hp => ?_⟩
          rcases h2 p hp with rfl | hp
          · exact hrest _
          · exact ht p hp
        · rename_i h' n hr
          obtain ⟨h1, h2⟩ := hadv { s with host := h' } t ⟨op, swap, cs, n :: got⟩
          rw [h1]
          refine ⟨(hgood _ _ hr).1, (hgood _ _ hr).2, fun p hp => ?_⟩
          rcases h2 p hp with rfl | hp
          · exact hrest _
          · exact ht p hp
      · exact ⟨hc, rfl, ht⟩

end Securefs
