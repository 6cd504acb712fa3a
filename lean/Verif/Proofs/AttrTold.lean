import Verif.Proofs.AttrMoments
import Verif.Proofs.DataSerial
import Verif.Proofs.VolThreadsRun
/-!
# Helper lemmas: what is told was true at one moment
-/

namespace Securefs.Am
open Spec Mo Dm

/-! ## Calls that have not returned, and other events -/

/-- A thread that has not returned is between two sections, or has thrown. -/
theorem not_returned {cfg : FsCfg} {i : Nat} {op : FullOp} {s : FullSys} (evs : List FullEvent) (hp : s.threads[i]? = some (op.prog cfg))
    (hn : ¬ Returned (s.run cfg evs) i) : AttrCut cfg (moments cfg i s evs) op := by
  have h := always_attr cfg op
  have done : ∀ evs e, (s.run cfg evs).threads[i]? = some (.throw e) → AttrCut cfg (moments cfg i s evs) op := by
    intro evs e he
    rcases (Always.history evs hp h).2.1 e he with h | ⟨_, h⟩ <;> exact h
  have hex : ∃ p, (s.run cfg evs).threads[i]? = some p := by
    have hlen : ∀ (evs : List FullEvent) (s : FullSys), s.threads.length ≤ (s.run cfg evs).threads.length := by
      intro evs
      induction evs with
      | nil => exact fun s => Nat.le_refl _
      | cons e evs ih =>
        intro s
        refine Nat.le_trans ?_ (ih (s.step cfg e))
        by_cases hs : ∃ op, e = .start op
        · obtain ⟨op, rfl⟩ := hs
          show _ ≤ (s.threads ++ [op.prog cfg]).length
          rw [List.length_append]
          omega
        · rw [step_length cfg s e fun op he => hs ⟨op, he⟩]
    have := Nat.lt_of_lt_of_le (started_lt' hp) (hlen evs s)
    exact ⟨_, List.getElem?_eq_getElem this⟩
  obtain ⟨p, hpe⟩ := hex
  cases p with
  | ret v => exact absurd ⟨v, hpe⟩ hn
  | throw e => exact done evs e hpe
  | sec f k =>
    have h1 := done (evs ++ [.fail i (.vfs 5)]) (.vfs 5) (by
      rw [run_snoc]
      unfold FullSys.step
      dsimp only
      rw [hpe]
      exact List.getElem?_set_self (started_lt' hpe))
    rw [moments_snoc] at h1
    have : momentOf cfg i (s.run cfg evs) (.fail i (.vfs 5)) = [] := rfl
    rw [this, List.append_nil] at h1
    exact h1

theorem between (cfg : FsCfg) (s : FullSys) (e : FullEvent) (he : ∀ i, e ≠ .step i) (id : Bytes) :
    owned (s.step cfg e).fs id = owned s.fs id ∨ (e = .reap id ∧ linkCount s.fs id = 0 ∧ owned (s.step cfg e).fs id = none) := by
  cases e with
  | start op => exact .inl rfl
  | step i => exact absurd rfl (he i)
  | fail j e =>
    refine .inl ?_
    unfold FullSys.step
    dsimp only
    split <;> rfl
  | tick now => exact .inl rfl
  | evict id' =>
    refine .inl ?_
    unfold FullSys.step
    dsimp only
    cases hg : s.fs.get id' with
    | none => rfl
    | some n =>
      dsimp only
      rw [owned_set hg]
      split
      · rename_i he
        subst he
        rw [owned_get, hg]
        rfl
      · rfl
  | reap id' =>
    unfold FullSys.step
    dsimp only
    cases hg : s.fs.get id' with
    | none => exact .inl rfl
    | some n =>
      dsimp only
      split
      · rename_i hc
        by_cases hid : id' = id
        · subst hid
          refine .inr ⟨rfl, ?_, ?_⟩
          · unfold linkCount
            rw [hg]
            dsimp only
            rw [hc.1]
            rfl
          · have := contents_filter_self (fs := s.fs) (id := id')
            rw [contents_get] at this
            rw [owned_get]
            revert this
            cases ({ s.fs with nodes := s.fs.nodes.filter fun p => p.1 ≠ id' } : FullFs).get id' with
            | none => exact fun _ => rfl
            | some n => intro h; cases h
        · refine .inl ?_
          have hlk : ∀ l : List (Bytes × Inode), (l.filter fun p => p.1 ≠ id').lookup id = l.lookup id := by
            intro l
            induction l with
            | nil => rfl
            | cons x l ih =>
              obtain ⟨a, n⟩ := x
              by_cases ha : a = id'
              · subst ha
                rw [List.filter_cons_of_neg (by simp), List.lookup_cons]
                have : (id == a) = false := by simpa using fun e => hid e.symm
                rw [this]
                exact ih
              · rw [List.filter_cons_of_pos (by simpa using ha), List.lookup_cons, List.lookup_cons, ih]
          rw [owned_get, owned_get]
          unfold FullFs.get
          rw [hlk]
      · exact .inl rfl

/-! ## What is told -/

theorem ran_always {α : Type} {p : Prog α} {ms : List Moment} {r : Res α} (h : Ran p ms r) :
    ∀ {R : List Moment → Option (Res α) → Prop}, Always p R → R ms (some r) := by
  induction h with
  | ret a => exact fun h => h
  | throw e => exact fun h => h
  | @stop β f k fs fs' e hf =>
    intro R h
    have := h.2 fs
    rw [hf] at this
    exact this
  | @go β f k fs fs' b ms r hf _ ih =>
    intro R h
    have := h.2 fs
    rw [hf] at this
    exact ih this

/-- What is to hold of all executions. -/
def ToldR (same : Bytes → Bytes → Bool) (op : FullOp) (ms : List Moment) (r : Option (Res VolAnswer)) : Prop := ∀ x, r = some (.ok x) → Told same ms op x

theorem told_code {cfg : FsCfg} {op : FullOp} (h : ∀ ms n, Told cfg.same ms op (.code n)) {p : Prog Int} :
    Always (p.bind fun n => .ret (.code n)) (ToldR cfg.same op) := by
  refine Always.bind (R' := fun _ _ => True) ((always_ran p).mono fun _ _ _ => trivial) (fun ms n _ => ?_) (fun _ _ _ x e => by cases e) fun _ _ x e => by cases e
  intro x e
  cases e
  exact h _ _

theorem stat_ok {cfg : FsCfg} {h : FH} {fs fs' : FullFs} {st : FullStat} (e : secStat cfg ⟨none, none⟩ h fs = (.ok st, fs')) :
    ∃ f, viewOf fs h.id = some f ∧ Shows st h.id f ∧ (h.cls ≠ 4 → st.size = some f.data.length) := by
  unfold secStat Sec.file at e
  cases hg : fs.get h.id with
  | none => rw [hg] at e; cases e
  | some n =>
    rw [hg] at e
    injection e with e _
    injection e with e
    subst e
    refine ⟨viewFile n, by simp [viewOf, hg], ⟨rfl, rfl, rfl, rfl, rfl, fun _ m hm => ?_⟩, fun hc => if_neg hc⟩
    dsimp only at hm
    split at hm
    · cases hm
    · injection hm with hm
      exact hm.symm

theorem fill_ok {fill : Nat → Int} : ∀ {l : List DirEntry} {i : Nat} {items : List DirItem}, fillEntries fill i l = .ok items → items = l.map itemOf
  | [], _, _, h => by
    rw [fillEntries] at h
    injection h with h
    exact h.symm
  | e :: l, i, items, h => by
    rw [fillEntries] at h
    split at h
    · cases h
    · cases h1 : fillEntries fill (i + 1) l with
      | error er => rw [h1] at h; cases h
      | ok r =>
        rw [h1] at h
        injection h with h
        rw [← h, fill_ok h1]
        rfl

theorem readdir_ok {cfg : FsCfg} {fill : Nat → Int} {h : FH} {fs fs' : FullFs} {l : List DirItem} (e : secReaddir cfg fill h fs = (.ok l, fs')) :
    ∃ f p, viewOf fs h.id = some f ∧ l = ⟨[46], shownInode h.id, 0x4000⟩ :: ⟨[46, 46], shownInode p, 0x4000⟩ :: f.entries.map itemOf := by
  unfold secReaddir Sec.dir Sec.file at e
  cases hg : fs.get h.id with
  | none => rw [hg] at e; cases e
  | some n =>
    rw [hg] at e
    dsimp only at e
    cases hc : castAs h typeDirectory n with
    | error er => rw [hc] at e; cases e
    | ok _ =>
      rw [hc] at e
      injection e with e _
      dsimp only at e
      cases hf : fillEntries fill 0 n.entries with
      | error er => rw [hf] at e; cases e
      | ok r =>
        rw [hf] at e
        injection e with e
        refine ⟨viewFile n, n.parent, by simp [viewOf, hg], ?_⟩
        rw [← e, fill_ok hf]
        rfl

theorem create_handle (cfg : FsCfg) (path : Bytes) (mode : UInt32) (type : Nat) (uid gid : UInt32) (id : Bytes) :
    Always (createFile cfg path mode type uid gid id) fun _ r => ∀ h, r = some (.ok h) → h = ⟨id, type⟩ := by
  refine (always_born cfg path mode type uid gid id).mono fun ms r hr h e => ?_
  subst e
  exact hr.1

theorem always_told (cfg : FsCfg) (op : FullOp) : Always (idealOp cfg op) (ToldR cfg.same op) := by
  cases op with
  | create p m u g i =>
    show Always (((createFile cfg p m typeRegular u g i).bind fun h => .ret (0, some h)).bind fun r => .ret (VolAnswer.handle r.1 r.2)) _
    rw [Dm.bind_assoc]
    refine Always.bind (create_handle cfg p m typeRegular u g i) (fun ms h hh => ?_) (fun _ _ _ x e => by cases e) fun _ _ x e => by cases e
    intro x e
    cases e
    rw [hh h rfl]
    rfl
  | getattr p =>
    show Always ((fullGetattr cfg ⟨none, none⟩ p).bind fun r => .ret (VolAnswer.stat r.1 r.2)) _
    unfold fullGetattr
    rw [Dm.bind_assoc]
    refine Always.bind (always_openAll cfg p false) (fun a r ha => ?_) (fun _ _ _ x e => by cases e) fun _ _ x e => by cases e
    cases r with
    | none =>
      intro x e
      cases e
      rw [List.append_nil]
      exact .inr ⟨rfl, ha.2⟩
    | some h =>
      refine Always.sec (fun x e => by cases e) (fun _ _ _ _ x e => by cases e) fun fs st fs' hf => ?_
      intro x e
      cases e
      obtain ⟨f, h1, h2, _⟩ := stat_ok hf
      exact .inl ⟨a, _, h.id, f, st, rfl, ha.2, h1, rfl, h2⟩
  | «open» p tr =>
    show Always ((fullOpen cfg p tr).bind fun r => .ret (VolAnswer.handle r.1 r.2)) _
    unfold fullOpen
    rw [Dm.bind_assoc]
    refine Always.bind (always_openAll cfg p true) (fun a r ha => ?_) (fun _ _ _ x e => by cases e) fun _ _ x e => by cases e
    cases r with
    | none =>
      intro x e
      cases e
      rw [List.append_nil]
      exact .inr ⟨rfl, ha.2⟩
    | some h =>
      cases tr with
      | false =>
        intro x e
        cases e
        exact .inl ⟨a, [], h, rfl, ha.2, rfl⟩
      | true =>
        refine Always.sec (fun x e => by cases e) (fun _ _ _ _ x e => by cases e) fun fs st fs' hf => ?_
        intro x e
        cases e
        exact .inl ⟨a, _, h, rfl, ha.2, rfl⟩
  | readlink p n =>
    show Always ((fullReadlink cfg p n).bind fun r => .ret (VolAnswer.bytes r.1 r.2)) _
    unfold fullReadlink
    split
    · next hn =>
      intro x e
      cases e
      exact .inr (.inr (.inr ⟨rfl, hn⟩))
    · next hn =>
      split
      · next hp =>
        intro x e
        cases e
        exact .inr (.inr (.inl ⟨rfl, hp⟩))
      · rw [Dm.bind_assoc]
        refine Always.bind (always_openAll cfg p false) (fun a r ha => ?_) (fun _ _ _ x e => by cases e) fun _ _ x e => by cases e
        cases r with
        | none =>
          intro x e
          cases e
          rw [List.append_nil]
          exact .inr (.inl ⟨rfl, ha.2⟩)
        | some h =>
          refine Always.sec (fun x e => by cases e) (fun _ _ _ _ x e => by cases e) fun fs t fs' hf => ?_
          intro x e
          cases e
          obtain ⟨f, h1, h2⟩ := linkGet_ok hf
          subst h2
          exact .inl ⟨a, _, h.id, f, rfl, ha.2, h1, rfl, hn⟩
  | opendir p =>
    show Always ((fullOpendir cfg p).bind fun r => .ret (VolAnswer.handle r.1 r.2)) _
    unfold fullOpendir
    rw [Dm.bind_assoc]
    refine Always.bind (always_openAll cfg p true) (fun a r ha => ?_) (fun _ _ _ x e => by cases e) fun _ _ x e => by cases e
    cases r with
    | none =>
      intro x e
      cases e
      rw [List.append_nil]
      exact .inr (.inl ⟨rfl, ha.2⟩)
    | some h =>
      dsimp only
      split
      · intro x e
        cases e
        rw [List.append_nil]
        exact .inr (.inr ⟨rfl, h.id, ha.2⟩)
      · next hc =>
        intro x e
        cases e
        rw [List.append_nil]
        exact .inl ⟨h, ha.2, not_not.mp hc, rfl⟩
  | read h off len =>
    show Always ((Prog.one (secRead cfg h off len)).bind fun b => .ret (VolAnswer.bytes (toCInt b.length) b)) _
    refine Always.sec (fun x e => by cases e) (fun _ _ _ _ x e => by cases e) fun fs b fs' hf => ?_
    intro x e
    cases e
    unfold secRead Sec.reg Sec.file at hf
    cases hg : fs.get h.id with
    | none => rw [hg] at hf; cases hf
    | some n =>
      rw [hg] at hf
      dsimp only at hf
      cases hc : castAs h typeRegular n with
      | error e => rw [hc] at hf; cases hf
      | ok _ =>
        rw [hc] at hf
        injection hf with hf _
        injection hf with hf
        subst hf
        refine ⟨_, n.data, _, rfl, ?_, rfl⟩
        show contents fs h.id = _
        rw [contents_get, hg]
        rfl
  | fgetattr h =>
    show Always ((Prog.one (secStat cfg ⟨none, none⟩ h)).bind fun st => .ret (VolAnswer.stat 0 (some st))) _
    refine Always.sec (fun x e => by cases e) (fun _ _ _ _ x e => by cases e) fun fs st fs' hf => ?_
    intro x e
    cases e
    obtain ⟨f, h1, h2, h3⟩ := stat_ok hf
    exact ⟨_, f, st, rfl, h1, rfl, h2, fun hc _ => h3 hc⟩
  | readdir h fill =>
    show Always ((fullReaddir cfg fill h).bind fun r => .ret (VolAnswer.items r.1 r.2)) _
    unfold fullReaddir
    split
    · next hc =>
      intro x e
      cases e
      exact .inr ⟨rfl, hc⟩
    · refine Always.sec (fun x e => by cases e) (fun _ _ _ _ x e => by cases e) fun fs l fs' hf => ?_
      intro x e
      cases e
      obtain ⟨f, p, h1, h2⟩ := readdir_ok hf
      exact .inl ⟨_, f, l, p, rfl, h1, rfl, h2 ▸ List.Perm.refl _⟩
  | mkdir | symlink | unlink | rmdir | link | rename | chmod | chown | utimens | truncate | write | ftruncate | flush | fsync =>
    refine told_code fun _ n => ?_
    exact ⟨n, rfl⟩

theorem bind_ran {α β : Type} {g : α → β} : ∀ {p : Prog α} {ms : List Moment} {b : β}, Ran (p.bind fun a => .ret (g a)) ms (.ok b) → ∃ a, Ran p ms (.ok a) ∧ g a = b
  | .ret a, _, _, h => by
    cases h
    exact ⟨a, .ret a, rfl⟩
  | .throw _, _, _, h => by cases h
  | .sec f k, ms, b, h => by
    have h' : Ran (.sec f fun x => (k x).bind fun a => .ret (g a)) ms (.ok b) := h
    cases h' with
    | go hf hk =>
      obtain ⟨a, h1, h2⟩ := bind_ran hk
      exact ⟨a, .go hf h1, h2⟩

theorem told_ran {cfg : FsCfg} {op : FullOp} {ms : List Moment} {x : VolAnswer} (h : Ran (idealOp cfg op) ms (.ok x)) : Told cfg.same ms op x :=
  ran_always h (always_told cfg op) x rfl

theorem shows_like {a b : FullStat} {id : Bytes} {f : AFile} (h : Shows b id f) (hl : StatLike a b) : Shows a id f := by
  obtain ⟨l1, l2, l3, l4, l5, l6⟩ := hl
  refine ⟨l1.trans h.ino, l2.trans h.uid, l3.trans h.gid, l4.trans h.nlink, l5.trans h.mode, fun hd n hn => ?_⟩
  have hm : a.mode &&& 0xf000 ≠ 0x4000 := by rw [l5, h.mode]; exact hd
  exact h.size hd n ((l6 hm).1 ▸ hn)

theorem like_code {x : VolAnswer} {n : Int} (h : VolAnswerLike x (.code n)) : x = .code n := by
  cases x with
  | stat m s => cases s <;> cases h
  | _ => exact h

theorem like_bytes {x : VolAnswer} {n : Int} {b : Bytes} (h : VolAnswerLike x (.bytes n b)) : x = .bytes n b := by
  cases x with
  | stat m s => cases s <;> cases h
  | _ => exact h

theorem like_handle {x : VolAnswer} {n : Int} {b : Option FH} (h : VolAnswerLike x (.handle n b)) : x = .handle n b := by
  cases x with
  | stat m s => cases s <;> cases h
  | _ => exact h


theorem like_stat {x : VolAnswer} {n : Int} {st : FullStat} (h : VolAnswerLike x (.stat n (some st))) : ∃ st', x = .stat n (some st') ∧ StatLike st' st := by
  cases x with
  | stat m s =>
    cases s with
    | none => cases h
    | some s => exact ⟨s, by rw [h.1], h.2⟩
  | _ => cases h

theorem like_stat_none {x : VolAnswer} {n : Int} (h : VolAnswerLike x (.stat n none)) : x = .stat n none := by
  cases x with
  | stat m s => cases s <;> exact h
  | _ => cases h

theorem like_items {x : VolAnswer} {n : Int} {l : List DirItem} (h : VolAnswerLike x (.items n l)) : ∃ l', x = .items n l' ∧ l'.Perm l := by
  cases x with
  | items m k => exact ⟨k, by rw [h.1], h.2⟩
  | stat m s => cases s <;> cases h
  | _ => cases h

theorem told_like {same : Bytes → Bytes → Bool} {op : FullOp} {ms : List Moment} {x y : VolAnswer} (h : Told same ms op y) (hl : VolAnswerLike x y) :
    Told same ms op x := by
  cases op with
  | getattr p =>
    rcases h with ⟨a, m, id, f, st, h1, h2, h3, rfl, h5⟩ | ⟨rfl, h1⟩
    · obtain ⟨st', rfl, hs⟩ := like_stat hl
      exact .inl ⟨a, m, id, f, st', h1, h2, h3, rfl, shows_like h5 hs⟩
    · exact .inr ⟨like_stat_none hl, h1⟩
  | fgetattr hh =>
    obtain ⟨m, f, st, h1, h2, rfl, h4, h5⟩ := h
    obtain ⟨st', rfl, hs⟩ := like_stat hl
    refine ⟨m, f, st', h1, h2, rfl, shows_like h4 hs, fun hc hd => ?_⟩
    have hm : st'.mode &&& 0xf000 ≠ 0x4000 := by rw [hs.2.2.2.2.1, h4.mode]; exact hd
    rw [(hs.2.2.2.2.2 hm).1]
    exact h5 hc hd
  | readlink p n =>
    rcases h with ⟨a, m, id, f, h1, h2, h3, rfl, h5⟩ | ⟨rfl, h1⟩ | ⟨rfl, h1⟩ | ⟨rfl, h1⟩
    · exact .inl ⟨a, m, id, f, h1, h2, h3, like_bytes hl, h5⟩
    · exact .inr (.inl ⟨like_bytes hl, h1⟩)
    · exact .inr (.inr (.inl ⟨like_bytes hl, h1⟩))
    · exact .inr (.inr (.inr ⟨like_bytes hl, h1⟩))
  | readdir hh fill =>
    rcases h with ⟨m, f, l, p, h1, h2, rfl, h4⟩ | ⟨rfl, h1⟩
    · obtain ⟨l', rfl, hp⟩ := like_items hl
      exact .inl ⟨m, f, l', p, h1, h2, rfl, hp.trans h4⟩
    · obtain ⟨l', rfl, hp⟩ := like_items hl
      rw [List.perm_nil] at hp
      subst hp
      exact .inr ⟨rfl, h1⟩
  | «open» p t =>
    rcases h with ⟨a, b, hh, h1, h2, rfl⟩ | ⟨rfl, h1⟩
    · exact .inl ⟨a, b, hh, h1, h2, like_handle hl⟩
    · exact .inr ⟨like_handle hl, h1⟩
  | opendir p =>
    rcases h with ⟨hh, h1, h2, rfl⟩ | ⟨rfl, h1⟩ | ⟨rfl, h1⟩
    · exact .inl ⟨hh, h1, h2, like_handle hl⟩
    · exact .inr (.inl ⟨like_handle hl, h1⟩)
    · exact .inr (.inr ⟨like_handle hl, h1⟩)
  | create p m u g i =>
    cases h
    exact like_handle hl
  | read hh off len =>
    obtain ⟨m, b, n, h1, h2, rfl⟩ := h
    exact ⟨m, b, n, h1, h2, like_bytes hl⟩
  | mkdir | symlink | unlink | rmdir | link | rename | chmod | chown | utimens | truncate | write | ftruncate | flush | fsync =>
    obtain ⟨n, rfl⟩ := h
    exact ⟨n, like_code hl⟩

end Securefs.Am
