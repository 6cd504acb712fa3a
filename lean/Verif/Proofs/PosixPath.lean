import Verif.Spec.PosixPath
import Verif.Proofs.FullFsTree
/-!
# Paths of the full format and of POSIX (proofs)
-/

namespace Securefs

open Spec

/-- What is known of a volume: names are unique in a directory, and entries tell the type of the file. -/
structure Sound (same : Bytes → Bytes → Bool) (A : AFs) : Prop where
  eqv : SameEquiv same
  tree : DirTree A
  names : ∀ d f, A d = some f → f.entries.Pairwise fun a b => same a.name b.name = false

theorem sound_seq {cfg : FsCfg} (hs : SameEquiv cfg.same) {fs : FullFs} (h : SeqInv cfg fs) : Sound cfg.same (viewOf fs) := by
  refine ⟨hs, h.inv.tree, fun d f hf => ?_⟩
  unfold viewOf at hf
  cases hg : fs.get d with
  | none => rw [hg] at hf; cases hf
  | some n =>
    rw [hg] at hf
    injection hf with hf
    subst hf
    exact wf_entries h.wf hg

section
variable {same : Bytes → Bytes → Bool} {A : AFs}

theorem find_unique (hs : SameEquiv same) {l : List DirEntry} (hl : l.Pairwise fun a b => same a.name b.name = false) {e : DirEntry} (he : e ∈ l) {s : Bytes}
    (hse : same s e.name = true) : (l.find? fun e => same s e.name) = some e := by
  induction l with
  | nil => cases he
  | cons x l ih =>
    obtain ⟨h1, h2⟩ := List.pairwise_cons.1 hl
    rw [List.find?_cons]
    rcases List.mem_cons.1 he with rfl | he
    · rw [hse]
    · cases hx : same s x.name with
      | false => exact ih h2 he
      | true =>
        have := hs.trans _ _ _ (hs.symm _ _ hx) hse
        rw [h1 e he] at this
        cases this

/-- A name is found exactly if there is a file with it. -/
theorem lookup_named (h : Sound same A) {d s id : Bytes} {g : AFile} (hn : Named same A d s id g) :
    ∃ e, lookupIn same A d s = .ok (some e) ∧ e.id = id ∧ e.type = g.kind := by
  obtain ⟨_, _, hlen, f, e, hf, hk, he, hse, hid, hg⟩ := hn
  refine ⟨e, ?_, hid, ?_⟩
  · unfold lookupIn
    rw [hf]
    dsimp only
    rw [if_neg (by simpa using hk), if_neg (by omega), find_unique h.eqv (h.names d f hf) he hse]
  · obtain ⟨_, _, g', hg', hk'⟩ := h.tree.entry d f e hf he
    rw [hid, hg] at hg'
    injection hg' with hg'
    rw [← hk', hg']

theorem named_lookup (h : Sound same A) {d s : Bytes} {e : DirEntry} (h1 : s ≠ [46]) (h2 : s ≠ [46, 46]) (hl : lookupIn same A d s = .ok (some e)) :
    ∃ g, Named same A d s e.id g ∧ g.kind = e.type ∧ A e.id = some g := by
  unfold lookupIn at hl
  split at hl
  · cases hl
  · rename_i f hf
    split at hl
    · cases hl
    · rename_i hk
      split at hl
      · cases hl
      · rename_i hlen
        injection hl with hl
        have hm := List.mem_of_find?_eq_some hl
        obtain ⟨_, _, g, hg, hk'⟩ := h.tree.entry d f e hf hm
        exact ⟨g, ⟨h1, h2, by omega, f, e, hf, by simpa using hk, hm, by simpa using List.find?_some hl, rfl, hg⟩, hk', hg⟩

theorem lookup_isDir {d s : Bytes} {x : Option DirEntry} (hl : lookupIn same A d s = .ok x) : IsDir A d := by
  unfold lookupIn at hl
  split at hl
  · cases hl
  · rename_i f hf
    split at hl
    · cases hl
    · rename_i hk; exact ⟨f, hf, by simpa using hk⟩

theorem resolve_cons (n : Nat) (p : Place) (s : Bytes) (rest : List Bytes) (h1 : s ≠ [46]) (h2 : s ≠ [46, 46]) :
    resolve same A (n + 1) p (s :: rest) =
      match lookupIn same A p.1 s with
      | .error e => .error e
      | .ok none => .ok none
      | .ok (some e) =>
        if e.type = 10 then
          match A e.id with
          | none => .error (.vfs 2)
          | some f =>
            match resolve same A n p (parts f.data) with
            | .error e => .error e
            | .ok none => .ok none
            | .ok (some p') => resolve same A (n + 1) p' rest
        else resolve same A (n + 1) (e.id, p.1 :: p.2) rest := by
  simp only [resolve]
  rw [resolveWith, if_neg h1, if_neg h2]
  rfl

/-- What POSIX finds, the full format finds. -/
theorem leads_resolve (h : Sound same A) {n : Nat} {p q : Place} {l : List Bytes} (hl : LeadsTo same A n p l q) : resolve same A n p l = .ok (some q) := by
  induction hl with
  | here n p => rfl
  | dot hd _ ih =>
    rw [← ih]
    simp only [resolve]
    rw [resolveWith, if_pos rfl]
  | up hd _ ih =>
    rw [← ih]
    simp only [resolve]
    rw [resolveWith, if_neg (by decide), if_pos rfl]
  | down hn hk _ ih =>
    obtain ⟨e, he, hid, ht⟩ := lookup_named h hn
    rw [resolve_cons _ _ _ _ hn.1 hn.2.1, he]
    dsimp only
    rw [if_neg (by rw [ht]; exact hk), hid]
    exact ih
  | link hn hk _ _ _ _ _ ih1 ih2 =>
    obtain ⟨e, he, hid, ht⟩ := lookup_named h hn
    rw [resolve_cons _ _ _ _ hn.1 hn.2.1, he]
    dsimp only
    rw [if_pos (by rw [ht]; exact hk), hid]
    obtain ⟨_, _, _, _, _, _, _, _, _, _, hg⟩ := hn
    rw [hg]
    dsimp only
    rw [ih1]
    exact ih2

/-- What the full format finds without detours, POSIX finds. -/
theorem resolve_leads (h : Sound same A) (hp : PlainLinks A) : ∀ (n : Nat) (l : List Bytes) {p q : Place}, NoDots l → resolve same A n p l = .ok (some q) → LeadsTo same A n p l q
  | 0, _, _, _, _, hr => by rw [resolve] at hr; cases hr
  | n + 1, [], p, q, _, hr => by
    simp only [resolve, resolveWith] at hr
    injection hr with hr
    injection hr with hr
    subst hr
    exact .here n p
  | n + 1, s :: rest, p, q, hd, hr => by
    obtain ⟨h1, h2⟩ := hd s (by simp)
    have hd' : NoDots rest := fun x hx => hd x (by simp [hx])
    rw [resolve_cons _ _ _ _ h1 h2] at hr
    cases hl : lookupIn same A p.1 s with
    | error e => rw [hl] at hr; cases hr
    | ok x =>
      rw [hl] at hr
      cases x with
      | none => injection hr with hr; cases hr
      | some e =>
        dsimp only at hr
        obtain ⟨g, hn, hk, hg⟩ := named_lookup h h1 h2 hl
        split at hr
        · rename_i ht
          rw [hg] at hr
          dsimp only at hr
          obtain ⟨k1, k2, k3, k4⟩ := hp _ _ hg (by rw [hk, ht])
          cases hr' : resolve same A n p (parts g.data) with
          | error e => rw [hr'] at hr; cases hr
          | ok y =>
            rw [hr'] at hr
            cases y with
            | none => injection hr with hr; cases hr
            | some p' =>
              dsimp only at hr
              exact .link hn (by rw [hk, ht]) k1 k2 (resolve_leads h hp n _ k4 hr') (fun hx => absurd hx k3) (resolve_leads h hp (n + 1) rest hd' hr)
        · rename_i ht
          exact .down hn (by rw [hk]; exact ht) (resolve_leads h hp (n + 1) rest hd' hr)

theorem parts_root : parts [47] = [] := by decide

theorem pathLeads_resolve (h : Sound same A) {path : Bytes} {follow : Bool} {q : Place} (hl : PathLeadsTo same A 16 path follow q) (he : EndsWithName path) :
    resolvePath same A path follow = .ok (some q) := by
  obtain ⟨hh, _, hq⟩ := hl
  unfold resolvePath
  by_cases hr : path = [] ∨ path = [47]
  · rw [if_pos hr]
    rcases hr with rfl | rfl
    · cases hh
    · rw [parts_root] at hq
      dsimp only [List.getLast?] at hq
      rw [hq]
  · rw [if_neg hr]
    rcases he with he | ⟨last, he, h1, h2⟩
    · exact absurd (.inr he) hr
    · rw [he] at hq
      obtain ⟨p, hp, hd, hq⟩ := hq
      unfold resolveParent
      rw [he]
      dsimp only
      rw [leads_resolve h hp]
      dsimp only
      rcases hq with ⟨hx, _⟩ | ⟨hx, _⟩ | ⟨id, g, hn, hq⟩
      · exact absurd hx h1
      · exact absurd hx h2
      · obtain ⟨e, he, hid, ht⟩ := lookup_named h hn
        rw [he]
        dsimp only
        rcases hq with ⟨hk, hq⟩ | ⟨hk, hf, _, _, _, hq⟩
        · rw [if_neg, hq, hid]
          rintro ⟨h3, h4⟩
          rcases hk with hk | hk
          · exact hk (by rw [← ht, h4])
          · rw [hk] at h3; cases h3
        · rw [if_pos ⟨hf, by rw [ht, hk]⟩, hid]
          obtain ⟨_, _, _, _, _, _, _, _, _, _, hg⟩ := hn
          rw [hg]
          exact leads_resolve h hq

theorem resolve_pathLeads (h : Sound same A) (hp : PlainLinks A) {path : Bytes} {follow : Bool} {q : Place} (hh : path.head? = some 47)
    (hlast : path = [47] ∨ path.getLast? ≠ some 47) (hd : NoDots (parts path)) (he : EndsWithName path) (hr : resolvePath same A path follow = .ok (some q)) :
    PathLeadsTo same A 16 path follow q := by
  unfold resolvePath at hr
  by_cases hx : path = [] ∨ path = [47]
  · rw [if_pos hx] at hr
    rcases hx with rfl | rfl
    · cases hh
    · injection hr with hr
      injection hr with hr
      subst hr
      exact ⟨rfl, fun _ => h.tree.root, by rw [parts_root]; rfl⟩
  · rw [if_neg hx] at hr
    have hl' : path.getLast? ≠ some 47 := hlast.resolve_left fun e => hx (.inr e)
    rcases he with he | ⟨last, he, h1, h2⟩
    · exact absurd (.inr he) hx
    · unfold resolveParent at hr
      rw [he] at hr
      dsimp only at hr
      refine ⟨hh, fun hy => absurd hy hl', ?_⟩
      rw [he]
      dsimp only
      cases hb : resolve same A 16 rootPlace (parts path).dropLast with
      | error e => rw [hb] at hr; cases hr
      | ok x =>
        rw [hb] at hr
        cases x with
        | none => cases hr
        | some p =>
          dsimp only at hr
          cases hl : lookupIn same A p.1 last with
          | error e => rw [hl] at hr; cases hr
          | ok x =>
            rw [hl] at hr
            cases x with
            | none => injection hr with hr; cases hr
            | some e =>
              dsimp only at hr
              obtain ⟨g, hn, hk, hg⟩ := named_lookup h h1 h2 hl
              refine ⟨p, resolve_leads h hp 16 _ (fun s hs => hd s (List.dropLast_subset _ hs)) hb, lookup_isDir hl, .inr (.inr ⟨e.id, g, hn, ?_⟩)⟩
              split at hr
              · rename_i ht
                rw [hg] at hr
                dsimp only at hr
                obtain ⟨k1, k2, k3, k4⟩ := hp _ _ hg (by rw [hk, ht.2])
                exact .inr ⟨by rw [hk, ht.2], ht.1, k1, k2, fun hy => absurd hy k3, resolve_leads h hp 16 _ k4 hr⟩
              · rename_i ht
                injection hr with hr
                injection hr with hr
                refine .inl ⟨?_, hr.symm⟩
                cases follow with
                | false => exact .inr rfl
                | true => exact .inl (fun hk' => ht ⟨rfl, by rw [← hk, hk']⟩)

end

end Securefs
