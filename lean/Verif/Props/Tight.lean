import Verif.Props.LiteFs
import Verif.Props.Btree
/-!
# C26, C29: calls that are refused, and pages that end early

Parts of these properties that speak of the cases in which nothing is to be done.
-/

namespace Securefs.Props

open Securefs

/-! ## C26 -/

/-- What adds an entry, and to which directory under which name. -/
def LOp.adds? : LOp → Option (Nat × Bytes)
  | .create d v _ _ _ => some (d, v)
  | .symlink d v _ _ _ => some (d, v)
  | .link _ d v _ _ => some (d, v)
  | .mkdir d v _ _ _ => some (d, v)
  | _ => none

theorem upd_back {α : Type} (f : Nat → α) (d : Nat) (x : α) : upd (upd f d x) d (f d) = f := by
  funext k
  unfold upd
  by_cases h : k = d
  · rw [if_pos h, h]
  · rw [if_neg h, if_neg h]

theorem withLongName_refused {d : Nat} {n : LName} {a : LAction} {commit : Bool} {cb : LTree → LOutcome} {t : LTree} {e : Nat}
    (h : ∀ t' : LTree, t'.entries = t.entries → cb t' = (some e, t')) : withLongName d n a commit cb t = (some e, t) := by
  unfold withLongName
  split
  · exact h t rfl
  · simp only
    rw [h { t with rows := upd t.rows d (a.apply n (t.rows d)) } rfl]
    dsimp only
    rw [upd_back]

/-- C26: a call that adds a name which is there is refused, whatever the system does: with `EEXIST` unless it fails for another reason.  Nothing changes,
    neither the directories nor the tables of long names. -/
theorem C26_refused (T : NewStyle) (t : LTree) (op : LOp) (d : Nat) (v : Bytes) (ho : LOp.adds? op = some (d, v)) (b : Bytes) (he : T.encodeComponent v = .ok b)
    (node : LNode) (hn : (t.entries d).lookup b = some node) : ∃ e, T.step t op = (some e, t) := by
  have hl : (∃ er, T.lname v = .error er) ∨ ∃ n, T.lname v = .ok n ∧ n.backing = b := by
    unfold NewStyle.lname
    rw [he]
    dsimp only
    split
    · cases encodeName T.siv v with
      | error e => exact .inl ⟨e, rfl⟩
      | ok c => exact .inr ⟨_, rfl, rfl⟩
    · exact .inr ⟨_, rfl, rfl⟩
  have call : ∀ (fault : Option Nat) (body : LTree → LOutcome), (∀ t' : LTree, t'.entries = t.entries → body t' = (some 17, t')) →
      ∃ e, ∀ t' : LTree, t'.entries = t.entries → sysCall fault body t' = (some e, t') := by
    intro fault body hb
    cases fault with
    | some e => exact ⟨e, fun t' _ => rfl⟩
    | none => exact ⟨17, hb⟩
  have add : ∀ x (t' : LTree), t'.entries = t.entries → sysAdd d b x t' = (some 17, t') := by
    intro x t' h'
    unfold sysAdd
    rw [h', hn]
  have mk : ∀ id (t' : LTree), t'.entries = t.entries → sysMkdir d b id t' = (some 17, t') := by
    intro id t' h'
    unfold sysMkdir
    rw [h', hn]
  cases op with
  | create d' v' ino fault commit =>
    injection ho with ho
    cases ho
    rcases hl with ⟨er, hl⟩ | ⟨n, hl, rfl⟩
    · exact ⟨eNameTooLong, by simp only [NewStyle.step, hl]⟩
    · obtain ⟨e, h⟩ := call fault _ (add (.file ino))
      exact ⟨e, by simp only [NewStyle.step, hl]; exact withLongName_refused h⟩
  | symlink d' v' ino fault commit =>
    injection ho with ho
    cases ho
    rcases hl with ⟨er, hl⟩ | ⟨n, hl, rfl⟩
    · exact ⟨eNameTooLong, by simp only [NewStyle.step, hl]⟩
    · obtain ⟨e, h⟩ := call fault _ (add (.symlink ino))
      exact ⟨e, by simp only [NewStyle.step, hl]; exact withLongName_refused h⟩
  | link x d' v' fault commit =>
    injection ho with ho
    cases ho
    rcases hl with ⟨er, hl⟩ | ⟨n, hl, rfl⟩
    · exact ⟨eNameTooLong, by simp only [NewStyle.step, hl]⟩
    · obtain ⟨e, h⟩ := call fault _ (add x)
      exact ⟨e, by simp only [NewStyle.step, hl]; exact withLongName_refused h⟩
  | mkdir d' v' id fault commit =>
    injection ho with ho
    cases ho
    rcases hl with ⟨er, hl⟩ | ⟨n, hl, rfl⟩
    · exact ⟨eNameTooLong, by simp only [NewStyle.step, hl]⟩
    · obtain ⟨e, h⟩ := call fault _ (mk id)
      exact ⟨e, by simp only [NewStyle.step, hl]; exact withLongName_refused h⟩
  | _ => cases ho

/-- A long name that is there, and calls that add it again: to the name there is the file 7. -/
example : (match Toy.names.encodeComponent Toy.longA with
      | .ok b => endsWith b Toy.names.suffix && (((Toy.names.run noTree [.create 0 Toy.longA 7 none true]).entries 0).lookup b == some (.file 7))
      | .error _ => false) = true ∧
    LOp.adds? (.mkdir 0 Toy.longA 9 none true) = some (0, Toy.longA) ∧
    (Toy.names.step (Toy.names.run noTree [.create 0 Toy.longA 7 none true]) (.mkdir 0 Toy.longA 9 none true)).1 = some 17 :=
  ⟨by decide +kernel, rfl, by decide +kernel⟩

/-! ## C29 -/

theorem readLEFwd_length {w : Nat} {buf : Bytes} {v : Nat} {rest : Bytes} (h : readLEFwd w buf = .ok (v, rest)) : buf.length = w + rest.length := by
  unfold readLEFwd at h
  split at h
  · cases h
  · next hw =>
    cases hf : fromLE w buf with
    | error e => rw [hf] at h; cases h
    | ok x =>
      rw [hf] at h
      injection h with h
      cases h
      rw [List.length_drop]
      omega

theorem readFwd_length {w : Nat} {buf d rest : Bytes} (h : readFwd w buf = .ok (d, rest)) : buf.length = w + rest.length := by
  unfold readFwd at h
  split at h
  · cases h
  · injection h with h
    cases h
    rw [List.length_drop]
    omega

theorem readChildren_length : ∀ (k : Nat) {buf : Bytes} {cs : List Nat} {rest : Bytes}, readChildren k buf = .ok (cs, rest) →
    cs.length = k ∧ buf.length = 4 * k + rest.length
  | 0, _, _, _, h => by
    rw [readChildren] at h
    injection h with h
    cases h
    exact ⟨rfl, by omega⟩
  | k + 1, buf, cs, rest, h => by
    rw [readChildren] at h
    cases h1 : readLEFwd 4 buf with
    | error e => rw [h1] at h; cases h
    | ok p =>
      obtain ⟨c, b1⟩ := p
      rw [h1] at h
      dsimp only at h
      cases h2 : readChildren k b1 with
      | error e => rw [h2] at h; cases h
      | ok q =>
        obtain ⟨cs', b2⟩ := q
        rw [h2] at h
        injection h with h
        cases h
        have e1 := readLEFwd_length h1
        obtain ⟨e2, e3⟩ := readChildren_length k h2
        exact ⟨by rw [List.length_cons, e2], by omega⟩

theorem readEntry_length {buf : Bytes} {e : DirEntry} {rest : Bytes} (h : readEntry buf = .ok (e, rest)) : buf.length = 292 + rest.length := by
  unfold readEntry at h
  cases h1 : readFwd (maxFilename + 1) buf with
  | error e => rw [h1] at h; cases h
  | ok p =>
    obtain ⟨c, b1⟩ := p
    rw [h1] at h
    dsimp only at h
    cases h2 : readFwd 32 b1 with
    | error e => rw [h2] at h; cases h
    | ok q =>
      obtain ⟨id, b2⟩ := q
      rw [h2] at h
      dsimp only at h
      cases h3 : readLEFwd 4 b2 with
      | error e => rw [h3] at h; cases h
      | ok r =>
        obtain ⟨ty, b3⟩ := r
        rw [h3] at h
        injection h with h
        cases h
        have e1 := readFwd_length h1
        have e2 := readFwd_length h2
        have e3 := readLEFwd_length h3
        have hm : maxFilename = 255 := rfl
        omega

theorem readEntries_length : ∀ (k : Nat) {buf : Bytes} {es : List DirEntry} {rest : Bytes}, readEntries k buf = .ok (es, rest) →
    es.length = k ∧ buf.length = 292 * k + rest.length
  | 0, _, _, _, h => by
    rw [readEntries] at h
    injection h with h
    cases h
    exact ⟨rfl, by omega⟩
  | k + 1, buf, cs, rest, h => by
    rw [readEntries] at h
    cases h1 : readEntry buf with
    | error e => rw [h1] at h; cases h
    | ok p =>
      obtain ⟨c, b1⟩ := p
      rw [h1] at h
      dsimp only at h
      cases h2 : readEntries k b1 with
      | error e => rw [h2] at h; cases h
      | ok q =>
        obtain ⟨cs', b2⟩ := q
        rw [h2] at h
        injection h with h
        cases h
        have e1 := readEntry_length h1
        obtain ⟨e2, e3⟩ := readEntries_length k h2
        exact ⟨by rw [List.length_cons, e2], by omega⟩

/-- C29: whatever the bytes of a page are, a node that is read from it has all its children and entries inside the page; a page that ends before is refused.
    So a page of 4096 bytes gives at most 1022 children and 14 entries, and nothing is read behind it. -/
theorem C29_inside (buf : Bytes) (cs : List Nat) (es : List DirEntry) (h : fromBuffer buf = .ok (some (cs, es))) :
    8 + 4 * cs.length + 292 * es.length ≤ buf.length := by
  unfold fromBuffer at h
  cases h1 : readLEFwd 4 buf with
  | error e => rw [h1] at h; cases h
  | ok p =>
    obtain ⟨fl, b1⟩ := p
    rw [h1] at h
    dsimp only at h
    split at h
    · cases h
    · cases h2 : readLEFwd 2 b1 with
      | error e => rw [h2] at h; cases h
      | ok p =>
        obtain ⟨nc, b2⟩ := p
        rw [h2] at h
        dsimp only at h
        cases h3 : readLEFwd 2 b2 with
        | error e => rw [h3] at h; cases h
        | ok p =>
          obtain ⟨ne, b3⟩ := p
          rw [h3] at h
          dsimp only at h
          cases h4 : readChildren nc b3 with
          | error e => rw [h4] at h; cases h
          | ok p =>
            obtain ⟨cs', b4⟩ := p
            rw [h4] at h
            dsimp only at h
            cases h5 : readEntries ne b4 with
            | error e => rw [h5] at h; cases h
            | ok p =>
              obtain ⟨es', b5⟩ := p
              rw [h5] at h
              injection h with h
              cases h
              have e1 := readLEFwd_length h1
              have e2 := readLEFwd_length h2
              have e3 := readLEFwd_length h3
              obtain ⟨e4, e5⟩ := readChildren_length nc h4
              obtain ⟨e6, e7⟩ := readEntries_length ne h5
              omega

/-- A page that says it has one entry and ends before it is refused; with the entry it is read. -/
example : fromBuffer (toLE 4 1 ++ toLE 2 0 ++ toLE 2 1 ++ [97] ++ zeros 255 ++ List.replicate 32 1 ++ [1, 0]) = .error .corrupt ∧
    fromBuffer (toLE 4 1 ++ toLE 2 0 ++ toLE 2 1 ++ [97] ++ zeros 255 ++ List.replicate 32 1 ++ toLE 4 1) = .ok (some ([], [⟨[97], List.replicate 32 1, 1⟩])) :=
  ⟨by decide +kernel, by decide +kernel⟩

end Securefs.Props
