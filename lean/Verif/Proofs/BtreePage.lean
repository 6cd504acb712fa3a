import Verif.Model.Btree
import Verif.Proofs.Encoding
import Verif.Proofs.Lists
/-! Helper lemmas: the page format of the B-tree. -/

namespace Securefs

/-- An entry the format can hold (helper of the proofs; the properties state it in their own words). -/
def EntryOk (e : DirEntry) : Prop :=
  e.name.length ≤ maxFilename ∧ (∀ c ∈ e.name, c ≠ 0) ∧ e.id.length = 32 ∧ e.type < 2 ^ 32

/-- The bytes of an entry. -/
def encEntry (e : DirEntry) : Bytes :=
  e.name ++ zeros (maxFilename + 1 - e.name.length) ++ e.id ++ toLE 4 e.type

/-- The bytes of a node. -/
def encNode (cs : List Nat) (es : List DirEntry) : Bytes :=
  toLE 4 1 ++ toLE 2 cs.length ++ toLE 2 es.length ++ cs.flatMap (toLE 4) ++ es.flatMap encEntry

theorem encEntry_length (e : DirEntry) (h : EntryOk e) : (encEntry e).length = 292 := by
  obtain ⟨h1, _, h3, _⟩ := h
  simp only [encEntry, List.length_append, zeros_length, toLE_length, h3]
  simp only [maxFilename] at *
  omega

theorem flatMap_length_const {α : Type} (f : α → Bytes) (k : Nat) : ∀ l : List α, (∀ a ∈ l, (f a).length = k) →
    (l.flatMap f).length = l.length * k
  | [], _ => by simp
  | a :: l, h => by
    rw [List.flatMap_cons, List.length_append, h a (by simp),
      flatMap_length_const f k l (fun b hb => h b (by simp [hb])), List.length_cons, Nat.add_mul]
    omega

theorem encNode_length (cs : List Nat) (es : List DirEntry) (h : ∀ e ∈ es, EntryOk e) :
    (encNode cs es).length = 8 + 4 * cs.length + 292 * es.length := by
  simp only [encNode, List.length_append, toLE_length]
  rw [flatMap_length_const (toLE 4) 4 cs (fun a _ => toLE_length 4 a),
    flatMap_length_const encEntry 292 es (fun e he => encEntry_length e (h e he))]
  omega

theorem writeFwd_ok (size : Nat) (acc d : Bytes) (h : acc.length + d.length ≤ size) :
    writeFwd size acc d = .ok (acc ++ d) := by simp [writeFwd, h]

theorem writeChildren_ok (size : Nat) : ∀ (cs : List Nat) (acc : Bytes), acc.length + 4 * cs.length ≤ size →
    writeChildren size cs acc = .ok (acc ++ cs.flatMap (toLE 4))
  | [], acc, _ => by simp [writeChildren]
  | c :: cs, acc, h => by
    simp only [List.length_cons] at h
    rw [writeChildren, writeFwd_ok _ _ _ (by rw [toLE_length]; omega)]
    dsimp only
    rw [writeChildren_ok size cs _ (by rw [List.length_append, toLE_length]; omega)]
    simp

theorem writeEntry_ok (size : Nat) (e : DirEntry) (acc : Bytes) (he : EntryOk e) (h : acc.length + 292 ≤ size) :
    writeEntry size e acc = .ok (acc ++ encEntry e) := by
  have h1 := he.1
  have h3 := he.2.2.1
  have hm : maxFilename = 255 := rfl
  rw [writeEntry, if_neg (by omega), writeFwd_ok _ _ _ (by simp only [List.length_append, zeros_length]; omega)]
  dsimp only
  rw [writeFwd_ok _ _ _ (by simp only [List.length_append, zeros_length]; omega)]
  dsimp only
  rw [writeFwd_ok _ _ _ (by simp only [List.length_append, zeros_length, toLE_length]; omega)]
  simp [encEntry]

set_option maxRecDepth 8000 in
theorem writeEntries_ok (size : Nat) : ∀ (es : List DirEntry) (acc : Bytes), (∀ e ∈ es, EntryOk e) →
    acc.length + 292 * es.length ≤ size → writeEntries size es acc = .ok (acc ++ es.flatMap encEntry)
  | [], acc, _, _ => by simp [writeEntries]
  | e :: es, acc, he, h => by
    simp only [List.length_cons] at h
    have h1 : acc.length + 292 ≤ size := by omega
    rw [writeEntries, writeEntry_ok size e acc (he e (by simp)) h1]
    dsimp only
    rw [writeEntries_ok size es _ (fun x hx => he x (by simp [hx]))
      (by rw [List.length_append, encEntry_length e (he e (by simp))]; omega)]
    simp

theorem toBuffer_ok (size : Nat) (n : BNode) (he : ∀ e ∈ n.entries, EntryOk e)
    (h : 8 + 4 * n.children.length + 292 * n.entries.length ≤ size) :
    toBuffer size n = .ok (encNode n.children n.entries) := by
  rw [toBuffer, writeFwd_ok _ _ _ (by rw [toLE_length]; simp only [List.length_nil]; omega)]
  dsimp only
  rw [writeFwd_ok _ _ _ (by simp only [List.length_append, toLE_length, List.length_nil]; omega)]
  dsimp only
  rw [writeFwd_ok _ _ _ (by simp only [List.length_append, toLE_length, List.length_nil]; omega)]
  dsimp only
  rw [writeChildren_ok _ _ _ (by simp only [List.length_append, toLE_length, List.length_nil]; omega)]
  dsimp only
  rw [writeEntries_ok _ _ _ he (by
    simp only [List.length_append, toLE_length, List.length_nil]
    rw [flatMap_length_const (toLE 4) 4 _ (fun a _ => toLE_length 4 a)]; omega)]
  simp [encNode]

theorem readLEFwd_ok (w v : Nat) (hv : v < 2 ^ (8 * w)) (rest : Bytes) :
    readLEFwd w (toLE w v ++ rest) = .ok (v, rest) := by
  rw [readLEFwd, if_neg (by rw [List.length_append, toLE_length]; omega), fromLE_toLE w v hv]
  simp [List.drop_left' (toLE_length w v)]

theorem readChildren_ok : ∀ (cs : List Nat) (rest : Bytes), (∀ c ∈ cs, c < 2 ^ 32) →
    readChildren cs.length (cs.flatMap (toLE 4) ++ rest) = .ok (cs, rest)
  | [], rest, _ => by simp [readChildren]
  | c :: cs, rest, h => by
    rw [List.length_cons, readChildren, List.flatMap_cons, List.append_assoc,
      readLEFwd_ok 4 c (h c (by simp))]
    dsimp only
    rw [readChildren_ok cs rest (fun x hx => h x (by simp [hx]))]

theorem cString_ok (name : Bytes) (h : name.length ≤ maxFilename) (h0 : ∀ c ∈ name, c ≠ 0) :
    cString (name ++ zeros (maxFilename + 1 - name.length)) = name := by
  have hm : maxFilename = 255 := rfl
  have e1 : (name ++ zeros (maxFilename + 1 - name.length)).take maxFilename = name ++ zeros (maxFilename - name.length) := by
    rw [List.take_append, List.take_of_length_le h]
    congr 1
    simp only [zeros, List.take_replicate]
    congr 1; omega
  rw [cString, e1]
  have e2 : (name ++ zeros (maxFilename - name.length)).takeWhile (· != 0) = name := by
    rw [List.takeWhile_append_of_pos (by intro a ha; simpa using h0 a ha)]
    have : (zeros (maxFilename - name.length)).takeWhile (· != 0) = [] := by
      rw [zeros]
      cases maxFilename - name.length with
      | zero => rfl
      | succ n => simp [List.replicate_succ]
    rw [this, List.append_nil]
  exact e2

theorem readFwd_ok (w : Nat) (d rest : Bytes) (h : d.length = w) : readFwd w (d ++ rest) = .ok (d, rest) := by
  rw [readFwd, if_neg (by rw [List.length_append]; omega)]
  simp [List.take_left' h, List.drop_left' h]

theorem readEntry_ok (e : DirEntry) (he : EntryOk e) (rest : Bytes) :
    readEntry (encEntry e ++ rest) = .ok (e, rest) := by
  obtain ⟨h1, h2, h3, h4⟩ := he
  have hm : maxFilename = 255 := rfl
  have hx : encEntry e ++ rest = (e.name ++ zeros (maxFilename + 1 - e.name.length)) ++ (e.id ++ (toLE 4 e.type ++ rest)) := by
    simp [encEntry]
  rw [readEntry, hx, readFwd_ok _ _ _ (by rw [List.length_append, zeros_length]; omega)]
  dsimp only
  rw [readFwd_ok _ _ _ h3]
  dsimp only
  rw [readLEFwd_ok 4 _ h4]
  dsimp only
  rw [cString_ok e.name h1 h2]

theorem readEntries_ok : ∀ (es : List DirEntry) (rest : Bytes), (∀ e ∈ es, EntryOk e) →
    readEntries es.length (es.flatMap encEntry ++ rest) = .ok (es, rest)
  | [], rest, _ => by simp [readEntries]
  | e :: es, rest, h => by
    rw [List.length_cons, readEntries, List.flatMap_cons, List.append_assoc, readEntry_ok e (h e (by simp))]
    dsimp only
    rw [readEntries_ok es rest (fun x hx => h x (by simp [hx]))]

theorem fromBuffer_encNode (cs : List Nat) (es : List DirEntry) (rest : Bytes) (hc : ∀ c ∈ cs, c < 2 ^ 32)
    (he : ∀ e ∈ es, EntryOk e) (hcl : cs.length < 2 ^ 16) (hel : es.length < 2 ^ 16) :
    fromBuffer (encNode cs es ++ rest) = .ok (some (cs, es)) := by
  have hx : encNode cs es ++ rest = toLE 4 1 ++ (toLE 2 cs.length ++ (toLE 2 es.length ++
      (cs.flatMap (toLE 4) ++ (es.flatMap encEntry ++ rest)))) := by simp [encNode]
  rw [fromBuffer, hx, readLEFwd_ok 4 1 (by norm_num)]
  dsimp only
  rw [if_neg (by omega), readLEFwd_ok 2 _ (by simpa using hcl)]
  dsimp only
  rw [readLEFwd_ok 2 _ (by simpa using hel)]
  dsimp only
  rw [readChildren_ok cs _ hc]
  dsimp only
  rw [readEntries_ok es _ he]

/-! ## Pages of the stream -/

/-- Page `p` of the stream. -/
def pageOf (data : Bytes) (p : Nat) : Bytes := (data.drop (p * 4096)).take 4096

theorem pageOff_eq (p : Nat) (h : p < 2 ^ 20) : pageOff p = p * 4096 := by
  rw [pageOff, show pageSize = 4096 from rfl, Nat.mod_eq_of_lt (by omega)]

theorem pageOf_length (data : Bytes) (n p : Nat) (hd : data.length = n * 4096) (hp : p < n) : (pageOf data p).length = 4096 := by
  rw [pageOf, List.length_take, List.length_drop]; omega

theorem pageOf_getElem? (data : Bytes) (p i : Nat) : (pageOf data p)[i]? = if i < 4096 then data[p * 4096 + i]? else none := by
  rw [pageOf, List.getElem?_take, List.getElem?_drop]

theorem write_page_length (data : Bytes) (n p : Nat) (buf : Bytes) (hd : data.length = n * 4096) (hp : p < n)
    (hb : buf.length = 4096) : (Spec.write data (p * 4096) buf).length = n * 4096 := by
  have : buf ≠ [] := by intro h; simp [h] at hb
  rw [Spec.write, if_neg this]
  simp only [List.length_append, List.length_take, List.length_replicate, List.length_drop]
  omega

theorem write_getElem? (data : Bytes) (n p : Nat) (buf : Bytes) (hd : data.length = n * 4096) (hp : p < n)
    (hb : buf.length = 4096) (i : Nat) : (Spec.write data (p * 4096) buf)[i]? =
      if i < p * 4096 then data[i]? else if i < p * 4096 + 4096 then buf[i - p * 4096]? else data[i]? := by
  have hne : buf ≠ [] := by intro h; simp [h] at hb
  have e1 : data ++ List.replicate (p * 4096 - data.length) 0 = data := by
    rw [show p * 4096 - data.length = 0 by omega]; simp
  rw [Spec.write, if_neg hne, e1]
  have h := getElem?_splice data (p * 4096) buf i (by omega)
  rw [splice, hb] at h
  rw [hb]; exact h

theorem gap_aux (P Q B i : Nat) (h : ¬ Q + i < P) (h' : i < B) (hd : Q + B ≤ P ∨ P + B ≤ Q) : ¬ Q + i < P + B := by
  omega

theorem page_gap (q p i : Nat) (h : ¬ q * 4096 + i < p * 4096) (h' : i < 4096) (hq : ¬ q = p) :
    ¬ q * 4096 + i < p * 4096 + 4096 := by
  refine gap_aux _ _ _ _ h h' ?_
  rcases Nat.lt_or_gt_of_ne hq with h1 | h1
  · left; rw [← Nat.succ_mul]; exact Nat.mul_le_mul_right 4096 h1
  · right; rw [← Nat.succ_mul]; exact Nat.mul_le_mul_right 4096 h1

theorem pageOf_write (data : Bytes) (n p q : Nat) (buf : Bytes) (hd : data.length = n * 4096) (hp : p < n)
    (hb : buf.length = 4096) :
    pageOf (Spec.write data (p * 4096) buf) q = if q = p then buf else pageOf data q := by
  apply List.ext_getElem?
  intro i
  rw [pageOf_getElem?, write_getElem? data n p buf hd hp hb]
  by_cases hq : q = p
  · subst hq
    rw [if_pos rfl]
    by_cases hi : i < 4096
    · rw [if_pos hi, if_neg (by omega), if_pos (by omega)]; congr 1; omega
    · rw [if_neg hi, eq_comm, List.getElem?_eq_none_iff]; omega
  · rw [if_neg hq, pageOf_getElem?]
    by_cases hi : i < 4096
    · rw [if_pos hi, if_pos hi]
      by_cases h1 : q * 4096 + i < p * 4096
      · rw [if_pos h1]
      · have h2 := page_gap q p i h1 hi hq
        rw [if_neg h1, if_neg h2]
    · rw [if_neg hi, if_neg hi]

theorem extend_length (data : Bytes) : (Spec.resize data (data.length + 4096)).length = data.length + 4096 := by
  simp only [Spec.resize, List.length_append, List.length_take, List.length_replicate]
  omega

theorem extend_eq (data : Bytes) : Spec.resize data (data.length + 4096) = data ++ zeros 4096 := by
  rw [Spec.resize, List.take_of_length_le (by omega), show data.length + 4096 - data.length = 4096 by omega]; rfl

theorem pageOf_extend (data : Bytes) (n q : Nat) (hd : data.length = n * 4096) :
    (q < n → pageOf (Spec.resize data (data.length + 4096)) q = pageOf data q) ∧
    (pageOf (Spec.resize data (data.length + 4096)) n = zeros 4096) := by
  rw [extend_eq]
  constructor
  · intro hq
    apply List.ext_getElem?
    intro i
    rw [pageOf_getElem?, pageOf_getElem?]
    by_cases hi : i < 4096
    · rw [if_pos hi, if_pos hi, List.getElem?_append_left (by omega)]
    · rw [if_neg hi, if_neg hi]
  · rw [pageOf, ← hd, List.drop_left, List.take_of_length_le (by simp)]

/-! ## What a page means -/

/-- The contents of a page read as a node: a page that is not marked as a node is an empty node. -/
def nodeOf (page : Bytes) : Option (List Nat × List DirEntry) :=
  match fromBuffer page with
  | .error _ => none
  | .ok r => some (r.getD ([], []))

/-- The bytes of a page of the free list. -/
def freeBytes (next prev : Nat) : Bytes := zeros 4 ++ toLE 4 next ++ toLE 4 prev ++ zeros (pageSize - 12)

theorem freeBytes_length (next prev : Nat) : (freeBytes next prev).length = 4096 := by
  simp only [freeBytes, List.length_append, zeros_length, toLE_length]; rfl

theorem zeros4 : zeros 4 = toLE 4 0 := by decide

theorem nodeOf_flag0 (rest : Bytes) : nodeOf (zeros 4 ++ rest) = some ([], []) := by
  rw [nodeOf, fromBuffer, zeros4, readLEFwd_ok 4 0 (by norm_num)]
  rfl

theorem nodeOf_free (next prev : Nat) : nodeOf (freeBytes next prev) = some ([], []) := by
  rw [freeBytes, List.append_assoc, List.append_assoc, nodeOf_flag0]

theorem nodeOf_zeros : nodeOf (zeros 4096) = some ([], []) := by
  rw [show (4096 : Nat) = 4 + 4092 from rfl, zeros_add, nodeOf_flag0]

theorem nodeOf_encNode (cs : List Nat) (es : List DirEntry) (rest : Bytes) (hc : ∀ c ∈ cs, c < 2 ^ 32)
    (he : ∀ e ∈ es, EntryOk e) (hcl : cs.length < 2 ^ 16) (hel : es.length < 2 ^ 16) :
    nodeOf (encNode cs es ++ rest) = some (cs, es) := by
  rw [nodeOf, fromBuffer_encNode cs es rest hc he hcl hel]; rfl

end Securefs
