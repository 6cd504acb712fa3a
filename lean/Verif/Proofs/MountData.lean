import Verif.Model.MountData
import Verif.Proofs.Wire
/-!
# Lemmas on the message for the child
-/

namespace Securefs

/-- The number is an `int32`. -/
def Int32Ok (n : Int) : Prop := -2 ^ 31 ≤ n ∧ n < 2 ^ 31

/-- The number is an `int64`. -/
def Int64Ok (n : Int) : Prop := -2 ^ 63 ≤ n ∧ n < 2 ^ 63

theorem wireToInt32_intToWire {n : Int} (h : Int32Ok n) : wireToInt32 (intToWire n) = n := by
  obtain ⟨h1, h2⟩ := h
  unfold wireToInt32 intToWire
  split <;> omega

theorem wireToInt64_intToWire {n : Int} (h : Int64Ok n) : wireToInt64 (intToWire n) = n := by
  obtain ⟨h1, h2⟩ := h
  unfold wireToInt64 intToWire
  split <;> omega

theorem intToWire_lt (n : Int) : intToWire n < 2 ^ 64 := by
  unfold intToWire
  omega

theorem optIntField_ok {num : Nat} {n : Option Int} (h : 0 < num ∧ num < 2 ^ 29) : ∀ f ∈ optIntField num n, FieldOk f := by
  intro f hf
  cases n with
  | none => cases hf
  | some n => rw [List.mem_singleton.mp hf]; exact ⟨h.1, h.2, intToWire_lt n⟩

theorem intField_ok {num : Nat} {n : Int} (h : 0 < num ∧ num < 2 ^ 29) : ∀ f ∈ intField num n, FieldOk f := by
  intro f hf
  unfold intField at hf
  split at hf
  · cases hf
  · rw [List.mem_singleton.mp hf]; exact ⟨h.1, h.2, intToWire_lt n⟩

theorem optIntField_length (num : Nat) (n : Option Int) : (putFields (optIntField num n)).length ≤ 15 := by
  cases n with
  | none => exact Nat.zero_le _
  | some n =>
    have := putField_length_le (num, .varint (intToWire n))
    simpa [putFields, optIntField] using this

theorem intField_length (num : Nat) (n : Int) : (putFields (intField num n)).length ≤ 15 := by
  unfold intField
  split
  · exact Nat.zero_le _
  · have := putField_length_le (num, .varint (intToWire n))
    simpa [putFields] using this

/-- The numbers of the options have the types of their fields. -/
def MountOpts.Ok (o : MountOpts) : Prop := (∀ n, o.uid = some n → Int32Ok n) ∧ (∀ n, o.gid = some n → Int32Ok n) ∧ Int64Ok o.maxIdle

theorem MountOpts.fields_ok (o : MountOpts) : ∀ f ∈ o.fields, FieldOk f :=
  forall_append (forall_append (forall_append (forall_append (forall_append (forall_append (forall_append (forall_append (forall_append
    (boolField_ok (by decide)) (boolField_ok (by decide))) (optIntField_ok (by decide))) (optIntField_ok (by decide))) (boolField_ok (by decide)))
    (boolField_ok (by decide))) (boolField_ok (by decide))) (boolField_ok (by decide))) (boolField_ok (by decide))) (intField_ok (by decide))

theorem MountOpts.length (o : MountOpts) : (putFields o.fields).length ≤ 150 := by
  unfold MountOpts.fields
  simp only [putFields_append, List.length_append]
  have := boolField_length 1 o.readOnly
  have := boolField_length 2 o.disableVerification
  have := optIntField_length 3 o.uid
  have := optIntField_length 4 o.gid
  have := boolField_length 5 o.enableXattr
  have := boolField_length 6 o.caseFold
  have := boolField_length 7 o.nfc
  have := boolField_length 8 o.plainTextNames
  have := boolField_length 9 o.sensitiveLogging
  have := intField_length 10 o.maxIdle
  omega

theorem MountOpts.round {o : MountOpts} (h : o.Ok) : o.fields.foldl MountOpts.put {} = o := by
  obtain ⟨a1, a2, a3, a4, a5, a6, a7, a8, a9, a10⟩ := o
  obtain ⟨h3, h4, h10⟩ := h
  dsimp only at h3 h4 h10
  unfold MountOpts.fields
  simp only [List.foldl_append]
  have e1 : (boolField 1 a1).foldl MountOpts.put {} = { readOnly := a1 } := by cases a1 <;> rfl
  have e2 : (boolField 2 a2).foldl MountOpts.put { readOnly := a1 } = { readOnly := a1, disableVerification := a2 } := by cases a2 <;> rfl
  have e3 : (optIntField 3 a3).foldl MountOpts.put { readOnly := a1, disableVerification := a2 } =
      { readOnly := a1, disableVerification := a2, uid := a3 } := by
    cases a3 with
    | none => rfl
    | some n => simp only [optIntField, List.foldl_cons, List.foldl_nil, MountOpts.put, wireToInt32_intToWire (h3 n rfl)]
  have e4 : (optIntField 4 a4).foldl MountOpts.put { readOnly := a1, disableVerification := a2, uid := a3 } =
      { readOnly := a1, disableVerification := a2, uid := a3, gid := a4 } := by
    cases a4 with
    | none => rfl
    | some n => simp only [optIntField, List.foldl_cons, List.foldl_nil, MountOpts.put, wireToInt32_intToWire (h4 n rfl)]
  have e5 : (boolField 5 a5).foldl MountOpts.put { readOnly := a1, disableVerification := a2, uid := a3, gid := a4 } =
      ⟨a1, a2, a3, a4, a5, false, false, false, false, 0⟩ := by cases a5 <;> rfl
  have e6 : (boolField 6 a6).foldl MountOpts.put ⟨a1, a2, a3, a4, a5, false, false, false, false, 0⟩ =
      ⟨a1, a2, a3, a4, a5, a6, false, false, false, 0⟩ := by cases a6 <;> rfl
  have e7 : (boolField 7 a7).foldl MountOpts.put ⟨a1, a2, a3, a4, a5, a6, false, false, false, 0⟩ =
      ⟨a1, a2, a3, a4, a5, a6, a7, false, false, 0⟩ := by cases a7 <;> rfl
  have e8 : (boolField 8 a8).foldl MountOpts.put ⟨a1, a2, a3, a4, a5, a6, a7, false, false, 0⟩ =
      ⟨a1, a2, a3, a4, a5, a6, a7, a8, false, 0⟩ := by cases a8 <;> rfl
  have e9 : (boolField 9 a9).foldl MountOpts.put ⟨a1, a2, a3, a4, a5, a6, a7, a8, false, 0⟩ =
      ⟨a1, a2, a3, a4, a5, a6, a7, a8, a9, 0⟩ := by cases a9 <;> rfl
  have e10 : (intField 10 a10).foldl MountOpts.put ⟨a1, a2, a3, a4, a5, a6, a7, a8, a9, 0⟩ =
      ⟨a1, a2, a3, a4, a5, a6, a7, a8, a9, a10⟩ := by
    unfold intField
    by_cases hz : a10 = 0
    · rw [if_pos hz, hz]; rfl
    · rw [if_neg hz]
      simp only [List.foldl_cons, List.foldl_nil, MountOpts.put, wireToInt64_intToWire h10]
  rw [e1, e2, e3, e4, e5, e6, e7, e8, e9, e10]

/-- The numbers for the log have the types of their fields. -/
def BackgroundLog.Ok (l : BackgroundLog) : Prop := (∀ n, l.handle = some n → Int64Ok n) ∧ (∀ n, l.level = some n → Int32Ok n)

theorem BackgroundLog.fields_ok (l : BackgroundLog) : ∀ f ∈ l.fields, FieldOk f :=
  forall_append (optIntField_ok (by decide)) (optIntField_ok (by decide))

theorem BackgroundLog.length (l : BackgroundLog) : (putFields l.fields).length ≤ 30 := by
  unfold BackgroundLog.fields
  rw [putFields_append, List.length_append]
  have := optIntField_length 1 l.handle
  have := optIntField_length 2 l.level
  omega

theorem BackgroundLog.round {l : BackgroundLog} (h : l.Ok) : l.fields.foldl BackgroundLog.put {} = l := by
  obtain ⟨a, b⟩ := l
  obtain ⟨h1, h2⟩ := h
  dsimp only at h1 h2
  unfold BackgroundLog.fields
  rw [List.foldl_append]
  cases a with
  | none =>
    cases b with
    | none => rfl
    | some n =>
      simp only [optIntField, List.foldl_cons, List.foldl_nil, BackgroundLog.put, wireToInt32_intToWire (h2 n rfl)]
  | some m =>
    cases b with
    | none =>
      simp only [optIntField, List.foldl_cons, List.foldl_nil, BackgroundLog.put, wireToInt64_intToWire (h1 m rfl)]
    | some n =>
      simp only [optIntField, List.foldl_cons, List.foldl_nil, BackgroundLog.put, wireToInt32_intToWire (h2 n rfl), wireToInt64_intToWire (h1 m rfl)]

/-- Reading the fields of `DecryptedSecurefsParams` back. -/
theorem DecParams.round {p : DecParams} (h : p.Ok) : putAll DecParams.put {} p.fields = some p := by
  have hp := DecParams.parse_serialize h
  unfold DecParams.parse DecParams.serialize at hp
  rw [parseFields_putFields 100 _ (DecParams.fields_ok h)] at hp
  exact hp

/-- The message is within the limits of the format, and its texts are UTF-8. -/
def MountData.Ok (m : MountData) : Prop :=
  (∀ d, m.params = some d → d.Ok ∧ d.serialize.length < 2 ^ 31 - 16) ∧ (∀ o, m.opts = some o → o.Ok) ∧
    (∀ a ∈ m.fuseArgs, a.length < 2 ^ 31 - 16 ∧ utf8Valid a = true) ∧ (m.dataDir.length < 2 ^ 31 - 16 ∧ utf8Valid m.dataDir = true) ∧
    (∀ l, m.log = some l → l.Ok)

theorem messageField_ok {num : Nat} {fs : Option (List (Nat × WireVal))} (h : 0 < num ∧ num < 2 ^ 29)
    (hl : ∀ l, fs = some l → (putFields l).length < 2 ^ 31 - 16) : ∀ f ∈ messageField num fs, FieldOk f := by
  intro f hf
  cases fs with
  | none => cases hf
  | some l => rw [List.mem_singleton.mp hf]; exact ⟨h.1, h.2, hl l rfl⟩

theorem MountData.fields_ok {m : MountData} (h1 : ∀ d, m.params = some d → d.serialize.length < 2 ^ 31 - 16)
    (h3 : ∀ a ∈ m.fuseArgs, a.length < 2 ^ 31 - 16) (h4 : m.dataDir.length < 2 ^ 31 - 16) : ∀ f ∈ m.fields, FieldOk f := by
  refine forall_append (forall_append (forall_append (forall_append (messageField_ok (by decide) ?_) (messageField_ok (by decide) ?_)) ?_)
    (bytesField_ok (by decide) h4)) (messageField_ok (by decide) ?_)
  · intro l hl
    cases hp : m.params with
    | none => rw [hp] at hl; cases hl
    | some d => rw [hp] at hl; injection hl with hl; rw [← hl]; exact h1 d hp
  · intro l hl
    cases hp : m.opts with
    | none => rw [hp] at hl; cases hl
    | some o => rw [hp] at hl; injection hl with hl; rw [← hl]; have := o.length; omega
  · intro f hf
    obtain ⟨a, ha, rfl⟩ := List.mem_map.mp hf
    exact ⟨Nat.succ_pos _, by simp, h3 a ha⟩
  · intro l hl
    cases hp : m.log with
    | none => rw [hp] at hl; cases hl
    | some o => rw [hp] at hl; injection hl with hl; rw [← hl]; have := o.length; omega

theorem MountData.putArgs (args : List Bytes) (h : ∀ a ∈ args, utf8Valid a = true) : ∀ (m : MountData),
    putAll MountData.put m (args.map fun a => (3, .len a)) = some { m with fuseArgs := m.fuseArgs ++ args } := by
  induction args with
  | nil => intro m; rw [List.append_nil]; rfl
  | cons a args ih =>
    intro m
    simp only [List.map_cons, putAll, MountData.put, h a List.mem_cons_self, if_true]
    rw [ih (fun x hx => h x (List.mem_cons_of_mem _ hx))]
    simp

/-- The message arrives as it was sent. -/
theorem MountData.parse_serialize {m : MountData} (h : m.Ok) : MountData.parse m.serialize = some m := by
  unfold MountData.parse MountData.serialize
  rw [parseFields_putFields 100 _ (MountData.fields_ok (fun d hd => (h.1 d hd).2) (fun a ha => (h.2.2.1 a ha).1) h.2.2.2.1.1)]
  obtain ⟨h1, h2, h3, h4, h5⟩ := h
  obtain ⟨d, o, args, dir, log⟩ := m
  dsimp only at h1 h2 h3 h4 h5 ⊢
  unfold MountData.fields
  dsimp only
  have e1 : putAll MountData.put {} (messageField 1 (d.map DecParams.fields)) = some { params := d } := by
    cases d with
    | none => rfl
    | some d =>
      simp only [Option.map_some, messageField, putAll, MountData.put, parseFields_putFields 99 _ (DecParams.fields_ok (h1 d rfl).1), Option.getD_none,
        DecParams.round (h1 d rfl).1]
  have e2 : putAll MountData.put { params := d } (messageField 2 (o.map MountOpts.fields)) = some { params := d, opts := o } := by
    cases o with
    | none => rfl
    | some o =>
      simp only [Option.map_some, messageField, putAll, MountData.put, parseFields_putFields 99 _ (MountOpts.fields_ok o), Option.getD_none,
        MountOpts.round (h2 o rfl)]
  have e3 := MountData.putArgs args (fun a ha => (h3 a ha).2) { params := d, opts := o }
  have e4 : putAll MountData.put { params := d, opts := o, fuseArgs := args } (bytesField 4 dir) =
      some { params := d, opts := o, fuseArgs := args, dataDir := dir } := by
    unfold bytesField
    split
    · rename_i hd
      rw [hd]; rfl
    · simp only [putAll, MountData.put, h4.2, if_true]
  have e5 : putAll MountData.put { params := d, opts := o, fuseArgs := args, dataDir := dir } (messageField 5 (log.map BackgroundLog.fields)) =
      some { params := d, opts := o, fuseArgs := args, dataDir := dir, log := log } := by
    cases log with
    | none => rfl
    | some l =>
      simp only [Option.map_some, messageField, putAll, MountData.put, parseFields_putFields 99 _ (BackgroundLog.fields_ok l), Option.getD_none,
        BackgroundLog.round (h5 l rfl)]
  rw [putAll_append, putAll_append, putAll_append, putAll_append, e1]
  dsimp only
  rw [e2]
  dsimp only
  rw [e3]
  dsimp only [List.nil_append]
  rw [e4]
  dsimp only
  rw [e5]

/-- A text that is not UTF-8 makes the message unreadable. -/
theorem MountData.putArgs_none (args : List Bytes) (h : ∃ a ∈ args, utf8Valid a = false) : ∀ (m : MountData) (rest : List (Nat × WireVal)),
    putAll MountData.put m (args.map (fun a => (3, .len a)) ++ rest) = none := by
  induction args with
  | nil => obtain ⟨a, ha, _⟩ := h; cases ha
  | cons a args ih =>
    intro m rest
    simp only [List.map_cons, List.cons_append, putAll, MountData.put]
    by_cases hv : utf8Valid a = true
    · simp only [hv, if_true]
      apply ih
      obtain ⟨x, hx, hxv⟩ := h
      rcases List.mem_cons.mp hx with rfl | hx
      · rw [hv] at hxv; cases hxv
      · exact ⟨x, hx, hxv⟩
    · rw [if_neg hv]

/-- A message with an argument that is not UTF-8 is not read. -/
theorem MountData.parse_none {m : MountData} (h1 : ∀ d, m.params = some d → d.serialize.length < 2 ^ 31 - 16)
    (h3 : ∀ a ∈ m.fuseArgs, a.length < 2 ^ 31 - 16) (h4 : m.dataDir.length < 2 ^ 31 - 16) (hbad : ∃ a ∈ m.fuseArgs, utf8Valid a = false) :
    MountData.parse m.serialize = none := by
  unfold MountData.parse MountData.serialize
  rw [parseFields_putFields 100 _ (MountData.fields_ok h1 h3 h4)]
  dsimp only
  unfold MountData.fields
  rw [List.append_assoc, List.append_assoc, putAll_append]
  split
  · rfl
  · rw [MountData.putArgs_none _ hbad]

end Securefs
