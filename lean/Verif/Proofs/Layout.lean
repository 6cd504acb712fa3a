import Verif.Spec.Layout
import Verif.Proofs.Wire
/-!
# Lemmas about the layout of messages
-/

namespace Securefs.Lay

open Spec

theorem varint (fuel : Nat) : ∀ n : Nat, n < 128 ^ fuel → 0 < fuel → Varint n (putVarint fuel n) := by
  induction fuel with
  | zero => intro n _ h; omega
  | succ fuel ih =>
    intro n hn _
    unfold putVarint
    split
    · rename_i h; exact .last h
    · rename_i h
      have hlt : n / 128 < 128 ^ fuel := by rw [Nat.div_lt_iff_lt_mul (by decide)]; rw [Nat.pow_succ] at hn; exact hn
      have hf : 0 < fuel := by
        rcases Nat.eq_zero_or_pos fuel with rfl | h'
        · rw [Nat.pow_zero] at hlt; omega
        · exact h'
      have h1 := Varint.more (d := n % 128) (Nat.mod_lt _ (by decide)) (show 0 < n / 128 by omega) (ih (n / 128) hlt hf)
      rw [Nat.mod_add_div, Nat.add_comm 128] at h1
      exact h1

theorem varint_unique {n : Nat} {b : Bytes} (h : Varint n b) : ∀ {m : Nat} {c : Bytes}, Varint m c → n = m → b = c := by
  induction h with
  | last hn =>
    intro m c hc e
    cases hc with
    | last _ => rw [e]
    | more _ h0 _ => omega
  | more hd h0 _ ih =>
    intro m c hc e
    cases hc with
    | last _ => omega
    | more hd' h0' hc' =>
      rw [ih hc' (by omega)]
      congr 2
      omega

theorem message_unique {fs : List (Nat × ProtoVal)} {b : Bytes} (h : ProtoMessage fs b) : ∀ {c : Bytes}, ProtoMessage fs c → b = c := by
  induction h with
  | nil => intro c hc; cases hc; rfl
  | number h1 h2 _ ih =>
    intro c hc
    cases hc with
    | number g1 g2 g3 => rw [varint_unique h1 g1 rfl, varint_unique h2 g2 rfl, ih g3]
  | bytes h1 h2 _ ih =>
    intro c hc
    cases hc with
    | bytes g1 g2 g3 => rw [varint_unique h1 g1 rfl, varint_unique h2 g2 rfl, ih g3]

/-- The values of the specification as those of the model. -/
def wire : ProtoVal → WireVal
  | .number n => .varint n
  | .bytes b => .len b

theorem message : ∀ {fs : List (Nat × ProtoVal)}, (∀ f ∈ fs, FieldOk (f.1, wire f.2)) →
    ProtoMessage fs (putFields (fs.map fun f => (f.1, wire f.2))) := by
  intro fs
  induction fs with
  | nil => intro _; exact .nil
  | cons f fs ih =>
    intro h
    obtain ⟨h0, h29, hv⟩ := h f List.mem_cons_self
    have hr := ih fun g hg => h g (List.mem_cons_of_mem _ hg)
    obtain ⟨num, v⟩ := f
    dsimp only at h0 h29 hv
    have h128 : (128 : Nat) ^ 5 = 2 ^ 35 := by decide
    have h129 : (128 : Nat) ^ 10 = 2 ^ 70 := by decide
    cases v with
    | number n =>
      change n < 2 ^ 64 at hv
      have h1 := ProtoMessage.number (num := num) (n := n) (by rw [Nat.mul_comm]; exact varint 5 (num * 8) (by omega) (by decide))
        (varint 10 n (by omega) (by decide)) hr
      exact h1
    | bytes b =>
      change b.length < 2 ^ 31 - 16 at hv
      have h1 := ProtoMessage.bytes (num := num) (b := b) (by rw [Nat.mul_comm]; exact varint 5 (num * 8 + 2) (by omega) (by decide))
        (varint 5 b.length (by omega) (by decide)) hr
      exact h1

/-- Writing the fields that are given by such a list. -/
theorem message_of {fs : List (Nat × ProtoVal)} {ws : List (Nat × WireVal)} (e : ws = fs.map fun f => (f.1, wire f.2))
    (h : ∀ w ∈ ws, FieldOk w) : ProtoMessage fs (putFields ws) := by
  rw [e]
  refine message fun f hf => h _ ?_
  rw [e]
  exact List.mem_map_of_mem hf

theorem bytesField_eq (num : Nat) (b : Bytes) : bytesField num b = (present [(num, .bytes b)]).map fun f => (f.1, wire f.2) := by
  unfold bytesField present
  cases b <;> simp [ProtoVal.isDefault, wire]

theorem uintField_eq (num n : Nat) : uintField num n = (present [(num, .number n)]).map fun f => (f.1, wire f.2) := by
  unfold uintField present
  cases n <;> simp [ProtoVal.isDefault, wire]

theorem boolField_eq (num : Nat) (b : Bool) : boolField num b = (present [(num, .number b.toNat)]).map fun f => (f.1, wire f.2) := by
  unfold boolField present
  cases b <;> simp [ProtoVal.isDefault, wire]

theorem present_two (f g : Nat × ProtoVal) (fs : List (Nat × ProtoVal)) : present (f :: g :: fs) = present [f] ++ present (g :: fs) := by
  unfold present
  rw [← List.filter_append]
  rfl

theorem argon_fields (p : Argon2Params) :
    p.fields = (present [(1, .number p.time), (2, .number p.memory), (3, .number p.parallelism)]).map fun f => (f.1, wire f.2) := by
  unfold Argon2Params.fields
  simp only [uintField_eq, present_two, List.map_append, List.append_assoc]

theorem size_fields (p : SizeParams) :
    p.fields = (present [(1, .number p.blockSize), (2, .number p.ivSize), (3, .number p.maxPadding)]).map fun f => (f.1, wire f.2) := by
  unfold SizeParams.fields
  simp only [uintField_eq, present_two, List.map_append, List.append_assoc]

theorem four (a b c d : Bytes) : bytesField 1 a ++ bytesField 2 b ++ bytesField 3 c ++ bytesField 4 d =
    (present [(1, .bytes a), (2, .bytes b), (3, .bytes c), (4, .bytes d)]).map fun f => (f.1, wire f.2) := by
  simp only [bytesField_eq, present_two, List.map_append, List.append_assoc]

theorem lite_fields (p : LiteParams) :
    p.fields = (present [(1, .bytes p.nameKey), (2, .bytes p.contentKey), (3, .bytes p.xattrKey), (4, .bytes p.paddingKey)] ++
      (match p.longNameThreshold with | none => [] | some t => [(5, .number t)]) ++ present [(6, .bytes p.longNameSuffix)]).map
        fun f => (f.1, wire f.2) := by
  unfold LiteParams.fields
  rw [four, bytesField_eq 6, List.map_append, List.map_append]
  congr 2
  cases p.longNameThreshold <;> rfl

theorem full_fields (p : FullParams) :
    p.fields = (present [(1, .bytes p.masterKey), (2, .number p.storeTime.toNat), (3, .number p.legacyFileTableIo.toNat),
      (4, .number p.caseInsensitive.toNat), (5, .number p.unicodeAgnostic.toNat)]).map fun f => (f.1, wire f.2) := by
  unfold FullParams.fields
  simp only [bytesField_eq, boolField_eq, present_two, List.map_append, List.append_assoc]

end Securefs.Lay
