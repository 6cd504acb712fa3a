import Verif.Proofs.LiteStream
import Verif.Proofs.FullStream
/-!
# Concrete instances

Small instances of the parameters, used to show that the hypotheses of the theorems can be met
and as witnesses of negative results.  They are not part of the model of the code.
-/

namespace Securefs.Toy

/-- A checksum standing in for a MAC. -/
def sum (b : Bytes) : UInt8 := b.foldl (fun a x => a * 3 + x) 7

/-- A stand-in for AES-GCM: no encryption, a checksum as MAC. -/
def gcm : Gcm where
  enc iv aad pt := (pt, List.replicate 16 (sum (iv ++ aad ++ pt)))
  dec iv aad ct mac := (decide (mac = List.replicate 16 (sum (iv ++ aad ++ ct))), ct)

theorem gcm_lawful : gcm.Lawful where
  ct_len _ _ _ := rfl
  mac_len _ _ _ := by simp [gcm]
  dec_len _ _ _ _ := rfl
  dec_enc _ _ _ := by simp [gcm]

/-- A counter standing in for the random generator; every 256th answer is all zeros. -/
def rng : Rng where
  draw n size := List.replicate size (UInt8.ofNat (n + 1))

theorem rng_fair : rng.Fair 2 where
  len n size := by simp [rng]
  nonzero n size h := by
    have key : ∀ x : UInt8, x ≠ 0 → allZeros (List.replicate size x) = false := by
      intro x hx
      obtain ⟨k, rfl⟩ : ∃ k, size = k + 1 := ⟨size - 1, by omega⟩
      simp only [allZeros, List.replicate_succ, List.all_cons,
        beq_eq_false_iff_ne.mpr hx, Bool.false_and]
    by_cases h0 : UInt8.ofNat (n + 1) = 0
    · refine ⟨1, by omega, key _ ?_⟩
      rw [UInt8.ofNat_add, h0]; decide
    · exact ⟨0, by omega, key _ h0⟩

/-- A stand-in for HMAC-SHA256. -/
def hm (m : Bytes) : Bytes := List.replicate 32 (sum m)

/-- A lite configuration: 32 byte blocks, 12 byte IVs, `p` bytes of padding. -/
def lite (sparse : Bool) (p : Nat) : LiteCfg where
  bs := 32
  ivSize := 12
  check := true
  sparse := sparse
  gcm _ := gcm
  padding _ := p
  rng := rng
  ivFuel := 2

theorem lite_wf (sparse : Bool) (p : Nat) : (lite sparse p).WF where
  bs_ge := by simp [lite]
  iv_ge := by simp [lite]
  iv_le := by simp [lite]
  gcm := fun _ => gcm_lawful
  rng := rng_fair

/-- A full-format configuration: 64 byte blocks, 12 byte IVs, 8 byte headers. -/
def full (sparse : Bool) : FullCfg where
  bs := 64
  ivSize := 12
  headerSize := 8
  check := true
  sparse := sparse
  gcm := gcm
  hm := hm
  id := [1, 2, 3]
  rng := rng
  ivFuel := 2

theorem full_wf (sparse : Bool) : (full sparse).WF where
  bs_pos := by simp [full]
  iv_ge := by simp [full]
  gcm := gcm_lawful
  rng := rng_fair
  hm_len := by simp [full, hm]

end Securefs.Toy
