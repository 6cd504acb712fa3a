import Verif.Proofs.FileObj
import Verif.Props.Toy
import Verif.Props.Siv
/-!
# C77, C78: files of the full format as a whole, and their keys
-/

namespace Securefs.Toy

open Securefs Spec

/-- A volume with 64 byte blocks and up to five bytes of padding. -/
def env (maxPadding : UInt32) (storeTime : Bool) : FileEnv where
  hmac := fun k m => hm (k ++ m)
  gcm _ := gcm
  master := [9, 9]
  check := true
  blockSize := 64
  ivSize := 12
  maxPadding := maxPadding
  storeTime := storeTime
  sparse := true
  rng := rng
  ivFuel := 2

theorem env_ok (maxPadding : UInt32) (storeTime : Bool) (h : maxPadding.toNat + 1 < 2 ^ 32) : FileEnvOk (env maxPadding storeTime) where
  bs_pos := by simp [env]
  iv_ge := by simp [env]
  gcm := fun _ => gcm_lawful
  rng := rng_fair
  hmac_len := fun k m => by simp [env, hm]
  padding := h
  room := by simp only [env]; omega

end Securefs.Toy

namespace Securefs.Props

open Securefs Spec FileEnv

/-! ## C77 -/

/-- C77: a new file can be made, and whatever is then done with it – reads, writes, truncations, changes of attributes, flushes and
    closings after which it is opened again – the answers are those of a plain sequence of bytes with plain attributes. -/
theorem C77_file {E : FileEnv} (hE : FileEnvOk E) (id : Bytes) (now : TimeSpec) (hn : ValidTime now) (osUid osGid mode uid gid : UInt32)
    (rng : Nat) (cs : List (TimeSpec × FileCall))
    (hw : ∀ c ∈ cs, ValidTime c.1 ∧ CallWithin (2 ^ 30 * E.blockSize - E.maxPadding.toNat) c.2) :
    ∃ f, E.createObj id now osUid osGid mode uid gid rng = .ok f ∧
      ∃ f' as, E.runObj id f cs = .ok (f', as) ∧ as.map plainAnswer = (plainRun (plainNew E.storeTime now osUid osGid mode uid gid) cs).2 := by
  obtain ⟨f, e, R⟩ := createObj_ok hE id now hn osUid osGid mode uid gid rng
  obtain ⟨f', as, e', _, v⟩ := runObj_ok hE cs R hw
  exact ⟨f, e, f', as, e', v⟩

/-- C77: once a file has been flushed, its two backing files hold all of it: any later opening of them, with any state of the random
    generator, gives a file that behaves as the old one would have. -/
theorem C77_durable {E : FileEnv} (hE : FileEnvOk E) (id : Bytes) (now : TimeSpec) (hn : ValidTime now) (osUid osGid mode uid gid : UInt32)
    (rng rng' : Nat) (cs cs' : List (TimeSpec × FileCall))
    (hw : ∀ c ∈ cs, ValidTime c.1 ∧ CallWithin (2 ^ 30 * E.blockSize - E.maxPadding.toNat) c.2)
    (hw' : ∀ c ∈ cs', ValidTime c.1 ∧ CallWithin (2 ^ 30 * E.blockSize - E.maxPadding.toNat) c.2) :
    ∃ f f1 as f2, E.createObj id now osUid osGid mode uid gid rng = .ok f ∧ E.runObj id f cs = .ok (f1, as) ∧ E.flushObj id f1 = .ok f2 ∧
      ∃ g g' as', E.openObj id f2.st.data f2.st.metaS.file rng' = .ok g ∧ E.runObj id g cs' = .ok (g', as') ∧
        as'.map plainAnswer = (plainRun (plainRun (plainNew E.storeTime now osUid osGid mode uid gid) cs).1 cs').2 := by
  obtain ⟨f, e, R⟩ := createObj_ok hE id now hn osUid osGid mode uid gid rng
  obtain ⟨f1, as, e1, ⟨stored, H, R1, ha⟩, _⟩ := runObj_ok hE cs R hw
  obtain ⟨f2, h, H2, e2, R2, ea, hd⟩ := flushObj_ok hE R1
  obtain ⟨st, e3, R3⟩ := openObj_ok hE R2 hd (by rw [ea]) rng'
  obtain ⟨g', as', e4, _, v⟩ := runObj_ok hE cs' (p := (plainRun (plainNew E.storeTime now osUid osGid mode uid gid) cs).1)
    ⟨some h, H2, R3, by rw [show ({ f2 with st := st } : OpenFile).attr = f2.attr from rfl, ea]; exact ha⟩ hw'
  exact ⟨f, f1, as, f2, e, e1, e2, _, g', as', e3, e4, v⟩

/-- C77, violated: with the largest padding that can be asked for, 2³² − 1, no file can be opened or made: `max_padding_size + 1` is
    zero in 32 bits. -/
theorem C77_padding_violated {E : FileEnv} (hm : E.maxPadding = 0xffffffff) (id data metaF : Bytes) (rng : Nat) :
    ∃ e, E.openObj id data metaF rng = .error e := by
  cases h : E.openObj id data metaF rng with
  | error e => exact ⟨e, rfl⟩
  | ok f =>
    have hp : ∀ K, E.padding K = .error .runtime := by
      intro K
      unfold FileEnv.padding
      rw [if_pos (by rw [hm]; decide), if_pos (by rw [hm]; decide)]
    have := openObj_pad h
    rw [hp] at this
    cases this

/-- A history with writes over block boundaries, a hole, changes of attributes and reopenings. -/
def c77demo : List (TimeSpec × FileCall) :=
  [(⟨10, 1⟩, .write 60 [1, 2, 3, 4, 5, 6, 7, 8]), (⟨11, 2⟩, .attr (.chmod 0o600)), (⟨12, 3⟩, .reopen 40), (⟨13, 4⟩, .truncate 62),
   (⟨14, 5⟩, .attr (.chown 7 0xffffffff)), (⟨15, 6⟩, .write 70 [9]), (⟨16, 7⟩, .flush), (⟨17, 8⟩, .reopen 80), (⟨18, 9⟩, .stat),
   (⟨19, 10⟩, .read 59 20)]

example : ∀ c ∈ c77demo, ValidTime c.1 ∧ CallWithin (2 ^ 30 * (Toy.env 5 true).blockSize - (Toy.env 5 true).maxPadding.toNat) c.2 := by
  intro c hc
  simp only [c77demo, List.mem_cons, List.not_mem_nil, or_false] at hc
  rcases hc with rfl | rfl | rfl | rfl | rfl | rfl | rfl | rfl | rfl | rfl <;>
    exact ⟨by unfold ValidTime; decide, by simp [CallWithin, AttrOpValid, Toy.env]⟩

/-- The answers of the model to it, and what the ideal file says: the file has padding, and the time of the last change is that of the
    last write. -/
example : (((Toy.env 5 true).createObj [1, 2, 3] ⟨1, 1⟩ 500 500 0o100644 0xffffffff 3 0).bind fun f =>
      ((Toy.env 5 true).runObj [1, 2, 3] f c77demo).map fun p => (p.1.pad, p.2)) =
    .ok (some 5, [.done, .done, .done, .done, .done, .done, .done, .done,
      .stat 71 0o100600 7 3 1 (some (⟨1, 1⟩, ⟨15, 6⟩, ⟨15, 6⟩, ⟨1, 1⟩)), .bytes [0, 1, 2, 0, 0, 0, 0, 0, 0, 0, 0, 9]]) := by
  decide +kernel

example : FileEnvOk (Toy.env 5 true) ∧ FileEnvOk (Toy.env 0 false) := ⟨Toy.env_ok 5 true (by decide), Toy.env_ok 0 false (by decide)⟩

example : (Toy.env 0xffffffff true).openObj [1, 2, 3] [] [] 0 = .error .runtime := by decide +kernel

/-! ## C78 -/

/-- C78: the keys of a file are the pieces `T(1)`, `T(2)`, `T(3)` and `T(4)` that RFC 5869 gives for the master key and the identifier
    of the file; the first three do not depend on whether there is padding. -/
theorem C78_keys (E : FileEnv) (hH : ∀ k m, (E.hmac k m).length = 32) (id : Bytes) :
    ∃ K, E.keys id = .ok K ∧ K.data = hkdfT E.hmac E.master id 1 ∧ K.meta = hkdfT E.hmac E.master id 2 ∧
      K.xattrValue = hkdfT E.hmac E.master id 3 ∧ (E.maxPadding.toNat ≠ 0 → K.padding = hkdfT E.hmac E.master id 4) := by
  refine ⟨_, keys_ok hH id, rfl, rfl, rfl, fun h => ?_⟩
  dsimp only
  rw [if_pos]
  · rfl
  · exact UInt32.lt_iff_toNat_lt.mpr (Nat.pos_of_ne_zero h)

/-- C78: the contents and the header are sealed with the first key and the metadata authenticated with the second, both bound to the
    identifier. -/
theorem C78_streams (E : FileEnv) (hH : ∀ k m, (E.hmac k m).length = 32) (id data metaF : Bytes) (rng : Nat) (f : OpenFile)
    (h : E.openObj id data metaF rng = .ok f) :
    (E.full id f.keys).gcm = E.gcm (hkdfT E.hmac E.master id 1) ∧ (E.full id f.keys).hm = E.hmac (hkdfT E.hmac E.master id 2) ∧
      (E.full id f.keys).id = id := by
  have hk : E.keys id = .ok f.keys := openObj_keys h
  rw [keys_ok hH id] at hk
  rw [← Except.ok.inj hk]
  exact ⟨rfl, rfl, rfl⟩

/-- C78: when two of these keys are equal, of two files or of two of the four kinds, then HMAC under the master key collides. -/
theorem C78_distinct (E : FileEnv) (hH : ∀ k m, (E.hmac k m).length = 32) (id id' : Bytes) (i j : Nat) (hi : 1 ≤ i ∧ i ≤ 4) (hj : 1 ≤ j ∧ j ≤ 4)
    (h : fileSecret E id i = fileSecret E id' j) : (id = id' ∧ i = j) ∨ MacCollision E := by
  obtain ⟨i, rfl⟩ : ∃ a, i = a + 1 := ⟨i - 1, by omega⟩
  obtain ⟨j, rfl⟩ : ∃ a, j = a + 1 := ⟨j - 1, by omega⟩
  by_cases hm : hkdfT E.hmac E.master id i ++ id ++ [UInt8.ofNat (i + 1)] = hkdfT E.hmac E.master id' j ++ id' ++ [UInt8.ofNat (j + 1)]
  · left
    have hl := congrArg List.getLast? hm
    simp only [List.getLast?_append, List.getLast?_singleton, Option.some_or, Option.some.injEq] at hl
    have hij : i = j := by
      have := congrArg UInt8.toNat hl
      simp only [UInt8.toNat_ofNat'] at this
      omega
    subst hij
    have h2 := List.append_cancel_right hm
    have hlen : (hkdfT E.hmac E.master id i).length = (hkdfT E.hmac E.master id' i).length := by
      cases i with
      | zero => rfl
      | succ k => exact (hH _ _).trans (hH _ _).symm
    exact ⟨(List.append_inj h2 hlen).2, rfl⟩
  · exact Or.inr ⟨_, _, hm, h⟩

/-- C78: a file is padded by the fourth key, as a number, modulo one more than the largest padding, hence always by the same number of
    bytes and never by more than asked for. -/
theorem C78_padding (E : FileEnv) (hH : ∀ k m, (E.hmac k m).length = 32) (hm : E.maxPadding.toNat + 1 < 2 ^ 32) (id data metaF : Bytes)
    (rng : Nat) (f : OpenFile) (h : E.openObj id data metaF rng = .ok f) :
    (E.maxPadding.toNat = 0 → f.pad = none) ∧
      (E.maxPadding.toNat ≠ 0 → f.pad = some (numberOf (hkdfT E.hmac E.master id 4) % (E.maxPadding.toNat + 1)) ∧
        ∀ p, f.pad = some p → p ≤ E.maxPadding.toNat) := by
  have hk : E.keys id = .ok f.keys := openObj_keys h
  have hp : E.padding f.keys = .ok f.pad := openObj_pad h
  rw [keys_ok hH id] at hk
  have hk := Except.ok.inj hk
  unfold FileEnv.padding at hp
  constructor
  · intro h0
    rw [if_neg (by intro hc; have := UInt32.lt_iff_toNat_lt.mp hc; rw [h0] at this; exact absurd this (by simp))] at hp
    exact (Except.ok.inj hp).symm
  · intro h0
    have hpos : E.maxPadding > 0 := UInt32.lt_iff_toNat_lt.mpr (Nat.pos_of_ne_zero h0)
    have e : (E.maxPadding + 1).toNat = E.maxPadding.toNat + 1 := by
      rw [UInt32.toNat_add]
      exact Nat.mod_eq_of_lt hm
    rw [if_pos hpos, if_neg (by intro hc; rw [hc] at e; exact absurd e (by simp)), e, bigEndian_eq] at hp
    have hp := (Except.ok.inj hp).symm
    rw [← hk] at hp
    dsimp only at hp
    rw [if_pos hpos] at hp
    refine ⟨hp, fun p e => ?_⟩
    rw [hp] at e
    rw [← Option.some.inj e]
    exact Nat.le_of_lt_succ (Nat.mod_lt _ (by omega))

/-- C78, violated: extended attributes have no keys of their own for names and values: AES-SIV for the names and AES-GCM for the values
    are given the same key. -/
theorem C78_roles_violated (E : FileEnv) (id : Bytes) (K : FileKeys) (h : E.keys id = .ok K) : K.xattrName = K.xattrValue := by
  unfold FileEnv.keys at h
  split at h
  · cases h
  · rw [← Except.ok.inj h]

example : ((Toy.env 5 true).openObj [1, 2, 3] [] [] 0).map (fun f => f.pad) = .ok (some 5) ∧
    (Toy.env 5 true).keys [1, 2, 3] ≠ (Toy.env 5 true).keys [1, 2, 4] := by
  constructor <;> decide +kernel

end Securefs.Props
