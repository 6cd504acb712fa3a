import Verif.Spec.ConfigWrite
import Verif.Proofs.WireBounds
import Verif.Props.Config
/-!
# C45: Changing the password is crash safe
-/

namespace Securefs.Props

open Spec

theorem set_same (fs : PathFs) (p : Bytes) (c : Option Bytes) : fs.set p c p = c := by
  unfold PathFs.set; rw [if_pos rfl]

theorem set_other (fs : PathFs) {p q : Bytes} (h : q ≠ p) (c : Option Bytes) : fs.set p c q = fs q := by
  unfold PathFs.set; rw [if_neg h]

/-- The parts of a list of calls that may be on the disk, with torn writes: only the last rename changes `path`. -/
theorem applyOps_cons (fs : PathFs) (op : FsOp) (ops : List FsOp) : applyOps fs (op :: ops) = applyOps (op.apply fs) ops := rfl

/-- What is on the disk after an ordered crash of `replaceFile`. -/
theorem replace_crash {O : WriteOracle} {fs : PathFs} {path tmp data : Bytes} (htmp : tmp ≠ path) {ops' : List FsOp}
    (hc : OrderedCrash (replaceFile O fs path tmp data).1 ops') :
    (applyOps fs ops' path = fs path ∨ applyOps fs ops' path = some data) ∧ ∀ q, q ≠ path → q ≠ tmp → applyOps fs ops' q = fs q := by
  have hclean : ∀ (fs1 : PathFs) (ops' : List FsOp), OrderedCrash (if O.removeOk then [.remove tmp] else []) ops' →
      ∀ q, q ≠ tmp → applyOps fs1 ops' q = fs1 q := by
    intro fs1 ops' h q hq
    cases hr : O.removeOk with
    | false => rw [hr] at h; cases h; rfl
    | true =>
      rw [hr] at h
      cases h with
      | stop => rfl
      | next h => cases h; exact set_other _ hq _
  have hpt : path ≠ tmp := fun h => htmp h.symm
  unfold replaceFile at hc
  split at hc
  · cases hc; exact ⟨.inl rfl, fun _ _ _ => rfl⟩
  · split at hc
    · cases hc; exact ⟨.inl rfl, fun _ _ _ => rfl⟩
    · dsimp only at hc
      split at hc
      · cases hc with
        | stop => exact ⟨.inl rfl, fun _ _ _ => rfl⟩
        | next h =>
          refine ⟨.inl ?_, fun q h1 h2 => ?_⟩
          · rw [applyOps_cons, hclean _ _ h path hpt]; exact set_other _ hpt _
          · rw [applyOps_cons, hclean _ _ h q h2]; exact set_other _ h2 _
      · rename_i n _
        split at hc
        · cases hc with
          | stop => exact ⟨.inl rfl, fun _ _ _ => rfl⟩
          | next h =>
            cases h with
            | stop => exact ⟨.inl (set_other _ hpt _), fun q _ h2 => set_other _ h2 _⟩
            | torn m =>
              exact ⟨.inl ((set_other _ hpt _).trans (set_other _ hpt _)), fun q _ h2 => (set_other _ h2 _).trans (set_other _ h2 _)⟩
            | next h =>
              refine ⟨.inl ?_, fun q h1 h2 => ?_⟩
              · rw [applyOps_cons, applyOps_cons, hclean _ _ h path hpt]; exact (set_other _ hpt _).trans (set_other _ hpt _)
              · rw [applyOps_cons, applyOps_cons, hclean _ _ h q h2]; exact (set_other _ h2 _).trans (set_other _ h2 _)
        · split at hc
          · cases hc with
            | stop => exact ⟨.inl rfl, fun _ _ _ => rfl⟩
            | next h =>
              cases h with
              | stop => exact ⟨.inl (set_other _ hpt _), fun q _ h2 => set_other _ h2 _⟩
              | torn m =>
                exact ⟨.inl ((set_other _ hpt _).trans (set_other _ hpt _)), fun q _ h2 => (set_other _ h2 _).trans (set_other _ h2 _)⟩
              | next h =>
                refine ⟨.inl ?_, fun q h1 h2 => ?_⟩
                · rw [applyOps_cons, applyOps_cons, hclean _ _ h path hpt]; exact (set_other _ hpt _).trans (set_other _ hpt _)
                · rw [applyOps_cons, applyOps_cons, hclean _ _ h q h2]; exact (set_other _ h2 _).trans (set_other _ h2 _)
          · cases hc with
            | stop => exact ⟨.inl rfl, fun _ _ _ => rfl⟩
            | next h =>
              cases h with
              | stop => exact ⟨.inl (set_other _ hpt _), fun q _ h2 => set_other _ h2 _⟩
              | torn m =>
                exact ⟨.inl ((set_other _ hpt _).trans (set_other _ hpt _)), fun q _ h2 => (set_other _ h2 _).trans (set_other _ h2 _)⟩
              | next h =>
                cases h with
                | stop => exact ⟨.inl ((set_other _ hpt _).trans (set_other _ hpt _)), fun q _ h2 => (set_other _ h2 _).trans (set_other _ h2 _)⟩
                | next h =>
                  cases h
                  refine ⟨.inr ?_, fun q h1 h2 => ?_⟩
                  · show PathFs.set (PathFs.set _ path _) tmp none path = _
                    rw [set_other _ hpt, set_same]
                    exact set_same _ _ _
                  · show PathFs.set (PathFs.set _ path _) tmp none q = _
                    rw [set_other _ h2, set_other _ h1]
                    exact (set_other _ h2 _).trans (set_other _ h2 _)

/-- The new file has another name. -/
theorem tmp_ne {path suffix : Bytes} (h : suffix ≠ []) : path ++ suffix ≠ path := by
  intro he
  have := congrArg List.length he
  rw [List.length_append] at this
  exact h (List.length_eq_zero_iff.mp (by omega))

theorem hexify_ne_nil {b s : Bytes} (hb : b ≠ []) (h : hexify b = .ok s) : s ≠ [] := by
  have := (C14_hexify_shape b s h).1
  intro h0
  subst h0
  cases b with
  | nil => exact hb rfl
  | cons x xs => simp at this

/-- What was decrypted can be encrypted again. -/
theorem decrypt_ok {C : ConfCrypto} (hC : C.Lawful) {json : Bytes → Option LegacyParams} (hj : JsonSane json) {content password : Bytes} {key : Option Bytes}
    (hlen : content.length < 2 ^ 27) {d : DecParams} (h : decryptContent C json content password key = .ok d) : d.Ok := by
  unfold decryptContent at h
  have hopen : ∀ {k iv hd mac ct pt : Bytes}, gcmOpen C k iv hd mac ct = .ok (some pt) → pt.length = ct.length := by
    intro k iv hd mac ct pt hg
    unfold gcmOpen at hg
    split at hg
    · cases hg
    · split at hg
      · cases hg
      · split at hg
        · injection hg with hg
          injection hg with hg
          subst hg
          rw [xorbuf_length, hC.keystream_length, Nat.min_self]
        · cases hg
  cases hp : EncParams.parse content with
  | some p =>
    rw [hp] at h
    dsimp only at h
    unfold decryptParams at h
    split at h
    · cases h
    · split at h
      · cases h
      · cases h
      · rename_i pt hg
        split at h
        · cases h
        · rename_i d' hd'
          injection h with h
          subst h
          have := EncParams.parse_length hp
          exact DecParams.parse_ok (by rw [hopen hg]; omega) hd'
  | none =>
    rw [hp] at h
    dsimp only at h
    cases hl : json content with
    | none => rw [hl] at h; cases h
    | some l =>
      rw [hl] at h
      dsimp only at h
      obtain ⟨j1, j2, j3, j4⟩ := hj content l hl
      have hlt : ∀ {k m : Bytes}, legacyTry C l k = .ok (some m) → m.length < 2 ^ 27 := by
        intro k m hm
        unfold legacyTry at hm
        split at hm
        · cases hm
        · split at hm
          · cases hm
          · split at hm
            · cases hm
            · rename_i ct hct
              split at hm
              · cases hm
              · rw [hopen hm]
                have hs := (C14_hexify_shape _ _ (C14_parse_canonical _ _ hct)).1
                omega
      have htry : ∀ {m}, tryLegacyKey C l password key (legacyTry C l) = .ok (some m) → m.length < 2 ^ 27 := by
        intro m hm
        unfold tryLegacyKey at hm
        split at hm
        · cases hm
        · split at hm
          · split at hm
            · cases hm
            · exact hlt hm
          · split at hm
            · cases hm
            · split at hm
              · cases hm
              · split at hm
                · cases hm
                · rename_i hx
                  injection hm with hm
                  injection hm with hm
                  subst hm
                  exact hlt hx
                · split at hm
                  · cases hm
                  · split at hm
                    · cases hm
                    · exact hlt hm
      unfold decryptLegacy at h
      dsimp only at h
      have hsize : SizeParams.Ok { blockSize := (match l.blockSize with | none => 4096 | some b => b), ivSize := (match l.ivSize with | none => 32 | some b => b), maxPadding := l.maxPadding } := by
        refine ⟨?_, ?_, j4⟩
        · cases hb : l.blockSize with
          | none => show 4096 < 2 ^ 32; decide
          | some b => exact j2 b hb
        · cases hb : l.ivSize with
          | none => show 32 < 2 ^ 32; decide
          | some b => exact j3 b hb
      split at h
      · cases h
      · cases h
      · rename_i master hm
        have hml := htry hm
        split at h
        · split at h
          · cases h
          · injection h with h
            subst h
            refine ⟨fun s hs => by injection hs with hs; subst hs; exact hsize, fun x hx => ?_, nofun⟩
            injection hx with hx
            subst hx
            refine ⟨?_, ?_, ?_, ?_, ?_, ?_, ?_⟩
            · show (master.take 32).length < _; rw [List.length_take]; omega
            · show ((master.drop 32).take 32).length < _; rw [List.length_take]; omega
            · show ((master.drop 64).take 32).length < _; rw [List.length_take]; omega
            · show (if master.length = 4 * 32 then (master.drop 96).take 32 else []).length < _
              split
              · rw [List.length_take]; omega
              · exact Nat.zero_lt_succ _
            · intro t ht
              have ht : (if l.longNameComponent then some 128 else none) = some t := ht
              split at ht
              · injection ht with ht; subst ht; decide
              · cases ht
            · show (0 : Nat) < _; decide
            · rfl
        · injection h with h
          subst h
          exact ⟨fun s hs => by injection hs with hs; subst hs; exact hsize, nofun, fun x hx => by injection hx with hx; subst hx; exact hml⟩

/-- The machine stops at any point, and every call fails or not: if what was done reached the disk in order, then the configuration file opens
    with the old credentials or with the new ones, and gives the same parameters; all other files are as they were.
    Partial: the data is not synchronised before the rename, see `C45_unsynced_violated`. -/
theorem C45_ordered_partial (C : ConfCrypto) (hC : C.Lawful) (json : Bytes → Option LegacyParams) (hj : JsonSane json) (O : WriteOracle) (R : ConfRandom)
    (hname : R.name.length = 16) (hiv : R.iv.length = 12) (hsalt : R.salt.length = 32) (argon : Argon2Params) (ha : argon.Ok) (old new : Credentials)
    (fs : PathFs) (path content : Bytes) (hfile : fs path = some content) (hlen : content.length < 2 ^ 27) (d : DecParams)
    (hd : decryptContent C json content old.1 old.2 = .ok d) (ops' : List FsOp)
    (hc : OrderedCrash (changePassword C json O R argon old new fs path).1 ops') :
    (∃ content', applyOps fs ops' path = some content' ∧
      (content' = content ∨ decryptContent C json content' new.1 new.2 = .ok d)) ∧
    ∀ q, q ≠ path → (∀ hex, hexify R.name = .ok hex → q ≠ path ++ hex) → applyOps fs ops' q = fs q := by
  unfold changePassword at hc
  obtain ⟨hex, hhex⟩ : ∃ hex, hexify R.name = .ok hex := ⟨_, C14_hexify_exact R.name⟩
  rw [hhex, hfile] at hc
  dsimp only at hc
  rw [hd] at hc
  dsimp only at hc
  cases hp : encryptParams C d argon new.1 new.2 R.iv R.salt with
  | error e =>
    rw [hp] at hc
    cases hc
    exact ⟨⟨content, hfile, .inl rfl⟩, fun _ _ _ => rfl⟩
  | ok p =>
    rw [hp] at hc
    dsimp only at hc
    have hne : path ++ hex ≠ path := tmp_ne (hexify_ne_nil (by intro h0; rw [h0] at hname; cases hname) hhex)
    obtain ⟨h1, h2⟩ := replace_crash hne hc
    refine ⟨?_, fun q hq1 hq2 => h2 q hq1 (hq2 hex hhex)⟩
    rcases h1 with h1 | h1
    · exact ⟨content, h1.trans hfile, .inl rfl⟩
    · exact ⟨_, h1, .inr (C46_round_trip_partial C hC json d (decrypt_ok hC hj hlen hd) argon ha _ _ _ _ hiv hsalt p hp)⟩

/-- If an error is reported, the old configuration is still in place, whatever failed. -/
theorem C45_error_keeps_old (C : ConfCrypto) (json : Bytes → Option LegacyParams) (O : WriteOracle) (R : ConfRandom) (hname : R.name.length = 16)
    (argon : Argon2Params) (old new : Credentials) (fs : PathFs) (path : Bytes) (e : Err)
    (h : (changePassword C json O R argon old new fs path).2 = .error e) :
    applyOps fs (changePassword C json O R argon old new fs path).1 path = fs path := by
  obtain ⟨hex, hhex⟩ : ∃ hex, hexify R.name = .ok hex := ⟨_, C14_hexify_exact R.name⟩
  have hne : path ≠ path ++ hex := fun h => tmp_ne (hexify_ne_nil (by intro h0; rw [h0] at hname; cases hname) hhex) h.symm
  unfold changePassword at h ⊢
  rw [hhex] at h ⊢
  dsimp only at h ⊢
  cases hf : fs path with
  | none => exact hf
  | some content =>
    rw [hf] at h
    dsimp only at h ⊢
    cases hd : decryptContent C json content old.1 old.2 with
    | error e => exact hf
    | ok d =>
      rw [hd] at h
      dsimp only at h ⊢
      cases hp : encryptParams C d argon new.1 new.2 R.iv R.salt with
      | error e => exact hf
      | ok p =>
        rw [hp] at h
        dsimp only at h ⊢
        have hclean : ∀ fs1 : PathFs, applyOps fs1 (if O.removeOk then [.remove (path ++ hex)] else []) path = fs1 path := by
          intro fs1
          cases O.removeOk with
          | false => rfl
          | true => exact set_other _ hne _
        unfold replaceFile at h ⊢
        split
        · exact hf
        · split
          · exact hf
          · rename_i c1 c2
            rw [if_neg c1, if_neg c2] at h
            dsimp only at h ⊢
            split
            · rw [applyOps_cons, hclean]; exact (set_other _ hne _).trans hf
            · rename_i n hn
              rw [hn] at h
              dsimp only at h
              split
              · rw [applyOps_cons, applyOps_cons, hclean]; exact ((set_other _ hne _).trans (set_other _ hne _)).trans hf
              · rename_i c3
                rw [if_neg c3] at h
                split
                · rw [applyOps_cons, applyOps_cons, hclean]; exact ((set_other _ hne _).trans (set_other _ hne _)).trans hf
                · rename_i c4
                  rw [if_neg c4] at h
                  cases h

/-- If no error is reported, the configuration opens with the new credentials, and the temporary file is gone. -/
theorem C45_success (C : ConfCrypto) (hC : C.Lawful) (json : Bytes → Option LegacyParams) (hj : JsonSane json) (O : WriteOracle) (R : ConfRandom)
    (hname : R.name.length = 16) (hiv : R.iv.length = 12) (hsalt : R.salt.length = 32) (argon : Argon2Params) (ha : argon.Ok) (old new : Credentials)
    (fs : PathFs) (path content : Bytes) (hfile : fs path = some content) (hlen : content.length < 2 ^ 27)
    (h : (changePassword C json O R argon old new fs path).2 = .ok ()) :
    ∃ d content', decryptContent C json content old.1 old.2 = .ok d ∧
      applyOps fs (changePassword C json O R argon old new fs path).1 path = some content' ∧
      decryptContent C json content' new.1 new.2 = .ok d ∧
      ∀ q, q ≠ path → applyOps fs (changePassword C json O R argon old new fs path).1 q = fs q := by
  obtain ⟨hex, hhex⟩ : ∃ hex, hexify R.name = .ok hex := ⟨_, C14_hexify_exact R.name⟩
  have hne : path ≠ path ++ hex := fun h => tmp_ne (hexify_ne_nil (by intro h0; rw [h0] at hname; cases hname) hhex) h.symm
  unfold changePassword at h ⊢
  rw [hhex, hfile] at h ⊢
  dsimp only at h ⊢
  cases hd : decryptContent C json content old.1 old.2 with
  | error e => rw [hd] at h; cases h
  | ok d =>
    rw [hd] at h
    dsimp only at h ⊢
    cases hp : encryptParams C d argon new.1 new.2 R.iv R.salt with
    | error e => rw [hp] at h; cases h
    | ok p =>
      rw [hp] at h
      dsimp only at h ⊢
      have hrt := C46_round_trip_partial C hC json d (decrypt_ok hC hj hlen hd) argon ha _ _ _ _ hiv hsalt p hp
      unfold replaceFile at h ⊢
      split
      · rename_i c1; rw [if_pos c1] at h; cases h
      · rename_i c1
        rw [if_neg c1] at h
        split
        · rename_i c2; rw [if_pos c2] at h; cases h
        · rename_i c2
          rw [if_neg c2] at h
          dsimp only at h ⊢
          split
          · rename_i hn; rw [hn] at h; cases h
          · rename_i n hn
            rw [hn] at h
            dsimp only at h
            split
            · rename_i c3; rw [if_pos c3] at h; cases h
            · rename_i c3
              rw [if_neg c3] at h
              split
              · rename_i c4; rw [if_pos c4] at h; cases h
              · refine ⟨d, p.serialize, rfl, ?_, hrt, fun q hq => ?_⟩
                · show PathFs.set (PathFs.set _ path _) (path ++ hex) none path = _
                  rw [set_other _ hne, set_same]
                  exact set_same _ _ _
                · show PathFs.set (PathFs.set _ path _) (path ++ hex) none q = _
                  by_cases hq2 : q = path ++ hex
                  · subst hq2
                    rw [set_same]
                    by_contra hx
                    exact c1 (fun h0 => hx h0.symm)
                  · rw [set_other _ hq2, set_other _ hq]
                    exact (set_other _ hq2 _).trans (set_other _ hq2 _)

/-- An empty file opens with no credentials. -/
theorem empty_config (C : ConfCrypto) (json : Bytes → Option LegacyParams) (password : Bytes) (key : Option Bytes) :
    decryptContent C json [] password key = .error .runtime := rfl

/-- False if the rename reaches the disk before the data does, because the data is never synchronised: the change succeeds, and after a crash
    the configuration is empty and opens with no credentials, nor is there another file. -/
theorem C45_unsynced_violated (C : ConfCrypto) (hC : C.Lawful) (json : Bytes → Option LegacyParams) (R : ConfRandom)
    (hname : R.name.length = 16) (argon : Argon2Params) (old new : Credentials) (fs : PathFs) (path content : Bytes) (hfile : fs path = some content)
    (hsalt : R.salt.length = 32) (hroom : ∀ hex, hexify R.name = .ok hex → fs (path ++ hex) = none) (d : DecParams)
    (hd : decryptContent C json content old.1 old.2 = .ok d) (k : Bytes) (hk : wrapKey C argon new.1 new.2 R.salt = some k) :
    ∃ O ops', (changePassword C json O R argon old new fs path).2 = .ok () ∧ UnsyncedCrash (changePassword C json O R argon old new fs path).1 ops' ∧
      applyOps fs ops' path = some [] ∧ (∀ q, q ≠ path → applyOps fs ops' q = fs q) ∧
      ∀ password key, decryptContent C json [] password key = .error .runtime := by
  obtain ⟨hex, hhex⟩ : ∃ hex, hexify R.name = .ok hex := ⟨_, C14_hexify_exact R.name⟩
  have hne : path ≠ path ++ hex := fun h => tmp_ne (hexify_ne_nil (by intro h0; rw [h0] at hname; cases hname) hhex) h.symm
  obtain ⟨p, hp⟩ : ∃ p, encryptParams C d argon new.1 new.2 R.iv R.salt = .ok p :=
    ⟨⟨R.salt, R.iv, _, _, some argon⟩, (C46_encrypt_exact C hC d argon new.1 new.2 R.iv R.salt hsalt
      ⟨R.salt, R.iv, C.tag k R.iv [] _, List.zipWith (· ^^^ ·) d.serialize (C.keystream k R.iv d.serialize.length), some argon⟩).mpr ⟨k, hk, rfl, rfl, rfl, rfl, rfl⟩⟩
  have hrun : changePassword C json ⟨true, some p.serialize.length, true, true⟩ R argon old new fs path =
      ([.create (path ++ hex), .write (path ++ hex) p.serialize, .rename (path ++ hex) path], .ok ()) := by
    unfold changePassword
    rw [hhex, hfile]
    dsimp only
    rw [hd]
    dsimp only
    rw [hp]
    dsimp only
    unfold replaceFile
    rw [if_neg (by rw [hroom hex hhex]; exact fun h => h rfl), if_neg nofun]
    dsimp only
    rw [if_neg (Nat.lt_irrefl _), if_neg nofun]
  refine ⟨⟨true, some p.serialize.length, true, true⟩, [.create (path ++ hex), .write (path ++ hex) (p.serialize.take 0), .rename (path ++ hex) path], ?_, ?_, ?_, ?_,
    fun _ _ => rfl⟩
  · rw [hrun]
  · rw [hrun]; exact .next (.cut 0 (.next .stop))
  · show PathFs.set (PathFs.set _ path _) (path ++ hex) none path = _
    rw [set_other _ hne, set_same]
    exact set_same _ _ _
  · intro q hq
    show PathFs.set (PathFs.set _ path _) (path ++ hex) none q = _
    by_cases hq2 : q = path ++ hex
    · subst hq2; rw [set_same, hroom hex hhex]
    · rw [set_other _ hq2, set_other _ hq]
      exact (set_other _ hq2 _).trans (set_other _ hq2 _)

/-- A left-over temporary file with a fixed name blocks the command, whatever else happens. -/
theorem replace_blocked (O : WriteOracle) (fs : PathFs) (path tmp data : Bytes) (h : fs tmp ≠ none) :
    replaceFile O fs path tmp data = ([], .error (.vfs 17)) := by
  unfold replaceFile; rw [if_pos h]

/-- C45: What an interrupted change left behind does not block another attempt, which draws another name. -/
theorem C45_retry (C : ConfCrypto) (hC : C.Lawful) (json : Bytes → Option LegacyParams) (hj : JsonSane json) (O : WriteOracle) (R R' : ConfRandom)
    (hname : R.name.length = 16) (hiv : R.iv.length = 12) (hsalt : R.salt.length = 32) (hsalt' : R'.salt.length = 32) (hother : R'.name ≠ R.name) (argon : Argon2Params)
    (ha : argon.Ok) (old new : Credentials) (fs : PathFs) (path content : Bytes) (hfile : fs path = some content) (hlen : content.length < 2 ^ 27)
    (d : DecParams) (hd : decryptContent C json content old.1 old.2 = .ok d) (hroom : ∀ hex, hexify R'.name = .ok hex → fs (path ++ hex) = none)
    (hname' : R'.name.length = 16) (k : Bytes) (hk : wrapKey C argon new.1 new.2 R'.salt = some k) (ops' : List FsOp)
    (hc : OrderedCrash (changePassword C json O R argon old new fs path).1 ops') :
    ∃ cred, (cred = old ∨ cred = new) ∧ ∃ O', (changePassword C json O' R' argon cred new (applyOps fs ops') path).2 = .ok () := by
  obtain ⟨hex, hhex⟩ : ∃ hex, hexify R'.name = .ok hex := ⟨_, C14_hexify_exact R'.name⟩
  have hne : path ++ hex ≠ path := tmp_ne (hexify_ne_nil (by intro h0; rw [h0] at hname'; cases hname') hhex)
  obtain ⟨⟨content', h1, h2⟩, h3⟩ := C45_ordered_partial C hC json hj O R hname hiv hsalt argon ha old new fs path content hfile hlen d hd ops' hc
  have hfree : applyOps fs ops' (path ++ hex) = none := by
    rw [h3 _ hne (fun hex2 hh2 he => hother ?_)]
    · exact hroom hex hhex
    · have he : hex = hex2 := List.append_cancel_left he
      subst he
      obtain ⟨s1, a1, a2⟩ := C14_round_trip R'.name
      obtain ⟨s2, b1, b2⟩ := C14_round_trip R.name
      rw [hhex] at a1
      rw [hh2] at b1
      cases a1
      cases b1
      rw [a2] at b2
      exact Except.ok.inj b2
  have hdec : ∃ cred, (cred = old ∨ cred = new) ∧ decryptContent C json content' cred.1 cred.2 = .ok d := by
    rcases h2 with h2 | h2
    · exact ⟨old, .inl rfl, by rw [h2]; exact hd⟩
    · exact ⟨new, .inr rfl, h2⟩
  obtain ⟨cred, hcred, hdec⟩ := hdec
  refine ⟨cred, hcred, ?_⟩
  obtain ⟨p, hp⟩ : ∃ p, encryptParams C d argon new.1 new.2 R'.iv R'.salt = .ok p :=
    ⟨⟨R'.salt, R'.iv, _, _, some argon⟩, (C46_encrypt_exact C hC d argon new.1 new.2 R'.iv R'.salt hsalt'
      ⟨R'.salt, R'.iv, C.tag k R'.iv [] _, List.zipWith (· ^^^ ·) d.serialize (C.keystream k R'.iv d.serialize.length), some argon⟩).mpr ⟨k, hk, rfl, rfl, rfl, rfl, rfl⟩⟩
  refine ⟨⟨true, some p.serialize.length, true, true⟩, ?_⟩
  unfold changePassword
  rw [hhex, h1]
  dsimp only
  rw [hdec]
  dsimp only
  rw [hp]
  dsimp only
  unfold replaceFile
  rw [if_neg (by rw [hfree]; exact fun h => h rfl), if_neg nofun]
  dsimp only
  rw [if_neg (Nat.lt_irrefl _), if_neg nofun]

/-- C64: If what was done reached the disk in order, the migrated configuration or the old one is in place. -/
theorem C64_ordered_partial (C : ConfCrypto) (hC : C.Lawful) (json : Bytes → Option LegacyParams) (O : WriteOracle) (R : ConfRandom)
    (hiv : R.iv.length = 12) (hsalt : R.salt.length = 32) (argon : Argon2Params) (ha : argon.Ok) (cred : Credentials) (d : DecParams) (hd : d.Ok)
    (fs : PathFs) (path : Bytes) (ops' : List FsOp) (hc : OrderedCrash (migrateWrite C O R argon cred d fs path).1 ops') :
    (applyOps fs ops' path = fs path ∨
      ∃ content', applyOps fs ops' path = some content' ∧ decryptContent C json content' cred.1 cred.2 = .ok d) ∧
    ∀ q, q ≠ path → q ≠ path ++ ascii ".tmp" → applyOps fs ops' q = fs q := by
  have htmp : ascii ".tmp" = tmpSuffix := by decide +kernel
  rw [htmp]
  unfold migrateWrite at hc
  cases hp : encryptParams C d argon cred.1 cred.2 R.iv R.salt with
  | error e => rw [hp] at hc; cases hc; exact ⟨.inl rfl, fun _ _ _ => rfl⟩
  | ok p =>
    rw [hp] at hc
    obtain ⟨h1, h2⟩ := replace_crash (tmp_ne (by decide)) hc
    refine ⟨?_, h2⟩
    rcases h1 with h1 | h1
    · exact .inl h1
    · exact .inr ⟨_, h1, C46_round_trip_partial C hC json d hd argon ha _ _ _ _ hiv hsalt p hp⟩

/-- C64 is false: the temporary file has a fixed name and must not exist, so that a crash right after it was created makes every later attempt fail. -/
theorem C64_stuck_violated (C : ConfCrypto) (hC : C.Lawful) (R : ConfRandom) (hsalt : R.salt.length = 32) (argon : Argon2Params)
    (cred : Credentials) (d : DecParams) (fs : PathFs) (path : Bytes) (hroom : fs (path ++ ascii ".tmp") = none) (k : Bytes)
    (hk : wrapKey C argon cred.1 cred.2 R.salt = some k) :
    ∃ O ops', (migrateWrite C O R argon cred d fs path).2 = .ok () ∧ OrderedCrash (migrateWrite C O R argon cred d fs path).1 ops' ∧
      ∀ O' R' argon' cred' d', (migrateWrite C O' R' argon' cred' d' (applyOps fs ops') path).1 = [] ∧
        ∃ e, (migrateWrite C O' R' argon' cred' d' (applyOps fs ops') path).2 = .error e := by
  have htmp : ascii ".tmp" = tmpSuffix := by decide +kernel
  rw [htmp] at hroom
  obtain ⟨p, hp⟩ : ∃ p, encryptParams C d argon cred.1 cred.2 R.iv R.salt = .ok p :=
    ⟨⟨R.salt, R.iv, _, _, some argon⟩, (C46_encrypt_exact C hC d argon cred.1 cred.2 R.iv R.salt hsalt
      ⟨R.salt, R.iv, C.tag k R.iv [] _, List.zipWith (· ^^^ ·) d.serialize (C.keystream k R.iv d.serialize.length), some argon⟩).mpr ⟨k, hk, rfl, rfl, rfl, rfl, rfl⟩⟩
  have hrun : migrateWrite C ⟨true, some p.serialize.length, true, true⟩ R argon cred d fs path =
      ([.create (path ++ tmpSuffix), .write (path ++ tmpSuffix) p.serialize, .rename (path ++ tmpSuffix) path], .ok ()) := by
    unfold migrateWrite
    rw [hp]
    dsimp only
    unfold replaceFile
    rw [if_neg (by rw [hroom]; exact fun h => h rfl), if_neg nofun]
    dsimp only
    rw [if_neg (Nat.lt_irrefl _), if_neg nofun]
  refine ⟨⟨true, some p.serialize.length, true, true⟩, [.create (path ++ tmpSuffix)], by rw [hrun], by rw [hrun]; exact .next .stop, ?_⟩
  intro O' R' argon' cred' d'
  have hleft : applyOps fs [.create (path ++ tmpSuffix)] (path ++ tmpSuffix) ≠ none := by
    show PathFs.set _ _ _ _ ≠ none
    rw [set_same]
    nofun
  unfold migrateWrite
  cases encryptParams C d' argon' cred'.1 cred'.2 R'.iv R'.salt with
  | error e => exact ⟨rfl, e, rfl⟩
  | ok p => dsimp only; rw [replace_blocked _ _ _ _ _ hleft]; exact ⟨rfl, _, rfl⟩

/-! ## A concrete change of password -/

/-- Random choices for the examples. -/
def toyRandom : ConfRandom := ⟨List.replicate 16 0xAB, toyIv, toySalt⟩

/-- The configuration of `toyLiteVolume` under the password "pw" and a key file. -/
def toyContent : Bytes := match encryptParams toyConf toyLiteVolume ⟨30, 16, 4⟩ [112, 119] (some [7, 7]) toyIv toySalt with | .ok e => e.serialize | .error _ => []

/-- One configuration file and one other file. -/
def toyDisk : PathFs := fun q => if q = [47, 99] then some toyContent else if q = [47, 100] then some [1] else none

theorem toyContent_opens : decryptContent toyConf (fun _ => none) toyContent [112, 119] (some [7, 7]) = .ok toyLiteVolume :=
  C46_round_trip_partial toyConf toyConf_lawful _ _ toyLiteVolume_ok ⟨30, 16, 4⟩ ⟨by decide, by decide, by decide⟩ _ _ toyIv toySalt (by decide) (by decide) _ rfl

theorem toyJson_sane : JsonSane (fun _ => none) := nofun

theorem toyDisk_room (hex : Bytes) (h : hexify toyRandom.name = .ok hex) : toyDisk ([47, 99] ++ hex) = none := by
  rw [C14_hexify_exact] at h
  injection h with h
  subst h
  decide +kernel

/-- The hypotheses of `C45_ordered_partial` are met, and both outcomes occur: the old file when the disk is full, the new one at the end. -/
example : toyDisk [47, 99] = some toyContent ∧ toyContent.length < 2 ^ 27 ∧ toyRandom.name.length = 16 ∧
    decryptContent toyConf (fun _ => none) toyContent [112, 119] (some [7, 7]) = .ok toyLiteVolume ∧
    (changePassword toyConf (fun _ => none) ⟨true, some 10, true, true⟩ toyRandom ⟨30, 16, 4⟩ ([112, 119], some [7, 7]) ([113], none) toyDisk [47, 99]).2 = .error (.vfs 5) ∧
    (changePassword toyConf (fun _ => none) ⟨true, some 1000, true, true⟩ toyRandom ⟨30, 16, 4⟩ ([112, 119], some [7, 7]) ([113], none) toyDisk [47, 99]).2 = .ok () := by
  refine ⟨?_, ?_, ?_, toyContent_opens, ?_, ?_⟩ <;> decide +kernel

/-- `C45_success` on it. -/
example : ∃ d content', decryptContent toyConf (fun _ => none) toyContent [112, 119] (some [7, 7]) = .ok d ∧
    applyOps toyDisk (changePassword toyConf (fun _ => none) ⟨true, some 1000, true, true⟩ toyRandom ⟨30, 16, 4⟩ ([112, 119], some [7, 7]) ([113], none) toyDisk [47, 99]).1 [47, 99] = some content' ∧
    decryptContent toyConf (fun _ => none) content' [113] none = .ok d := by
  obtain ⟨d, c, h1, h2, h3, _⟩ := C45_success toyConf toyConf_lawful _ toyJson_sane ⟨true, some 1000, true, true⟩ toyRandom (by decide) (by decide) (by decide) ⟨30, 16, 4⟩
    ⟨by decide, by decide, by decide⟩ ([112, 119], some [7, 7]) ([113], none) toyDisk [47, 99] toyContent (by decide +kernel) (by decide +kernel) (by decide +kernel)
  exact ⟨d, c, h1, h2, h3⟩

/-- `C45_unsynced_violated` on it. -/
example : ∃ O ops', (changePassword toyConf (fun _ => none) O toyRandom ⟨30, 16, 4⟩ ([112, 119], some [7, 7]) ([113], none) toyDisk [47, 99]).2 = .ok () ∧
    UnsyncedCrash (changePassword toyConf (fun _ => none) O toyRandom ⟨30, 16, 4⟩ ([112, 119], some [7, 7]) ([113], none) toyDisk [47, 99]).1 ops' ∧
    applyOps toyDisk ops' [47, 99] = some [] := by
  obtain ⟨O, ops', h1, h2, h3, _⟩ := C45_unsynced_violated toyConf toyConf_lawful (fun _ => none) toyRandom (by decide) ⟨30, 16, 4⟩ ([112, 119], some [7, 7]) ([113], none)
    toyDisk [47, 99] toyContent (by decide +kernel) (by decide) toyDisk_room toyLiteVolume toyContent_opens _ rfl
  exact ⟨O, ops', h1, h2, h3⟩

/-- The name of the temporary file for `toyRandom`. -/
def toyTmp : Bytes := [47, 99] ++ toyHex (List.replicate 16 0xAB)

/-- What the new file holds. -/
def toyNew : Bytes := match encryptParams toyConf toyLiteVolume ⟨30, 16, 4⟩ [113] none toyIv toySalt with | .ok e => e.serialize | .error _ => []

theorem toyChange_ops : (changePassword toyConf (fun _ => none) ⟨true, some 1000, true, true⟩ toyRandom ⟨30, 16, 4⟩ ([112, 119], some [7, 7]) ([113], none) toyDisk [47, 99]).1 =
    [.create toyTmp, .write toyTmp toyNew, .rename toyTmp [47, 99]] := by decide +kernel

/-- `C45_retry` on it, after a crash in the middle of the write. -/
example : ∃ cred, (cred = ([112, 119], some [7, 7]) ∨ cred = ([113], none)) ∧ ∃ O', (changePassword toyConf (fun _ => none) O' { toyRandom with name := List.replicate 16 1 } ⟨30, 16, 4⟩ cred ([113], none)
    (applyOps toyDisk [.create toyTmp, .write toyTmp (toyNew.take 5)]) [47, 99]).2 = .ok () :=
  C45_retry toyConf toyConf_lawful _ toyJson_sane ⟨true, some 1000, true, true⟩ toyRandom { toyRandom with name := List.replicate 16 1 } (by decide) (by decide) (by decide) (by decide) (by decide) ⟨30, 16, 4⟩
    ⟨by decide, by decide, by decide⟩ ([112, 119], some [7, 7]) ([113], none) toyDisk [47, 99] toyContent (by decide +kernel) (by decide +kernel) toyLiteVolume toyContent_opens
    (by intro hex h; rw [C14_hexify_exact] at h; injection h with h; subst h; decide +kernel) (by decide) _ rfl _ (by rw [toyChange_ops]; exact .next (.torn 5))

/-- `C45_error_keeps_old` on it: a wrong password. -/
example : (changePassword toyConf (fun _ => none) ⟨true, some 1000, true, true⟩ toyRandom ⟨30, 16, 4⟩ ([112], none) ([113], none) toyDisk [47, 99]).2 = .error .credentials := by
  decide +kernel

/-- The hypotheses of `C64_ordered_partial` and `C64_stuck_violated`. -/
example : toyDisk ([47, 99] ++ ascii ".tmp") = none ∧ toyLiteVolume.Ok ∧ (∃ k, wrapKey toyConf ⟨30, 16, 4⟩ [112, 119] none toySalt = some k) :=
  ⟨by decide +kernel, toyLiteVolume_ok, _, rfl⟩

end Securefs.Props
