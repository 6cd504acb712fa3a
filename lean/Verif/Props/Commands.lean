import Verif.Proofs.Commands
import Verif.Proofs.LiteStream
import Verif.Props.Config
/-!
# C71: passwords; C72: `create`; C73: `info`; C76: which command is run
-/

namespace Securefs.Props

open Spec

/-! ## C71 -/

/-- C71: What is typed is the first line of the input, all of it: a line of more than 4000 bytes is refused, not cut off.  Nothing beyond the end
    of the line is consumed. -/
theorem C71_typed (input : Bytes) :
    readPassword input = if (firstLine input).length ≤ 4000 then .ok (firstLine input, afterLine input) else .error .runtime :=
  readPassword_eq input

example : readPassword [112, 119, 10, 120] = .ok ([112, 119], [120]) ∧ readPassword (List.replicate 4001 97) = .error .runtime ∧
    readPassword (List.replicate 4000 97) = .ok (List.replicate 4000 97, []) := by
  refine ⟨by decide +kernel, ?_, ?_⟩ <;> rw [C71_typed] <;> decide +kernel

/-- C71: With confirmation on a terminal both lines have to be the same; elsewhere one line is read. -/
theorem C71_confirmed (c : Console) (p rest : Bytes) :
    readPasswordTwice c = .ok (p, rest) ↔ p.length ≤ 4000 ∧ firstLine c.input = p ∧
      if c.inTty = true ∧ c.errTty = true then firstLine (afterLine c.input) = p ∧ afterLine (afterLine c.input) = rest
      else afterLine c.input = rest := by
  unfold readPasswordTwice
  rw [readPassword_eq]
  by_cases hl : (firstLine c.input).length ≤ 4000
  · rw [if_pos hl]
    dsimp only
    have hor : (c.inTty = false ∨ c.errTty = false) ↔ ¬(c.inTty = true ∧ c.errTty = true) := by
      cases c.inTty <;> cases c.errTty <;> simp
    by_cases ht : c.inTty = true ∧ c.errTty = true
    · rw [if_neg (fun h => hor.mp h ht), if_pos ht, readPassword_eq]
      by_cases hl2 : (firstLine (afterLine c.input)).length ≤ 4000
      · rw [if_pos hl2]
        dsimp only
        by_cases he : firstLine c.input = firstLine (afterLine c.input)
        · rw [if_neg (by rw [he]; rintro (h | h) <;> exact h rfl)]
          constructor
          · intro h
            injection h with h
            injection h with h1 h2
            exact ⟨h1 ▸ hl, h1, he ▸ h1, h2⟩
          · rintro ⟨_, h1, _, h3⟩
            rw [h1, h3]
        · rw [if_pos (.inr he)]
          exact ⟨nofun, fun ⟨_, h1, h2, _⟩ => absurd (h1.trans h2.symm) he⟩
      · rw [if_neg hl2]
        exact ⟨nofun, fun ⟨h0, _, h2, _⟩ => absurd (h2 ▸ h0) hl2⟩
    · rw [if_pos (hor.mpr ht), if_neg ht]
      constructor
      · intro h
        injection h with h
        injection h with h1 h2
        exact ⟨h1 ▸ hl, h1, h2⟩
      · rintro ⟨_, h1, h2⟩
        rw [h1, h2]
  · rw [if_neg hl]
    exact ⟨nofun, fun ⟨h0, h1, _⟩ => absurd (h1 ▸ h0) hl⟩

example : readPasswordTwice ⟨[112, 10, 112, 10], true, true⟩ = .ok ([112], []) ∧ readPasswordTwice ⟨[112, 10, 113, 10], true, true⟩ = .error .runtime ∧
    readPasswordTwice ⟨[112, 10, 113, 10], false, true⟩ = .ok ([112], [113, 10]) := by
  refine ⟨?_, ?_, ?_⟩ <;> decide +kernel

/-- C71: `create`, `mount` and `info` take the password that is meant: the argument, or the space that stands for a key file alone, or the line
    that is typed.  In the first two cases the input is not touched. -/
theorem C71_chosen (a : PassArgs) (confirm : Bool) (c : Console) (p rest : Bytes) (h : getPassword a confirm c = .ok (p, rest)) :
    Chosen a (firstLine c.input) p ∧ (rest = c.input ∨ p = firstLine c.input ∧ p.length ≤ 4000) := by
  unfold getPassword at h
  have hread : ∀ h0 : (∀ q, a.pass = some q → q = []), (if a.keyfile.getD [] ≠ [] ∧ a.ask = false then .ok (keyFilePassword, c.input)
      else if confirm = true then readPasswordTwice c else readPassword c.input) = Except.ok (p, rest) →
      Chosen a (firstLine c.input) p ∧ (rest = c.input ∨ p = firstLine c.input ∧ p.length ≤ 4000) := by
    intro h0 h
    by_cases hk : a.keyfile.getD [] ≠ [] ∧ a.ask = false
    · rw [if_pos hk] at h
      injection h with h
      injection h with h1 h2
      obtain ⟨hk, hask⟩ := hk
      cases hkf : a.keyfile with
      | none => rw [hkf] at hk; exact absurd rfl hk
      | some k => rw [hkf] at hk; exact ⟨h1 ▸ Chosen.keyfile h0 hkf hk hask, .inl h2.symm⟩
    · rw [if_neg hk] at h
      have hty : a.ask = true ∨ ∀ k, a.keyfile = some k → k = [] := by
        cases hask : a.ask with
        | true => exact .inl rfl
        | false =>
          refine .inr fun k hkf => Classical.byContradiction fun hne => hk ⟨?_, hask⟩
          rw [hkf]; exact hne
      have hp : p = firstLine c.input ∧ p.length ≤ 4000 := by
        cases confirm with
        | true =>
          rw [if_pos rfl] at h
          obtain ⟨h1, h2, _⟩ := (C71_confirmed c p rest).mp h
          exact ⟨h2.symm, h1⟩
        | false =>
          rw [if_neg nofun, readPassword_eq] at h
          split at h
          · rename_i hl
            injection h with h
            injection h with h1 h2
            exact ⟨h1.symm, h1 ▸ hl⟩
          · cases h
      refine ⟨?_, .inr hp⟩
      rw [hp.1]
      exact Chosen.typed h0 hty
  cases hp : a.pass with
  | none =>
    rw [hp] at h
    exact hread (fun q hq => by rw [hp] at hq; cases hq) h
  | some q =>
    cases q with
    | nil =>
      rw [hp] at h
      exact hread (fun q hq => by rw [hp] at hq; injection hq with hq; exact hq.symm) h
    | cons b q =>
      rw [hp] at h
      injection h with h
      injection h with h1 h2
      exact ⟨h1 ▸ Chosen.given hp (by simp), .inl h2.symm⟩

example : getPassword { keyfile := some [107] } false ⟨[112, 10], false, false⟩ = .ok ([32], [112, 10]) ∧
    getPassword { keyfile := some [107], ask := true } false ⟨[112, 10], false, false⟩ = .ok ([112], []) ∧
    getPassword { pass := some [120] } true ⟨[112, 10], false, false⟩ = .ok ([120], [112, 10]) ∧
    getPassword {} false ⟨[112, 10], false, false⟩ = .ok ([112], []) := by
  refine ⟨?_, ?_, ?_, ?_⟩ <;> decide +kernel

/-- The meant password is determined. -/
theorem chosen_unique {a : PassArgs} {line p q : Bytes} (h1 : Chosen a line p) (h2 : Chosen a line q) : p = q := by
  cases h1 with
  | given h hne =>
    cases h2 with
    | given h' _ => rw [h] at h'; injection h'
    | keyfile h' => exact absurd (h' _ h) hne
    | typed h' => exact absurd (h' _ h) hne
  | keyfile h hk hne hask =>
    cases h2 with
    | given h' hne' => exact absurd (h _ h') hne'
    | keyfile => rfl
    | typed _ hk' =>
      rcases hk' with hk' | hk'
      · rw [hask] at hk'; cases hk'
      · exact absurd (hk' _ hk) hne
  | typed h hk =>
    cases h2 with
    | given h' hne' => exact absurd (h _ h') hne'
    | keyfile _ hk' hne' hask =>
      rcases hk with hk | hk
      · rw [hask] at hk; cases hk
      · exact absurd (hk _ hk') hne'
    | typed => rfl

/-- C71: With the same arguments and the same first line, `mount` takes the password that `create` took, whether or not there are terminals. -/
theorem C71_create_then_mount (a : PassArgs) (c c' : Console) (p rest : Bytes) (h : getPassword a true c = .ok (p, rest))
    (hline : firstLine c'.input = firstLine c.input) : ∃ rest', getPassword a false c' = .ok (p, rest') := by
  obtain ⟨hch, _⟩ := C71_chosen a true c p rest h
  have hok : ∃ q rest', getPassword a false c' = .ok (q, rest') := by
    unfold getPassword
    have hread : ((∀ q, a.pass = some q → q = []) → ∃ q rest', (if a.keyfile.getD [] ≠ [] ∧ a.ask = false then .ok (keyFilePassword, c'.input)
        else if false = true then readPasswordTwice c' else readPassword c'.input) = Except.ok (ε := Err) (q, rest')) := by
      intro h0
      by_cases hk : a.keyfile.getD [] ≠ [] ∧ a.ask = false
      · rw [if_pos hk]; exact ⟨_, _, rfl⟩
      · rw [if_neg hk, if_neg nofun, readPassword_eq, hline]
        have hl : (firstLine c.input).length ≤ 4000 := by
          unfold getPassword at h
          have h : (if a.keyfile.getD [] ≠ [] ∧ a.ask = false then .ok (keyFilePassword, c.input)
              else if true = true then readPasswordTwice c else readPassword c.input) = Except.ok (p, rest) := by
            cases hp : a.pass with
            | none => rw [hp] at h; exact h
            | some q =>
              have := h0 q hp
              subst this
              rw [hp] at h; exact h
          rw [if_neg hk, if_pos rfl] at h
          obtain ⟨h1, h2, _⟩ := (C71_confirmed c p rest).mp h
          rw [h2]; exact h1
        rw [if_pos hl]
        exact ⟨_, _, rfl⟩
    cases hp : a.pass with
    | none => exact hread (fun q hq => by rw [hp] at hq; cases hq)
    | some q =>
      cases q with
      | nil => exact hread (fun q hq => by rw [hp] at hq; injection hq with hq; exact hq.symm)
      | cons b q => exact ⟨_, _, rfl⟩
  obtain ⟨q, rest', hq⟩ := hok
  obtain ⟨hch', _⟩ := C71_chosen a false c' q rest' hq
  rw [hline] at hch'
  exact ⟨rest', by rw [hq, chosen_unique hch hch']⟩

example : getPassword {} true ⟨[112, 10, 112, 10], true, true⟩ = .ok ([112], []) ∧ getPassword {} false ⟨[112], false, false⟩ = .ok ([112], []) := by
  refine ⟨?_, ?_⟩ <;> decide +kernel

/-- C71: `chpass` takes the same password as the other commands would with the same arguments.  Partial: not if a password is given as an argument
    but empty, see `C71_empty_argument_violated`. -/
theorem C71_chpass_partial (a : PassArgs) (confirm : Bool) (c : Console) (h : a.pass ≠ some []) : chpassPassword a confirm c = getPassword a confirm c := by
  unfold chpassPassword getPassword
  cases hp : a.pass with
  | none =>
    dsimp only
    by_cases hk : a.keyfile.getD [] = [] ∨ a.ask = true
    · have hk' : ¬(a.keyfile.getD [] ≠ [] ∧ a.ask = false) := by
        rintro ⟨h1, h2⟩
        rcases hk with hk | hk
        · exact h1 hk
        · rw [h2] at hk; cases hk
      rw [if_pos hk, if_neg hk']
    · have hk' : a.keyfile.getD [] ≠ [] ∧ a.ask = false := by
        refine ⟨fun h1 => hk (.inl h1), ?_⟩
        cases ha : a.ask with
        | true => exact absurd (.inr ha) hk
        | false => rfl
      rw [if_neg hk, if_pos hk']
  | some q =>
    cases q with
    | nil => exact absurd hp h
    | cons b q => rfl

example : chpassPassword { keyfile := some [107] } true ⟨[], false, false⟩ = .ok ([32], []) ∧
    chpassPassword { pass := some [113] } true ⟨[], false, false⟩ = .ok ([113], []) := by
  refine ⟨?_, ?_⟩ <;> decide +kernel

/-- C71 is violated: with an empty password as argument, `chpass` sets the empty password, and `mount` with the same argument does not use it but
    reads another one. -/
theorem C71_empty_argument_violated (c c' : Console) (line : Bytes) (hne : line ≠ []) (hl : line.length ≤ 4000) (hline : firstLine c'.input = line) :
    chpassPassword { pass := some [] } true c = .ok ([], c.input) ∧
      getPassword { pass := some [] } false c' = .ok (line, afterLine c'.input) ∧ line ≠ [] := by
  refine ⟨rfl, ?_, hne⟩
  show readPassword c'.input = _
  rw [readPassword_eq, hline, if_pos hl]

example : getPassword { pass := some [] } false ⟨[112, 10], false, false⟩ = .ok ([112], []) := by decide +kernel

/-- C71: `chpass` takes the old and the new password from two lines of a pipe.  Partial: the lines have to end with a single character, see
    `C71_crlf_violated`. -/
theorem C71_chpass_lines_partial (old new rest : Bytes) (h1 : OneLine old) (h2 : OneLine new) (hl1 : old.length ≤ 4000) (hl2 : new.length ≤ 4000)
    (errTty : Bool) : chpassPasswords {} {} ⟨old ++ 10 :: (new ++ 10 :: rest), false, errTty⟩ = .ok (old, new) := by
  obtain ⟨a1, a2⟩ := firstLine_append h1 (.inr rfl : (10 : UInt8) = 13 ∨ _) (new ++ 10 :: rest)
  obtain ⟨b1, b2⟩ := firstLine_append h2 (.inr rfl : (10 : UInt8) = 13 ∨ _) rest
  have e1 : chpassPassword {} false ⟨old ++ 10 :: (new ++ 10 :: rest), false, errTty⟩ = .ok (old, new ++ 10 :: rest) := by
    show readPassword _ = _
    rw [readPassword_eq, a1, if_pos hl1, a2]
  have e2 : chpassPassword {} true ⟨new ++ 10 :: rest, false, errTty⟩ = .ok (new, rest) := by
    show readPasswordTwice _ = _
    rw [C71_confirmed]
    exact ⟨hl2, b1, by rw [if_neg (by simp)]; exact b2⟩
  unfold chpassPasswords
  rw [e1]
  dsimp only
  rw [e2]

example : chpassPasswords {} {} ⟨[111, 10, 110, 10], false, true⟩ = .ok ([111], [110]) := by decide +kernel

/-- C71 is violated: if the lines of the pipe end with carriage return and line feed, the new password is the empty one, whatever the second line
    is. -/
theorem C71_crlf_violated (old new : Bytes) (h1 : OneLine old) (hl1 : old.length ≤ 4000) (errTty : Bool) :
    chpassPasswords {} {} ⟨old ++ 13 :: 10 :: (new ++ [13, 10]), false, errTty⟩ = .ok (old, []) := by
  obtain ⟨a1, a2⟩ := firstLine_append h1 (.inl rfl : (13 : UInt8) = 13 ∨ _) (10 :: (new ++ [13, 10]))
  have e1 : chpassPassword {} false ⟨old ++ 13 :: 10 :: (new ++ [13, 10]), false, errTty⟩ = .ok (old, 10 :: (new ++ [13, 10])) := by
    show readPassword _ = _
    rw [readPassword_eq, a1, if_pos hl1, a2]
  have e2 : chpassPassword {} true ⟨10 :: (new ++ [13, 10]), false, errTty⟩ = .ok ([], new ++ [13, 10]) := by
    show readPasswordTwice ⟨10 :: (new ++ [13, 10]), false, errTty⟩ = _
    rw [C71_confirmed]
    exact ⟨by decide, firstLine_end (.inr rfl), by rw [if_neg (by simp)]; exact afterLine_end (.inr rfl)⟩
  unfold chpassPasswords
  rw [e1]
  dsimp only
  rw [e2]

example : chpassPasswords {} {} ⟨[111, 13, 10, 110, 13, 10], false, true⟩ = .ok ([111], []) := by decide +kernel

/-! ## C72 -/

/-- C72: `create` accepts the arguments exactly if they ask for a volume, and then makes that one. -/
theorem C72_asked (R : CreateRandom) (a : CreateArgs) (d : DecParams) : createParams R a = .ok d ↔ AskedVolume a R d :=
  ⟨createParams_asked, createParams_of_asked⟩

/-- A draw of random values. -/
def toyDraw : CreateRandom :=
  ⟨List.replicate 32 1, List.replicate 32 2, List.replicate 32 3, List.replicate 32 4, List.replicate 12 5, List.replicate 32 6⟩

example : createParams toyDraw { dataDir := [100], format := [76, 105, 84, 69] } =
    .ok ⟨some ⟨4096, 12, 0⟩, .lite ⟨toyDraw.key1, toyDraw.key2, toyDraw.key3, toyDraw.key4, some 128, [46, 108, 108]⟩⟩ := by
  decide +kernel

example : createParams toyDraw { dataDir := [100], format := [120] } = .error .runtime ∧
    createParams toyDraw { dataDir := [100], format := [50], caseHandling := [120] } = .error .runtime := by
  refine ⟨?_, ?_⟩ <;> decide +kernel

/-- What is asked for can be written. -/
theorem askedVolume_ok {R : CreateRandom} (hR : DrawOk R) {a : CreateArgs} (ha : ArgsOk a) {d : DecParams} (h : AskedVolume a R d)
    (hutf : utf8Valid a.longNameSuffix = true) : d.Ok := by
  obtain ⟨r1, r2, r3, r4, _, _⟩ := hR
  obtain ⟨a1, a2, a3, a4, a5⟩ := ha
  rcases h with ⟨_, l, rfl, h1, h2, h3, h4, h5, h6⟩ | ⟨_, f, rfl, h1, _⟩
  · refine ⟨fun s hs => ?_, fun l' hl => ?_, nofun⟩
    · injection hs with hs
      subst hs
      exact ⟨a2, a1, a3⟩
    · injection hl with hl
      subst hl
      refine ⟨by rw [h1, r1]; decide, by rw [h2, r2]; decide, by rw [h3, r3]; decide, by rw [h4, r4]; decide, fun t ht => ?_, by rw [h5]; exact a5,
        by rw [h5]; exact hutf⟩
      rw [((h6 t).mp ht).1]; exact a4
  · refine ⟨fun s hs => ?_, nofun, fun l' hl => ?_⟩
    · injection hs with hs
      subst hs
      exact ⟨a2, a1, a3⟩
    · injection hl with hl
      subst hl
      show f.masterKey.length < _
      rw [h1, r1]; decide

/-- How a `create` that succeeds went. -/
theorem createVolume_ok {C : ConfCrypto} {O : WriteOracle} {R : CreateRandom} {argon : Argon2Params} {a : CreateArgs} {password keyfile : Bytes} {fs : PathFs}
    {ops : List FsOp} (h : createVolume C O R argon a password keyfile fs = (ops, .ok ())) :
    ∃ d key p, createParams R a = .ok d ∧ keyContent fs keyfile = .ok key ∧ encryptParams C d argon password key R.iv R.salt = .ok p ∧
      fs (createTarget a) = none ∧ ops = [.create (createTarget a), .write (createTarget a) p.serialize] := by
  unfold createVolume at h
  cases hd : createParams R a with
  | error e => rw [hd] at h; injection h with _ h; cases h
  | ok d =>
    rw [hd] at h
    dsimp only at h
    cases hk : keyContent fs keyfile with
    | error e => rw [hk] at h; injection h with _ h; cases h
    | ok key =>
      rw [hk] at h
      dsimp only at h
      cases hp : encryptParams C d argon password key R.iv R.salt with
      | error e => rw [hp] at h; injection h with _ h; cases h
      | ok p =>
        rw [hp] at h
        dsimp only at h
        split at h
        · injection h with _ h; cases h
        · rename_i hfs
          split at h
          · injection h with _ h; cases h
          · split at h
            · injection h with _ h; cases h
            · split at h
              · injection h with _ h; cases h
              · injection h with h _
                exact ⟨d, key, p, rfl, rfl, hp, Classical.byContradiction hfs, h.symm⟩

/-- After a `create` that succeeds, the path for reading is the one written, and it has the new content. -/
theorem createVolume_path {C : ConfCrypto} {O : WriteOracle} {R : CreateRandom} {argon : Argon2Params} {a : CreateArgs} {password keyfile : Bytes} {fs : PathFs}
    {ops : List FsOp} (h : createVolume C O R argon a password keyfile fs = (ops, .ok ())) :
    ∃ d key p, createParams R a = .ok d ∧ encryptParams C d argon password key R.iv R.salt = .ok p ∧
      ∀ json password' , readVolume C json (applyOps fs ops) a.dataDir a.config password' keyfile = decryptContent C json p.serialize password' key := by
  obtain ⟨d, key, p, h1, h2, h3, h4, h5⟩ := createVolume_ok h
  refine ⟨d, key, p, h1, h3, fun json password' => ?_⟩
  have hat : applyOps fs ops (createTarget a) = some p.serialize := by
    rw [h5]
    show PathFs.set _ _ _ _ = _
    unfold PathFs.set
    rw [if_pos rfl]
  have hother : ∀ q, q ≠ createTarget a → applyOps fs ops q = fs q := by
    intro q hq
    rw [h5]
    show PathFs.set _ _ _ _ = _
    unfold PathFs.set
    rw [if_neg hq]
    show PathFs.set _ _ _ _ = _
    unfold PathFs.set
    rw [if_neg hq]
  have hpath : configPathForReading (applyOps fs ops) a.dataDir a.config = .ok (createTarget a) := by
    unfold configPathForReading
    by_cases hc : a.config = []
    · rw [if_neg (fun hx => hx hc)]
      have ht : createTarget a = a.dataDir ++ configName := by unfold createTarget; rw [if_pos hc]
      rw [ht] at hat
      rw [if_pos (by rw [hat]; simp), ht]
    · rw [if_pos hc]
      unfold createTarget
      rw [if_neg hc]
  have hkey : keyContent (applyOps fs ops) keyfile = .ok key := by
    rw [← h2]
    unfold keyContent
    by_cases hk : keyfile = []
    · rw [if_pos hk, if_pos hk]
    · rw [if_neg hk, if_neg hk, hother]
      intro hx
      unfold keyContent at h2
      rw [if_neg hk, hx, h4] at h2
      cases h2
  unfold readVolume
  rw [hpath]
  dsimp only
  rw [hat]
  dsimp only
  rw [hkey]

/-- C72: A volume that was created is opened with the same credentials, and is the one that was asked for.  Partial: the suffix for long names has
    to be UTF-8, see `C72_suffix_violated`. -/
theorem C72_opens_partial (C : ConfCrypto) (hC : C.Lawful) (json : Bytes → Option LegacyParams) (O : WriteOracle) (R : CreateRandom) (hR : DrawOk R)
    (argon : Argon2Params) (hargon : argon.Ok) (a : CreateArgs) (ha : ArgsOk a) (hutf : utf8Valid a.longNameSuffix = true) (password keyfile : Bytes)
    (fs : PathFs) (ops : List FsOp) (h : createVolume C O R argon a password keyfile fs = (ops, .ok ())) :
    ∃ d, AskedVolume a R d ∧ readVolume C json (applyOps fs ops) a.dataDir a.config password keyfile = .ok d := by
  obtain ⟨d, key, p, h1, h2, h3⟩ := createVolume_path h
  have hask := createParams_asked h1
  refine ⟨d, hask, ?_⟩
  rw [h3]
  exact C46_round_trip_partial C hC json d (askedVolume_ok hR ha hask hutf) argon hargon password key R.iv R.salt hR.2.2.2.2.1 hR.2.2.2.2.2 p h2

/-- An operating system without errors. -/
def goodOracle : WriteOracle := ⟨true, some 10000, true, true⟩

/-- A machine with a key file `k`. -/
def toyMachine : PathFs := fun p => if p = [107] then some [1, 2, 3] else none

/-- A `create` on that machine. -/
def toyCreate (O : WriteOracle) (a : CreateArgs) (fs : PathFs) : List FsOp × Res Unit := createVolume toyConf O toyDraw ⟨1, 8, 1⟩ a [112] [107] fs

example : (toyCreate goodOracle { dataDir := [100] } toyMachine).2 = .ok () ∧
    readVolume toyConf (fun _ => none) (applyOps toyMachine (toyCreate goodOracle { dataDir := [100] } toyMachine).1) [100] [] [112] [107] =
      createParams toyDraw { dataDir := [100] } ∧ DrawOk toyDraw ∧ ArgsOk { dataDir := [100] } :=
  ⟨by decide +kernel, by decide +kernel, by unfold DrawOk; decide, by unfold ArgsOk; decide⟩

/-- C72: Whatever happens, `create` changes no file that existed, and no other file than the configuration; and if it reports an error that is not
    about writing, it has changed nothing. -/
theorem C72_touches (C : ConfCrypto) (O : WriteOracle) (R : CreateRandom) (argon : Argon2Params) (a : CreateArgs) (password keyfile : Bytes) (fs : PathFs)
    (ops : List FsOp) (r : Res Unit) (h : createVolume C O R argon a password keyfile fs = (ops, r)) :
    (∀ q, fs q ≠ none → applyOps fs ops q = fs q) ∧ (∀ q, q ≠ createTarget a → applyOps fs ops q = fs q) ∧
      (∀ e, r = .error e → e ≠ .vfs 5 → ops = []) := by
  have hcase : ops = [] ∨ (fs (createTarget a) = none ∧ ((ops = [.create (createTarget a)] ∧ r = .error (.vfs 5)) ∨
      ∃ data, ops = [.create (createTarget a), .write (createTarget a) data] ∧ (r = .error (.vfs 5) ∨ r = .ok ()))) := by
    unfold createVolume at h
    cases hd : createParams R a with
    | error e => rw [hd] at h; injection h with h _; exact .inl h.symm
    | ok d =>
      rw [hd] at h
      dsimp only at h
      cases hk : keyContent fs keyfile with
      | error e => rw [hk] at h; injection h with h _; exact .inl h.symm
      | ok key =>
        rw [hk] at h
        dsimp only at h
        cases hp : encryptParams C d argon password key R.iv R.salt with
        | error e => rw [hp] at h; injection h with h _; exact .inl h.symm
        | ok p =>
          rw [hp] at h
          dsimp only at h
          by_cases hfs : fs (createTarget a) = none
          · rw [if_neg (fun hx => hx hfs)] at h
            split at h
            · injection h with h _; exact .inl h.symm
            · cases hw : O.written with
              | none => rw [hw] at h; injection h with h1 h2; exact .inr ⟨hfs, .inl ⟨h1.symm, h2.symm⟩⟩
              | some n =>
                rw [hw] at h
                dsimp only at h
                split at h
                · injection h with h1 h2; exact .inr ⟨hfs, .inr ⟨_, h1.symm, .inl h2.symm⟩⟩
                · injection h with h1 h2; exact .inr ⟨hfs, .inr ⟨_, h1.symm, .inr h2.symm⟩⟩
          · rw [if_pos hfs] at h; injection h with h _; exact .inl h.symm
  rcases hcase with rfl | ⟨hfs, hcase⟩
  · exact ⟨fun _ _ => rfl, fun _ _ => rfl, fun _ _ _ => rfl⟩
  · have hother : ∀ q, q ≠ createTarget a → applyOps fs ops q = fs q := by
      intro q hq
      rcases hcase with ⟨rfl, _⟩ | ⟨data, rfl, _⟩ <;> simp [applyOps, FsOp.apply, PathFs.set, hq]
    refine ⟨fun q hq => hother q fun hx => hq (hx ▸ hfs), hother, fun e he hne => ?_⟩
    rcases hcase with ⟨_, hr⟩ | ⟨data, _, hr | hr⟩
    · rw [hr] at he; injection he with he; exact absurd he.symm hne
    · rw [hr] at he; injection he with he; exact absurd he.symm hne
    · rw [hr] at he; cases he

example : createVolume toyConf goodOracle toyDraw ⟨1, 8, 1⟩ { dataDir := [100], config := [107] } [112] [] toyMachine = ([], .error (.vfs 17)) := by
  decide +kernel

/-- C72 is violated: if not all of the configuration can be written, `create` reports an error but leaves the file there, and no later `create` with
    the same target succeeds. -/
theorem C72_torn_violated (C : ConfCrypto) (O : WriteOracle) (R : CreateRandom) (argon : Argon2Params) (a : CreateArgs) (password keyfile : Bytes)
    (fs : PathFs) (ops : List FsOp) (e : Err) (h : createVolume C O R argon a password keyfile fs = (ops, .error e)) (hops : ops ≠ []) :
    applyOps fs ops (createTarget a) ≠ none ∧
      ∀ (O' : WriteOracle) (R' : CreateRandom) (argon' : Argon2Params) (a' : CreateArgs) (password' keyfile' : Bytes), createTarget a' = createTarget a →
        ∀ ops', createVolume C O' R' argon' a' password' keyfile' (applyOps fs ops) ≠ (ops', .ok ()) := by
  have hex : applyOps fs ops (createTarget a) ≠ none := by
    unfold createVolume at h
    repeat' split at h
    all_goals injection h with h1 h2
    all_goals first
      | exact absurd h1.symm hops
      | (rw [← h1]; simp [applyOps, FsOp.apply, PathFs.set])
  refine ⟨hex, fun O' R' argon' a' password' keyfile' ht ops' hc => ?_⟩
  obtain ⟨_, _, _, _, _, _, hnone, _⟩ := createVolume_ok hc
  rw [ht] at hnone
  exact hex hnone

example : (toyCreate ⟨true, some 5, true, true⟩ { dataDir := [100] } toyMachine).2 = .error (.vfs 5) ∧
    (toyCreate ⟨true, some 5, true, true⟩ { dataDir := [100] } toyMachine).1 ≠ [] := ⟨by decide +kernel, by decide +kernel⟩

/-- C72 is violated: `create` succeeds in the directory of a volume with a configuration of the old name, which is from then on not found any
    more: every command without an explicit path to the configuration opens the new one. -/
theorem C72_shadow_violated (C : ConfCrypto) (O : WriteOracle) (R : CreateRandom) (argon : Argon2Params) (a : CreateArgs) (hconf : a.config = [])
    (password keyfile : Bytes) (fs : PathFs) (old : Bytes) (hnew : fs (a.dataDir ++ configName) = none)
    (hold : fs (a.dataDir ++ legacyConfigName) = some old) (ops : List FsOp)
    (h : createVolume C O R argon a password keyfile fs = (ops, .ok ())) :
    configPathForReading fs a.dataDir [] = .ok (a.dataDir ++ legacyConfigName) ∧
      configPathForReading (applyOps fs ops) a.dataDir [] = .ok (a.dataDir ++ configName) := by
  have ht : createTarget a = a.dataDir ++ configName := by unfold createTarget; rw [if_pos hconf]
  obtain ⟨_, _, p, _, _, _, _, hops⟩ := createVolume_ok h
  constructor
  · unfold configPathForReading
    rw [if_neg (by simp), if_neg (by rw [hnew]; simp), if_pos (by rw [hold]; simp)]
  · unfold configPathForReading
    rw [if_neg (by simp), if_pos]
    rw [hops, ht]
    simp [applyOps, FsOp.apply, PathFs.set]

example : (toyCreate goodOracle { dataDir := [100] } (toyMachine.set ([100] ++ legacyConfigName) (some [123]))).2 = .ok () := by decide +kernel

/-- C72 is violated: with a suffix for long names that is not UTF-8, `create` succeeds, and the volume cannot be opened. -/
theorem C72_suffix_violated (C : ConfCrypto) (hC : C.Lawful) (json : Bytes → Option LegacyParams) (O : WriteOracle) (R : CreateRandom) (hR : DrawOk R)
    (argon : Argon2Params) (hargon : argon.Ok) (a : CreateArgs) (ha : ArgsOk a) (hlite : SameWord a.format (word "lite"))
    (hutf : utf8Valid a.longNameSuffix = false) (password keyfile : Bytes) (fs : PathFs) (ops : List FsOp)
    (h : createVolume C O R argon a password keyfile fs = (ops, .ok ())) :
    readVolume C json (applyOps fs ops) a.dataDir a.config password keyfile = .error .runtime := by
  obtain ⟨d, key, p, h1, h2, h3⟩ := createVolume_path h
  rw [h3]
  have hask := createParams_asked h1
  have hl : AskedLite a R d := by
    rcases hask with ⟨_, hl⟩ | ⟨hf, hfull⟩
    · exact hl
    · have e1 := (equalsIgnoreCase_eq _ _).mpr hlite
      rcases hf with hf | hf
      · have e2 := (equalsIgnoreCase_eq _ _).mpr hf
        unfold equalsIgnoreCase at e1 e2
        rw [beq_iff_eq] at e1 e2
        exact absurd (e1.symm.trans e2) (by decide)
      · rw [hf] at e1
        exact absurd e1 (by decide)
  obtain ⟨l, hd, e1, e2, e3, e4, e5, e6⟩ := hl
  obtain ⟨r1, r2, r3, r4, r5, r6⟩ := hR
  obtain ⟨a1, a2, a3, a4, a5⟩ := ha
  have hk := (C46_encrypt_exact C hC d argon password key R.iv R.salt r6 p).mp h2
  obtain ⟨k, hk, _⟩ := hk
  obtain ⟨e, he, hx⟩ := C46_suffix_violated C hC json d l (by rw [hd]) (by rw [e5]; exact hutf)
    ⟨fun s hs => by
        rw [hd] at hs
        injection hs with hs
        subst hs
        exact ⟨a2, a1, a3⟩,
      fun l' hl' => by
        injection hl' with hl'
        subst hl'
        exact ⟨by rw [e1, r1]; decide, by rw [e2, r2]; decide, by rw [e3, r3]; decide, by rw [e4, r4]; decide,
          fun t ht => by rw [((e6 t).mp ht).1]; exact a4, (by decide : ([] : Bytes).length < 2 ^ 27), rfl⟩, nofun⟩
    (by rw [e5]; exact a5) argon hargon password key R.iv R.salt r5 r6 k hk
  rw [h2] at he
  injection he with he
  rw [he]
  exact hx

example : (toyCreate goodOracle { dataDir := [100], longNameSuffix := [255] } toyMachine).2 = .ok () ∧ utf8Valid [255] = false ∧
    SameWord ({ dataDir := [100], longNameSuffix := [255] } : CreateArgs).format (word "lite") :=
  ⟨by decide +kernel, by decide +kernel, (equalsIgnoreCase_eq _ _).mp (by decide)⟩

/-- C72 is violated: `create` accepts sizes of the lite format with which no file can be opened: any IV size below 12 or above 32, and any block size
    below 32. -/
theorem C72_sizes_violated (R : CreateRandom) (a : CreateArgs) (hlite : SameWord a.format (word "lite"))
    (hbad : a.ivSize < 12 ∨ 32 < a.ivSize ∨ a.blockSize < 32) :
    ∃ d, createParams R a = .ok d ∧ d.size = some ⟨a.blockSize, a.ivSize, a.maxPadding⟩ ∧
      ∀ (L : LiteCfg), L.bs = a.blockSize → L.ivSize = a.ivSize → ∀ st, L.openFile st = .error .invalidArg := by
  refine ⟨_, createParams_of_asked (.inl ⟨.inl hlite, ⟨R.key1, R.key2, R.key3, R.key4,
    if 0 < a.longNameThreshold then some a.longNameThreshold else none, a.longNameSuffix⟩, rfl, rfl, rfl, rfl, rfl, rfl, ?_⟩), rfl, ?_⟩
  · intro t
    dsimp only
    split
    · constructor
      · intro ht
        injection ht with ht
        exact ⟨ht.symm, by omega⟩
      · rintro ⟨h1, _⟩; rw [h1]
    · exact ⟨fun ht => (by cases ht), fun ⟨h1, h2⟩ => absurd h1 (by omega)⟩
  · intro L h1 h2 st
    unfold LiteCfg.openFile
    rw [h1, h2]
    by_cases hiv : a.ivSize < 12 ∨ a.ivSize > 32
    · rw [if_pos hiv]
    · rw [if_neg hiv, if_pos (by omega)]

example : SameWord ({ dataDir := [], ivSize := 8 } : CreateArgs).format (word "lite") := (equalsIgnoreCase_eq _ _).mp (by decide)

/-- C72 is violated: `create` accepts an IV size of zero in the full format, with which the first write to a file never ends, as the IV that is drawn
    is all zeros again and again. -/
theorem C72_full_iv_violated (R : CreateRandom) (a : CreateArgs) (hfull : a.format = word "2") (hc : a.caseHandling = word "sensitive")
    (hu : a.uninorm = word "sensitive") (hiv : a.ivSize = 0) :
    ∃ d, createParams R a = .ok d ∧ d.size = some ⟨a.blockSize, 0, a.maxPadding⟩ ∧
      ∀ (G : Rng), (∀ n size, (G.draw n size).length = size) → ∀ fuel n, drawIv G a.ivSize fuel n = .error .diverge := by
  refine ⟨_, createParams_of_asked (.inr ⟨.inr hfull, ⟨R.key1, false, false, false, false⟩, rfl, rfl, .inr ⟨rfl, hc⟩, .inr ⟨rfl, hu⟩, rfl, rfl⟩),
    by rw [hiv], ?_⟩
  intro G hG fuel
  induction fuel with
  | zero => intro n; rfl
  | succ fuel ih =>
    intro n
    unfold drawIv
    have hz : allZeros (G.draw n a.ivSize) = true := by
      rw [List.eq_nil_of_length_eq_zero ((hG n a.ivSize).trans hiv)]; rfl
    rw [if_pos hz]
    exact ih (n + 1)

example : Except.map DecParams.size (createParams toyDraw { dataDir := [100], format := [50], ivSize := 0 }) = .ok (some ⟨4096, 0, 0⟩) := by decide +kernel

/-! ## C73 -/

/-- C73: Without `--unmask`, what `info` prints does not depend on the keys, and everything else is printed as it is. -/
theorem C73_masked (print : DecParams → Option Bytes) (d d' : DecParams) (h : SamePublic d d') :
    infoOutput print false d = infoOutput print false d' ∧ SamePublic d (maskParams d) := by
  cases h with
  | none => exact ⟨rfl, .none _⟩
  | lite => exact ⟨rfl, .lite _ _ _ _ _ _ _ _ _ _ _⟩
  | full => exact ⟨rfl, .full _ _ _ _ _ _ _⟩

/-- C73: With `--unmask` the whole configuration is printed. -/
theorem C73_unmasked (print : DecParams → Option Bytes) (d : DecParams) (s : Bytes) (h : print d = some s) :
    infoOutput print true d = .ok (s ++ [10]) := by
  unfold infoOutput
  rw [if_pos rfl, h]

/-- A printer that shows everything. -/
def toyPrinter (d : DecParams) : Option Bytes := some d.serialize

example : SamePublic toyLiteVolume { toyLiteVolume with format := .lite ⟨[9], [], [7], [8], some 128, [46, 108, 108]⟩ } ∧
    infoOutput toyPrinter false toyLiteVolume = .ok [10, 5, 8, 128, 32, 16, 12, 18, 8, 40, 128, 1, 50, 3, 46, 108, 108, 10] ∧
    infoOutput toyPrinter true toyLiteVolume ≠ infoOutput toyPrinter false toyLiteVolume :=
  ⟨.lite _ _ _ _ _ _ _ _ _ _ _, by decide +kernel, by decide +kernel⟩

/-! ## C76 -/

/-- Byte 0 and byte 1 of an argument that is not empty. -/
theorem cStringAt_cons (b : UInt8) (s : Bytes) : cStringAt (b :: s) 0 = .ok b ∧ (s = [] → cStringAt (b :: s) 1 = .ok 0) ∧
    ∀ x t, s = x :: t → cStringAt (b :: s) 1 = .ok x := by
  refine ⟨rfl, ?_, ?_⟩
  · rintro rfl; rfl
  · rintro x t rfl; rfl

/-- C76: An argument that is not empty selects the command of which it is a name, and only that one; without such a command the usage is printed.
    Partial: see `C76_empty_violated`. -/
theorem C76_dispatch_partial (arg : Bytes) (rest : List Bytes) (hne : arg ≠ []) (hz : 0 ∉ arg) (r : Res (Option Command))
    (h : dispatch (arg :: rest) = r) :
    (∃ c, r = .ok (some c) ∧ arg ∈ Names c ∧ ∀ c', arg ∈ Names c' → c' = c) ∨ (r = .ok none ∧ ∀ c, arg ∉ Names c) := by
  have hmatch : ∀ c, commandMatches arg c = .ok (decide (arg ∈ Names c)) := by
    intro c
    obtain ⟨b, s, rfl⟩ := List.exists_cons_of_ne_nil hne
    obtain ⟨h0, h1, h2⟩ := cStringAt_cons b s
    have hb : b ≠ 0 := fun hb => hz (hb ▸ List.mem_cons_self)
    have hnames : (b :: s ∈ Names c) ↔ (b :: s = c.longName ∨ (s = [] ∧ b = c.shortName)) := by
      cases c <;> simp [Names, word, Command.longName, Command.shortName, hb, and_comm]
    unfold commandMatches
    rw [h0]
    by_cases hl : b :: s = c.longName
    · rw [if_pos hl, decide_eq_true (hnames.mpr (.inl hl))]
    · rw [if_neg hl]
      dsimp only
      by_cases hs : b = c.shortName
      · rw [if_pos hs]
        cases s with
        | nil =>
          rw [h1 rfl]
          dsimp only
          rw [decide_eq_true (hnames.mpr (.inr ⟨rfl, hs⟩))]
          rfl
        | cons x t =>
          rw [h2 x t rfl]
          dsimp only
          have hx : x ≠ 0 := fun hx => hz (hx ▸ List.mem_cons_of_mem _ List.mem_cons_self)
          rw [decide_eq_false hx, decide_eq_false]
          intro hm
          rcases hnames.mp hm with hm | ⟨hm, _⟩
          · exact hl hm
          · cases hm
      · rw [if_neg hs, decide_eq_false]
        intro hm
        rcases hnames.mp hm with hm | ⟨_, hm⟩
        · exact hl hm
        · exact hs hm
  have hloop : ∀ cs : List Command, (∃ c ∈ cs, dispatchLoop arg cs = .ok (some c) ∧ arg ∈ Names c) ∨
      (dispatchLoop arg cs = .ok none ∧ ∀ c ∈ cs, arg ∉ Names c) := by
    intro cs
    induction cs with
    | nil => exact .inr ⟨rfl, nofun⟩
    | cons c cs ih =>
      unfold dispatchLoop
      rw [hmatch]
      by_cases hm : arg ∈ Names c
      · rw [decide_eq_true hm]
        exact .inl ⟨c, List.mem_cons_self, rfl, hm⟩
      · rw [decide_eq_false hm]
        rcases ih with ⟨x, hx, h1, h2⟩ | ⟨h1, h2⟩
        · exact .inl ⟨x, List.mem_cons_of_mem _ hx, h1, h2⟩
        · refine .inr ⟨h1, fun x hx => ?_⟩
          rcases List.mem_cons.mp hx with rfl | hx
          · exact hm
          · exact h2 x hx
  have hall : ∀ c : Command, c ∈ commandOrder := by intro c; cases c <;> decide
  have hdisj : ∀ c c' : Command, arg ∈ Names c → arg ∈ Names c' → c' = c := by
    have hd : ∀ c c' : Command, c' ≠ c → ∀ x ∈ Names c, x ∉ Names c' := by
      intro c c'
      cases c <;> cases c' <;> first | (intro h; exact absurd rfl h) | (intro _; decide)
    intro c c' h1 h2
    exact Classical.byContradiction fun hx => hd c c' hx arg h1 h2
  have hd : dispatch (arg :: rest) = dispatchLoop arg commandOrder := rfl
  rw [hd] at h
  rcases hloop commandOrder with ⟨c, _, h1, h2⟩ | ⟨h1, h2⟩
  · exact .inl ⟨c, h ▸ h1, h2, fun c' hc' => hdisj c c' h2 hc'⟩
  · exact .inr ⟨h ▸ h1, fun c => h2 c (hall c)⟩

example : dispatch [[109]] = .ok (some .mount) ∧ dispatch [[100, 111, 99]] = .ok (some .doc) ∧ dispatch [[120]] = .ok none ∧ dispatch [] = .ok none := by
  refine ⟨?_, ?_, ?_, ?_⟩ <;> decide +kernel

/-- C76 is violated: an empty argument is compared with the short name 0 that stands for no short name, and then the byte behind the end of the
    argument is read. -/
theorem C76_empty_violated (rest : List Bytes) : dispatch ([] :: rest) = .error .outOfBounds := by
  show dispatchLoop [] commandOrder = _
  decide +kernel

end Securefs.Props
