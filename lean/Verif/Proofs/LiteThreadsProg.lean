import Verif.Model.LiteThreads
/-! The streams as sequences of system calls are those of `Verif/Model/Faults.lean`. -/

namespace Securefs

namespace SysProg
variable {σ α β : Type}

theorem toFIO_bind (p : SysProg σ α) (g : α → SysProg σ β) : (p.bind g).toFIO = p.toFIO.bind fun a => (g a).toFIO := by
  induction p with
  | done r => cases r <;> rfl
  | silent u k ih =>
    funext F
    change ((k F.st).bind g).toFIO ⟨u F.st, F.plan⟩ = _
    rw [ih]
    rfl
  | sys w f k ih =>
    funext F
    obtain ⟨st, plan⟩ := F
    rcases plan with _ | ⟨x | x, p⟩
    · change ((k st).bind g).toFIO ⟨w st, []⟩ = _
      rw [ih]
      rfl
    · change ((k st).bind g).toFIO ⟨w st, p⟩ = _
      rw [ih]
      rfl
    · rfl

theorem toFIO_ret (a : α) : (ret a : SysProg σ α).toFIO = FIO.ret a := rfl

theorem toFIO_done (r : Res α) : (done r : SysProg σ α).toFIO = FIO.lift r := rfl

theorem toFIO_ask (f : σ → α) : (ask f).toFIO = FIO.sys (fun s => (f s, s)) (fun _ s => s) := by
  funext F
  obtain ⟨st, plan⟩ := F
  rcases plan with _ | ⟨x | x, p⟩ <;> rfl

theorem toFIO_tell (w : σ → σ) (g : Nat → σ → σ) : (tell w g).toFIO = FIO.sys (fun s => ((), w s)) g := by
  funext F
  obtain ⟨st, plan⟩ := F
  rcases plan with _ | ⟨x | x, p⟩ <;> rfl

theorem toFIO_ite (c : Prop) [Decidable c] (p q : SysProg σ α) : (if c then p else q).toFIO = if c then p.toFIO else q.toFIO := by
  by_cases h : c
  · rw [if_pos h, if_pos h]
  · rw [if_neg h, if_neg h]

end SysProg

/-- The device with failures that a device of system calls is. -/
def ProgDev.toFault {σ : Type} (D : ProgDev σ) : FaultDev σ :=
  ⟨D.bs, D.sparse, D.size.toFIO, fun s e => (D.readMulti s e).toFIO, fun s e r i => (D.writeMulti s e r i).toFIO, fun n => (D.adjust n).toFIO⟩

namespace ProgDev
open SysProg
variable {σ : Type} (D : ProgDev σ)

theorem read_to (off len : Nat) : (D.read off len).toFIO = D.toFault.read off len := by
  unfold read FaultDev.read
  simp only [toFIO_ite, toFIO_bind, toFIO_done, toFIO_ret]
  rfl

theorem rmwHead_to (sb sr eb : Nat) (b : Bytes) : (D.rmwHead sb sr eb b).toFIO = D.toFault.rmwHead sb sr eb b := by
  unfold rmwHead FaultDev.rmwHead
  simp only [toFIO_ite, toFIO_bind, toFIO_done, toFIO_ret]
  rfl

theorem rmwTail_to (sb eb er : Nat) (b : Bytes) : (D.rmwTail sb eb er b).toFIO = D.toFault.rmwTail sb eb er b := by
  unfold rmwTail FaultDev.rmwTail
  simp only [toFIO_ite, toFIO_bind, toFIO_done, toFIO_ret]
  rfl

theorem uw_to (inp : WInput) (off len : Nat) : (D.uncheckedWrite inp off len).toFIO = D.toFault.uncheckedWrite inp off len := by
  unfold uncheckedWrite FaultDev.uncheckedWrite
  cases inp <;> simp only [toFIO_ite, toFIO_bind, toFIO_done, toFIO_ret, rmwHead_to, rmwTail_to] <;> rfl

theorem zf_to (off fin : Nat) : (D.zeroFillTo off fin).toFIO = D.toFault.zeroFillTo off fin := D.uw_to _ _ _

theorem shrink_to (n : Nat) : (D.shrinkPrep n).toFIO = D.toFault.shrinkPrep n := by
  unfold shrinkPrep FaultDev.shrinkPrep
  simp only [toFIO_ite, toFIO_bind, toFIO_done, toFIO_ret]
  rfl

theorem grow_to (cur n : Nat) : (D.growPrep cur n).toFIO = D.toFault.growPrep cur n := by
  unfold growPrep FaultDev.growPrep
  simp only [toFIO_ite, zf_to]
  rfl

theorem ur_to (cur n : Nat) : (D.uncheckedResize cur n).toFIO = D.toFault.uncheckedResize cur n := by
  unfold uncheckedResize FaultDev.uncheckedResize
  simp only [toFIO_ite, toFIO_bind, toFIO_ret, shrink_to, grow_to]
  rfl

theorem resize_to (n : Nat) : (D.resize n).toFIO = D.toFault.resize n := by
  unfold resize FaultDev.resize
  simp only [toFIO_bind, ur_to]
  rfl

theorem write_to (off : Nat) (d : Bytes) : (D.write off d).toFIO = D.toFault.write off d := by
  unfold write FaultDev.write
  simp only [toFIO_ite, toFIO_bind, toFIO_ret, ur_to, uw_to]
  rfl

theorem call_to (c : Spec.FileCall) : (D.call c).toFIO = D.toFault.call c := by
  cases c <;> simp only [call, FaultDev.call, toFIO_bind, toFIO_ret, read_to, write_to, resize_to] <;> rfl

end ProgDev

namespace LiteCfg
open SysProg
variable (C : LiteCfg) (o : LiteObj)

theorem writeMultiP_to (s e r : Nat) (input : Bytes) : (C.writeMultiP o s e r input).toFIO = C.writeMultiF o s e r input := by
  unfold writeMultiP writeMultiF
  rw [toFIO_ite]
  by_cases h : e > liteMaxBlocks
  · simp only [if_pos h]; rfl
  · simp only [if_neg h]
    funext F
    simp only [toFIO]
    rcases C.writeLoop o (e - s + 1) s ((e - s) * C.ubs + (if r ≤ 0 then 0 else r + C.ivSize + 16)) F.st.rng input with er | q
    · rfl
    · simp only [toFIO_tell]

theorem progDev_to : (C.progDev o).toFault = C.faultDev o := by
  unfold ProgDev.toFault faultDev progDev
  simp only [FaultDev.mk.injEq, true_and]
  refine ⟨toFIO_ask _, ?_, ?_, ?_⟩
  · funext s e
    unfold readMultiF
    simp only [toFIO_ite, toFIO_bind, toFIO_done, toFIO_ask]
  · funext s e r input
    exact C.writeMultiP_to o s e r input
  · funext n
    exact toFIO_tell _ _

theorem openP_to : C.openP.toFIO = C.openF := by
  unfold openP openF
  simp only [toFIO_ite, toFIO_bind, toFIO_done, toFIO_ask]
  by_cases h1 : C.ivSize < 12 ∨ C.ivSize > 32
  · simp only [if_pos h1]
  by_cases h2 : C.bs < 32
  · simp only [if_neg h1, if_pos h2]
  simp only [if_neg h1, if_neg h2]
  congr 1
  funext id
  by_cases h3 : id.length = 0
  · simp only [if_pos h3]
    funext F
    simp only [toFIO, toFIO_bind, toFIO_tell, toFIO_ite]
    change _ = FIO.bind (FIO.sys _ _) _ _
    congr 1
  · simp only [if_neg h3]
    by_cases h4 : id.length ≠ 16
    · simp only [if_pos h4]
    · simp only [if_neg h4]
      by_cases h5 : C.padding id = 0
      · simp only [if_pos h5]; rfl
      · simp only [if_neg h5]
        congr 1
        funext pad
        by_cases h6 : pad.length ≠ C.padding id
        · simp only [if_pos h6]
        · simp only [if_neg h6]; rfl

end LiteCfg

end Securefs
