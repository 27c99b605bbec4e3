import Verif.Proofs.PairMemP
import Verif.Proofs.PairMemX64
import Verif.Model.Sm9X64
/-! Helper lemmas for C102 with 64-bit limbs: the functions on values are those of `Verif.Model.Sm9X64`. -/
namespace Verif.X64.PairMem
open Verif.Alias hiding sm2Fp sm9Fp sm9Fp2 sm9Fp4 sm9Fp12 rdFp2 rdFp4 rdFp12 rdEcA rdEcJ rdEc2A rdEc2J memDiv2
open Verif.PairMem hiding memFromBytes memPow memPowAt memInvP sm9Sqrt sm2Sqrt mulA const_safe
open Verif Verif.Spec.Alias Verif.X64.Alias

theorem build64_ok : BuildOk build64 rdW Sm9.fp Sm9.fpFromBytes where
  pos := by decide
  lv := level_fp (ctx := sm9FpCtx) (by decide) (by decide)
  fb_ok bs hl := fromBytes64 (ctx := sm9FpCtx) (by decide) (by decide) bs hl

theorem frob_eq : frobV Sm9.fp Sm9.fpFromBytes = Sm9.fp12Frob := rfl
theorem frob2_eq : frob2V Sm9.fp Sm9.fpFromBytes = Sm9.fp12Frob2 := rfl
theorem frob3_eq : frob3V Sm9.fp Sm9.fpFromBytes = Sm9.fp12Frob3 := rfl
theorem frob6_eq : frob6V Sm9.fp = Sm9.fp12Frob6 := rfl
theorem frobA_eq : frobAV Sm9.fp Sm9.fpFromBytes = Sm9.j2FrobA := rfl
theorem frob2A_eq : frob2AV Sm9.fp Sm9.fpFromBytes = Sm9.j2Frob2A := rfl
theorem hard_eq : hardV Sm9.fp Sm9.fpFromBytes = Sm9.finalExpHard := rfl
theorem final_eq : finalV Sm9.fp Sm9.fpFromBytes = Sm9.finalExp := rfl
theorem tangent_eq : tangentV Sm9.fp = Sm9.gTangent := rfl
theorem lineJ_eq : lineJV Sm9.fp = Sm9.gLineJ := rfl
theorem lineA_eq : lineAV Sm9.fp = Sm9.gLineA := rfl
theorem step_eq : millerStepV Sm9.fp = Sm9.millerStep := rfl
theorem loop_eq (P : Sm9.A) (Q nQ : Sm9.A2) : ∀ (cs : List Char) (f : Sm9.F12) (T : Sm9.J2),
    millerLoopV Sm9.fp P Q nQ cs f T = Sm9.millerLoop P Q nQ cs f T
  | [], _, _ => rfl
  | c :: cs, f, T => by
    unfold millerLoopV Sm9.millerLoop
    rw [X64.PairMem.step_eq]
    cases Sm9.millerStep P Q nQ c f T with
    | none => rfl
    | some v => exact loop_eq P Q nQ cs v.1 v.2
theorem miller_eq : millerV Sm9.fp Sm9.fpFromBytes = Sm9.miller := by
  funext P Q
  unfold millerV Sm9.miller
  dsimp only
  rw [loop_eq, frobA_eq, frob2A_eq, lineJ_eq]
  rfl
theorem pairing_eq : pairingV Sm9.fp Sm9.fpFromBytes = Sm9.pairing := by
  funext P Q
  unfold pairingV Sm9.pairing
  rw [miller_eq, final_eq]

end Verif.X64.PairMem
