import Verif.Proofs.PairMemP
import Verif.Proofs.PairMemLimbs
import Verif.Model.Sm9Pairing
/-! Helper lemmas for C102 with 32-bit limbs: the functions on values are those of `Verif.Model.Sm9Pairing`. -/
namespace Verif.PairMem
open Verif Verif.Alias Verif.Spec.Alias

theorem build32_ok : BuildOk build32 rd8 Sm9.fp Sm9.fpFromBytes where
  pos := by decide
  lv := level_fp (ctx := Sm9.fpCtx) (by decide) (by decide)
  fb_ok bs hl := fromBytes32 (ctx := Sm9.fpCtx) (by decide) (by decide) bs hl

theorem frob_eq : frobV Sm9.fp Sm9.fpFromBytes = Sm9.fp12Frob := rfl
theorem frob2_eq : frob2V Sm9.fp Sm9.fpFromBytes = Sm9.fp12Frob2 := rfl
theorem frob3_eq : frob3V Sm9.fp Sm9.fpFromBytes = Sm9.fp12Frob3 := rfl
theorem frob6_eq : frob6V Sm9.fp = Sm9.fp12Frob6 := rfl
theorem frobA_eq : frobAV Sm9.fp Sm9.fpFromBytes = Sm9.j2FrobA := rfl
theorem frob2A_eq : frob2AV Sm9.fp Sm9.fpFromBytes = Sm9.j2Frob2A := rfl
theorem hard_eq : hardV Sm9.fp Sm9.fpFromBytes = Sm9.finalExpHard := rfl
theorem final_eq : finalV Sm9.fp Sm9.fpFromBytes = Sm9.finalExp := rfl
theorem tangent_eq : tangentV Sm9.fp = Sm9.gTangent := rfl
theorem lineJ_eq : lineJV Sm9.fp = Sm9.gLineJ := rfl
theorem lineA_eq : lineAV Sm9.fp = Sm9.gLineA := rfl
theorem step_eq : millerStepV Sm9.fp = Sm9.millerStep := rfl
theorem loop_eq (P : Sm9.A) (Q nQ : Sm9.A2) : ∀ (cs : List Char) (f : Sm9.F12) (T : Sm9.J2),
    millerLoopV Sm9.fp P Q nQ cs f T = Sm9.millerLoop P Q nQ cs f T
  | [], _, _ => rfl
  | c :: cs, f, T => by
    unfold millerLoopV Sm9.millerLoop
    rw [step_eq]
    cases Sm9.millerStep P Q nQ c f T with
    | none => rfl
    | some v => exact loop_eq P Q nQ cs v.1 v.2
theorem miller_eq : millerV Sm9.fp Sm9.fpFromBytes = Sm9.miller := by
  funext P Q
  unfold millerV Sm9.miller
  dsimp only
  rw [loop_eq, frobA_eq, frob2A_eq, lineJ_eq]
  rfl
theorem pairing_eq : pairingV Sm9.fp Sm9.fpFromBytes = Sm9.pairing := by
  funext P Q
  unfold pairingV Sm9.pairing
  rw [miller_eq, final_eq]

end Verif.PairMem
