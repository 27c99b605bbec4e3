import Verif.Model.MontX64
import Verif.Spec.Mont
/-! # Specification: well-formed Montgomery contexts and reduced operands, 64-bit limbs -/
namespace Verif.Spec.X64

/-- A four-limb array holding a number below `p`. -/
def Reduced (p : Nat) (a : List W64) : Prop := a.length = 4 ∧ val a < p

/-- `ctx` is the context the library builds for the odd modulus `2 < p < 2^256`: the arrays hold `p`,
`p - 2`, `2^256 mod p`, `2^512 mod p`, and `N_` is what `mont_compute_N_` returns for the lowest limb. -/
structure IsMontCtx (ctx : Verif.X64.Mont256CTX) (p : Nat) : Prop where
  odd : p % 2 = 1
  gt_two : 2 < p
  P : ctx.P.length = 4 ∧ val ctx.P = p
  PSub2 : ctx.PSub2.length = 4 ∧ val ctx.PSub2 = p - 2
  R : ctx.R.length = 4 ∧ val ctx.R = 2 ^ 256 % p
  RPow2 : ctx.RPow2.length = 4 ∧ val ctx.RPow2 = 2 ^ 512 % p
  N_ : ctx.P.head?.bind Verif.X64.montComputeN = some ctx.N_

end Verif.Spec.X64
