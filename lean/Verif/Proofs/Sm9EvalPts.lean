import Verif.Proofs.Sm9EvalGen
import Verif.Proofs.Sm9Hash
/-!
# A signature: points

The points of the signature of "Chinese IBS standard" by "Alice" (hid = 1) under the master key 1 with the random number 1,
and SM3: `h = H2(msg ‖ g)`, `S = [(1 - h) / (h1 + 1)]P1`, and the verifier's `[h1 + 1]P2`.
-/
set_option linter.constructorNameAsVariable false
open WeierstrassCurve WeierstrassCurve.Affine
namespace Verif
open Spec

/-- `H1("Alice" ‖ 01)`. -/
def alH1 : Nat := 0x2acc468c3926b0bdb2767e99ff26e084de9ced8dbc7d5fbf418027b667862fab
/-- `H2(msg ‖ g)`. -/
def alH : Nat := 0xc019604e33e5da6ab7a9860b1597a9dc32d4377bcab5a71a4d8931898c7eef0
/-- `(1 - h) / (h1 + 1)` modulo `N`. -/
def alA : Nat := 0x1976041895b530ab74998944385f92fff6775c2765e478f217946689688d0f2
def alAx : Nat := 0x9a967c65b0ecce966363c64437dd8c5f79c6f0df931a0fa9fa80f858766d94a7
def alAy : Nat := 0x4b1fc6a5a4894565f26e82b059a1295302f4a231399ab970515de0a939c3e47
def alQ : EcA (Nat × Nat) :=
  ⟨(0xe454d258a589675848e3e16851022692c76df715b9839355079c08da0cca9cf,
    0x5f3b8e6269e8ce39c1447dbdd2e2cc3896255888d5aca34af3588ab0f64b712),
   (0x83e03b9dac02b961fd582107ff919f2cc78eecfffe56e1d3496cbbe6a0d95de,
    0x20bb3ac7a28a7e0606df09a6032a55b42bdf8c309336d138472d099743d9991)⟩

end Verif
