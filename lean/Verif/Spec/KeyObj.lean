import Verif.Spec.Num
import Verif.Spec.Curves
import Verif.Model.KeyObj
/-!
# What a user expects of a key object: it holds the key of the last call that was accepted
-/
namespace Verif
open KeyObj Spec

/-- The private key a call asks for, when it is one the class accepts: `set_priv` takes `[1, max]`, a generator's answer
is reduced modulo `n - 1` and increased by 1. -/
def keyOf (max n : Nat) : PrivCall → Option Nat
  | .setPriv key => if 1 ≤ beVal key ∧ beVal key ≤ max then some (beVal key) else none
  | .genPriv (some rnd) => some (beVal rnd % (n - 1) + 1)
  | .genPriv none => none

/-- The octet strings of a call have 32 octets. -/
def CallLen : PrivCall → Prop
  | .setPriv key => key.length = 32
  | .genPriv (some rnd) => rnd.length = 32
  | .genPriv none => True

/-- The last accepted one of a sequence, `none` when none was accepted. -/
def lastSome {α β : Type} (f : α → Option β) : List α → Option β
  | [] => none
  | c :: cs => (lastSome f cs).or (f c)

end Verif
