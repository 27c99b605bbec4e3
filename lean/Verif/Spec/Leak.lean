import Verif.Spec.StreamCaller
import Verif.Spec.Gcm
/-!
# Specification: the blocks of a message and of what became of it

Used by C94.  Block numbers start at 0.
-/
namespace Verif.Spec.Leak
open Verif.Spec.Modes

/-- Block `j` of a byte string. -/
def blockAt (b : Nat) (l : Bytes) (j : Nat) : Bytes := (l.drop (j * b)).take b

/-- The ciphertext block before block `j`; the IV before the first. -/
def before (b : Nat) (iv Y : Bytes) (j : Nat) : Bytes := if j = 0 then iv else blockAt b Y (j - 1)

/-- What hides block `j` of `X` in `Y`: the bytes by which they differ. -/
def mask (b : Nat) (X Y : Bytes) (j : Nat) : Bytes := xorB (blockAt b X j) (blockAt b Y j)

/-- Different blocks have different images. -/
def InjOn (b : Nat) (E : Bytes → Bytes) : Prop := ∀ x y : Bytes, x.length = b → y.length = b → E x = E y → x = y

end Verif.Spec.Leak
