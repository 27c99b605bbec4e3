import Verif.Spec.Gcm
/-! # Specification: forging GCM messages -/
namespace Verif.Spec.Gcm
open Verif.Spec.Modes

/-- The cipher `E0`, except that the zero block is mapped to `H`: the hash key of GCM under this cipher is `H`. -/
def withKey (E0 : Bytes → Bytes) (H : Bytes) : Bytes → Bytes := fun b => if b = List.replicate 16 0 then H else E0 b

/-- The number of 16-byte blocks GHASH processes: AAD, ciphertext, lengths. -/
def nblocks (aad ct : Bytes) : Nat := (aad.length + 15) / 16 + (ct.length + 15) / 16 + 1

end Verif.Spec.Gcm
