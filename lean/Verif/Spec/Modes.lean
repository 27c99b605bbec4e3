import Verif.Spec.Num
/-!
# Specification: SP 800-38A block cipher modes of operation

`E` and `D` are the forward and inverse cipher functions for a fixed key, on blocks of `b` bytes.
CFB is the full-block variant (`s = 8b`) in which, as for OFB and CTR, a last partial block is xored with
the leading bytes of the output block (`List.zipWith` stops at the shorter operand).
-/
namespace Verif.Spec.Modes

abbrev Bytes := List (BitVec 8)

def xorB (a b : Bytes) : Bytes := List.zipWith (· ^^^ ·) a b

/-- Cut a byte string into `b`-byte blocks; the last one may be shorter. -/
def blocks (b : Nat) (l : Bytes) : List Bytes :=
  if _h : b = 0 ∨ l = [] then [] else l.take b :: blocks b (l.drop b)
termination_by l.length
decreasing_by
  have : 0 < l.length := List.length_pos_iff.mpr (fun e => _h (.inr e))
  simp only [List.length_drop]; omega

/-- 6.1 ECB: `C_j = E(P_j)` (decryption with `D` for `E`). -/
def ecb (E : Bytes → Bytes) (ps : List Bytes) : List Bytes := ps.map E

/-- 6.2 CBC encryption: `C_j = E(P_j ⊕ C_{j-1})`, `C_0 = IV`. -/
def cbcEnc (E : Bytes → Bytes) : Bytes → List Bytes → List Bytes
  | _, [] => []
  | iv, p :: ps => E (xorB p iv) :: cbcEnc E (E (xorB p iv)) ps

/-- 6.2 CBC decryption: `P_j = D(C_j) ⊕ C_{j-1}`. -/
def cbcDec (D : Bytes → Bytes) : Bytes → List Bytes → List Bytes
  | _, [] => []
  | iv, c :: cs => xorB (D c) iv :: cbcDec D c cs

/-- 6.3 CFB encryption: `C_j = P_j ⊕ E(C_{j-1})`. -/
def cfbEnc (E : Bytes → Bytes) : Bytes → List Bytes → List Bytes
  | _, [] => []
  | iv, p :: ps => xorB p (E iv) :: cfbEnc E (xorB p (E iv)) ps

/-- 6.3 CFB decryption: `P_j = C_j ⊕ E(C_{j-1})`. -/
def cfbDec (E : Bytes → Bytes) : Bytes → List Bytes → List Bytes
  | _, [] => []
  | iv, c :: cs => xorB c (E iv) :: cfbDec E c cs

/-- 6.4 OFB: `O_j = E(O_{j-1})`, `C_j = P_j ⊕ O_j` (both directions). -/
def ofb (E : Bytes → Bytes) : Bytes → List Bytes → List Bytes
  | _, [] => []
  | o, p :: ps => xorB p (E o) :: ofb E (E o) ps

/-- Counter block `j`: the big-endian integer of the initial block plus `j`, modulo `2^(8b)`. -/
def ctrBlock (b : Nat) (iv : Bytes) (j : Nat) : Bytes := toBE b ((beVal iv + j) % 256 ^ b)

/-- 6.5 CTR: `C_j = P_j ⊕ E(T_j)` (both directions), starting with counter block number `j`. -/
def ctr (E : Bytes → Bytes) (b : Nat) (iv : Bytes) : Nat → List Bytes → List Bytes
  | _, [] => []
  | j, p :: ps => xorB p (E (ctrBlock b iv j)) :: ctr E b iv (j + 1) ps

end Verif.Spec.Modes

namespace Verif.Spec.Modes

/-- The eight mode classes besides GCM. -/
inductive Name where
  | ecbEnc | ecbDec | cbcEnc | cbcDec | cfbEnc | cfbDec | ofb | ctr
deriving DecidableEq

/-- The output blocks SP 800-38A prescribes for the input blocks. -/
def out (E D : Bytes → Bytes) (b : Nat) (iv : Bytes) : Name → List Bytes → List Bytes
  | .ecbEnc => ecb E
  | .ecbDec => ecb D
  | .cbcEnc => cbcEnc E iv
  | .cbcDec => cbcDec D iv
  | .cfbEnc => cfbEnc E iv
  | .cfbDec => cfbDec E iv
  | .ofb => ofb E iv
  | .ctr => ctr E b iv 0

/-- ECB and CBC are defined for whole blocks only. -/
def wholeBlocks : Name → Bool
  | .ecbEnc | .ecbDec | .cbcEnc | .cbcDec => true
  | _ => false

/-- Encryption mode and the mode that undoes it. -/
def inverse : Name → Name → Prop
  | .ecbEnc, .ecbDec | .cbcEnc, .cbcDec | .cfbEnc, .cfbDec | .ofb, .ofb | .ctr, .ctr => True
  | _, _ => False

end Verif.Spec.Modes
