import Verif.Model.Asn1
/-!
# The ASN.1 encoders with their data in the caller's memory (src/asn1/asn1.cpp, src/sm2/sm2p256v1_asn1.cpp)

`Model/Asn1` gives the encoders their data as a separate array.  Here the data is a place in the same memory the
encoding is stored to, so the two may overlap in any way: every read of the data sees what has been stored before it.
`std::memmove` reads its whole source before it stores (C++17 [cstring.syn]).
-/
namespace Verif.Asn1

/-- `asn1_encode_integer_tlv(out, &outl, data, data_len)` (asn1.cpp 339-360), `data` at `d`.  Line 348 reads `data[0]`
before the identifier and the length octets are stored, line 352 reads it again after, line 355 stores the zero octet
before line 357 moves the data. -/
def encIntegerM (m : Mem) (p d len : Nat) : Mem × Nat :=
  let (m, n) := encTl m p 0x00 0x00 2 (integerValueLength (rdm m d len))
  let p := p + n
  let outl := n
  if len ≠ 0 then
    let (m, outl) := if 0x80#8 ≤ (rdm m d 1).getD 0 0 then (wrm m p [0], outl + 1) else (m, outl)
    (wrm m p (rdm m d len), outl + len)
  else (m, outl)

/-- `asn1_encode_bit_string_tlv(out, &outl, data, data_len, data_bits)` (asn1.cpp 373-391), `data` at `d`. -/
def encBitStringM (m : Mem) (p d len bits : Nat) : Mem × Nat :=
  let (m, n) := encTl m p 0x00 0x00 3 (bitStringValueLength bits)
  let m := wrm m (p + n) [BitVec.ofNat 8 ((8 - bits % 8) % 8)]
  (wrm m (p + n + 1) (rdm m d len), n + 1 + len)

/-- `asn1_encode_octet_string_tlv(out, &outl, data, data_len)` (asn1.cpp 404-418), `data` at `d`. -/
def encOctetStringM (m : Mem) (p d len : Nat) : Mem × Nat :=
  let (m, n) := encTl m p 0x00 0x00 4 len
  (wrm m (p + n) (rdm m d len), n + len)

/-- `sm2_signature_asn1_encode(out, &outl, sig)` (sm2p256v1_asn1.cpp 88-104); `sig->R` and `sig->S` are pointers
(sm2_asn1.h), here to `r` and `s`. -/
def sigEncodeM (m : Mem) (p r s : Nat) : Res (Mem × Nat) := do
  let a ← integerOutl (rdm m r 32)
  let b ← integerOutl (rdm m s 32)
  let (m, n0) := encSequenceTl m p (a + b)
  let (m, n1) := encIntegerM m (p + n0) r 32
  let (m, n2) := encIntegerM m (p + n0 + n1) s 32
  .ok (m, n0 + n1 + n2)

/-- `sm2_cipher_asn1_encode(out, &outl, cipher)` (sm2p256v1_asn1.cpp 170-195); the coordinates are at `x` and `y`, the
hash is `hl` octets at `h` and the ciphertext `cl` octets at `c`. -/
def cipherEncodeM (m : Mem) (p x y h hl c cl : Nat) : Res (Mem × Nat) := do
  let ax ← integerOutl (rdm m x 32)
  let ay ← integerOutl (rdm m y 32)
  let ah ← tlvOutl hl
  let ac ← tlvOutl cl
  let (m, n0) := encSequenceTl m p ((ax + ay + ah + ac) % 2 ^ 64)
  let (m, n1) := encIntegerM m (p + n0) x 32
  let (m, n2) := encIntegerM m (p + n0 + n1) y 32
  let (m, n3) := encOctetStringM m (p + n0 + n1 + n2) h hl
  let (m, n4) := encOctetStringM m (p + n0 + n1 + n2 + n3) c cl
  .ok (m, n0 + n1 + n2 + n3 + n4)

end Verif.Asn1
