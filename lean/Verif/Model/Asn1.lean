import Verif.Model.Modes
/-!
# ASN.1 (src/asn1/asn1.cpp, include/gmlib/asn1/asn1.h)

Decoders read from a memory area `buf` (the caller's whole buffer) at a position `p`; a read outside `buf` is the
outcome `oob`.  `inl` is the length the caller passes.  `std::size_t` values are natural numbers below `2^64`; where
an operation can wrap the model says so (`% 2^64`).  Out-parameters are only modelled on success (on failure the code
leaves them partly written; no caller in the library uses them then).

Encoders write to the memory `m` at position `p` and return the new memory and `*outl`; the data operand is a
separate array.
-/
namespace Verif.Asn1

/-- Result of a decoder: success, a negative return code, or an out-of-bounds read. -/
inductive Res (α : Type) where
  | ok (a : α)
  | err (code : Int)
  | oob
  deriving DecidableEq, Repr

def Res.bind {α β} : Res α → (α → Res β) → Res β
  | .ok a, f => f a
  | .err c, _ => .err c
  | .oob, _ => .oob

instance : Monad Res where
  pure := .ok
  bind := Res.bind

/-- `in[i]` for `in + i` at position `p`. -/
def rd (buf : Mem) (p : Nat) : Res Byte :=
  match buf[p]? with
  | some b => .ok b
  | none => .oob

/-- `a -= b` on `size_t`. -/
def szSub (a b : Nat) : Nat := (a + 2 ^ 64 - b % 2 ^ 64) % 2 ^ 64

/-! ## Encoding -/

/-- `asn1_encode_identifier_octets` (asn1.cpp 11-17). -/
def encIdentifier (cls pc num : Byte) : Byte := cls ||| pc ||| num

/-- `while (length) { tmp[tmp_size] = length & 0xFF; length >>= 8; tmp_size += 1; }` (asn1.cpp 32-37): the contents
of `tmp`.  Eight rounds suffice for a 64-bit value; the fuel makes the recursion structural. -/
def lengthTmp : Nat → W64 → List Byte
  | 0, _ => []
  | fuel + 1, n => if n = 0 then [] else (n &&& 0xFF#64).setWidth 8 :: lengthTmp fuel (n >>> 8)

/-- `asn1_encode_length_octets` (asn1.cpp 19-47): the octets written (their number is `*outl`). -/
def encLength (n : W64) : List Byte :=
  if n < 0x80#64 then [n.setWidth 8]
  else
    let tmp := lengthTmp 8 n
    (0x80#8 ||| BitVec.ofNat 8 tmp.length) :: tmp.reverse

/-- `asn1_encode_tlv_outl` (asn1.cpp 228-234): `l_buf` has 8 bytes, writing a ninth one is undefined behaviour. -/
def tlvOutl (n : Nat) : Res Nat :=
  let l := (encLength (BitVec.ofNat 64 n)).length
  if 8 < l then .oob else .ok ((1 + l + n) % 2 ^ 64)

/-- `asn1_encode_integer_value_length` (asn1.cpp 247-261). -/
def integerValueLength (data : List Byte) : Nat :=
  if data.length = 0 then 0 else if data.getD 0 0 < 0x80#8 then data.length else (data.length + 1) % 2 ^ 64

/-- `asn1_encode_integer_outl` (asn1.cpp 263-268). -/
def integerOutl (data : List Byte) : Res Nat := tlvOutl (integerValueLength data)

/-- `asn1_encode_bit_string_value_length` (asn1.cpp 275-279). -/
def bitStringValueLength (bits : Nat) : Nat := ((bits + 7) % 2 ^ 64 / 8 + 1) % 2 ^ 64

/-- `asn1_encode_bit_string_outl` (asn1.cpp 281-285). -/
def bitStringOutl (bits : Nat) : Res Nat := tlvOutl (bitStringValueLength bits)

/-- `asn1_encode_tl` (asn1.cpp 311-325). -/
def encTl (m : Mem) (p : Nat) (cls pc num : Byte) (valueLength : Nat) : Mem × Nat :=
  let m := wrm m p [encIdentifier cls pc num]
  let l := encLength (BitVec.ofNat 64 valueLength)
  (wrm m (p + 1) l, 1 + l.length)

/-- `asn1_encode_boolean_tlv` (asn1.cpp 327-337). -/
def encBoolean (m : Mem) (p : Nat) (value : Bool) : Mem × Nat :=
  let m := wrm m p [(0#8 <<< 6) ||| (0#8 <<< 5) ||| 1#8]
  let m := wrm m (p + 1) [1]
  (wrm m (p + 2) [if value then 0xFF else 0], 3)

/-- `asn1_encode_integer_tlv` (asn1.cpp 339-360).  Line 355 stores the leading zero at `out` without advancing `out`,
so line 357 overwrites it. -/
def encInteger (m : Mem) (p : Nat) (data : List Byte) : Mem × Nat :=
  let (m, n) := encTl m p 0x00 0x00 2 (integerValueLength data)
  let p := p + n
  let outl := n
  if data.length ≠ 0 then
    let (m, outl) := if 0x80#8 ≤ data.getD 0 0 then (wrm m p [0], outl + 1) else (m, outl)
    (wrm m p data, outl + data.length)
  else (m, outl)

/-- `asn1_encode_bit_string_tlv` (asn1.cpp 373-391). -/
def encBitString (m : Mem) (p : Nat) (data : List Byte) (bits : Nat) : Mem × Nat :=
  let (m, n) := encTl m p 0x00 0x00 3 (bitStringValueLength bits)
  let m := wrm m (p + n) [BitVec.ofNat 8 ((8 - bits % 8) % 8)]
  (wrm m (p + n + 1) data, n + 1 + data.length)

/-- `asn1_encode_octet_string_tlv` (asn1.cpp 404-418). -/
def encOctetString (m : Mem) (p : Nat) (data : List Byte) : Mem × Nat :=
  let (m, n) := encTl m p 0x00 0x00 4 data.length
  (wrm m (p + n) data, n + data.length)

/-- `asn1_encode_bit_string_tl`, `asn1_encode_octet_string_tl` (asn1.cpp 362-371, 393-402). -/
def encBitStringTl (m : Mem) (p n : Nat) : Mem × Nat := encTl m p 0x00 0x20 3 n
def encOctetStringTl (m : Mem) (p n : Nat) : Mem × Nat := encTl m p 0x00 0x20 4 n
/-- `asn1_encode_sequence_tl` (asn1.cpp 420-429). -/
def encSequenceTl (m : Mem) (p n : Nat) : Mem × Nat := encTl m p 0x00 0x20 16 n
/-- `asn1_encode_set_tl` (asn1.cpp 431-440). -/
def encSetTl (m : Mem) (p n : Nat) : Mem × Nat := encTl m p 0x00 0x20 17 n

/-! ## Constant bounds (asn1.h 154-193) -/

/-- `ASN1_ENCODE_TLV_MAX_OUTL` (asn1.h 154-158), also OCTET_STRING, SEQUENCE, SET (177-193). -/
def tlvMaxOutl (n : Nat) : Nat := (1 + (1 + 8) + n) % 2 ^ 64
/-- `ASN1_ENCODE_INTEGER_MAX_OUTL` (asn1.h 165-169). -/
def integerMaxOutl (n : Nat) : Nat := tlvMaxOutl ((n + 1) % 2 ^ 64)
/-- `ASN1_ENCODE_BIT_STRING_MAX_OUTL` (asn1.h 171-175): `7 / 8` is `0`. -/
def bitStringMaxOutl (bits : Nat) : Nat := tlvMaxOutl ((1 + (bits + 7 / 8)) % 2 ^ 64)
/-- `SM2_SIGNATURE_ASN1_ENCODE_MAX_OUTL` (sm2_asn1.h 84-89). -/
def sigMaxOutl : Nat := tlvMaxOutl (integerMaxOutl 32 + integerMaxOutl 32)
/-- `sm2_cipher_asn1_encode_max_outl` (sm2p256v1_asn1.cpp 151-159). -/
def cipherMaxOutl (c3 c2 : Nat) : Nat :=
  tlvMaxOutl ((integerMaxOutl 32 + integerMaxOutl 32 + tlvMaxOutl c3 + tlvMaxOutl c2) % 2 ^ 64)

/-! ## Decoding -/

/-- `Asn1TLV` (asn1.h 53-60); `value` is a position. -/
structure Tlv where
  cls : Byte
  pc : Byte
  num : Byte
  length : Nat
  value : Nat
  deriving DecidableEq, Repr

/-- `asn1_decode_identifier_octets` (asn1.cpp 60-84); `*read_num` is 1. -/
def decIdentifier (buf : Mem) (p inl : Nat) : Res (Byte × Byte × Byte) :=
  if inl = 0 then .err (-1)
  else do
    let b ← rd buf p
    if b &&& 0b00011111#8 = 0b00011111#8 then .err (-2)
    else .ok (b &&& 0b11000000#8, b &&& 0b00100000#8, b &&& 0b00011111#8)

/-- The loop `*ret = (*ret << 8) | in[i]` (asn1.cpp 122-125). -/
def lengthLoop (buf : Mem) : Nat → Nat → W64 → Res W64
  | _, 0, ret => .ok ret
  | p, k + 1, ret => do
    let b ← rd buf p
    lengthLoop buf (p + 1) k ((ret <<< 8) ||| b.setWidth 64)

/-- `asn1_decode_length_octets` (asn1.cpp 86-131): the length and the number of octets read. -/
def decLength (buf : Mem) (p inl : Nat) : Res (Nat × Nat) :=
  if inl = 0 then .err (-1)
  else do
    let b ← rd buf p
    if b = 0x80#8 then .err (-2)
    else if b &&& 0x80#8 = 0#8 then .ok (b.toNat, 1)
    else
      let k := (b &&& 0x7f#8).toNat
      if 8 < k then .err (-2)
      else if inl < 1 + k then .err (-1)
      else do
        let r ← lengthLoop buf (p + 1) k 0
        .ok (r.toNat, 1 + k)

/-- `asn1_decode_tlv` (asn1.cpp 133-160): the TLV and `*read_num`. -/
def decTlv (buf : Mem) (p inl : Nat) : Res (Tlv × Nat) := do
  let (c, pc, num) ← decIdentifier buf p inl
  let (len, n) ← decLength buf (p + 1) (inl - 1)
  .ok (⟨c, pc, num, len, p + 1 + n⟩, (1 + n + len) % 2 ^ 64)

/-- `asn1_decode_boolean_value` (asn1.cpp 446-464): the value and `*read_num`. -/
def decBoolean (buf : Mem) (p inl : Nat) : Res (Bool × Nat) := do
  let (t, n) ← decTlv buf p inl
  if t.pc ≠ 0x00 ∨ t.num ≠ 1 ∨ t.length ≠ 1 then .err (-1)
  else do
    let b ← rd buf t.value
    .ok (!(b == 0), n)

/-- `asn1_decode_integer_value` (asn1.cpp 466-506): `(data_ptr, data_length, read_num)`. -/
def decInteger (buf : Mem) (p inl : Nat) : Res (Nat × Nat × Nat) := do
  let (t, n) ← decTlv buf p inl
  if t.pc ≠ 0x00 ∨ t.num ≠ 2 ∨ t.length = 0 then .err (-1)
  else if 1 < t.length then do
    let v0 ← rd buf t.value
    if v0 = 0 then do
      let v1 ← rd buf (t.value + 1)
      if v1 &&& 0x80#8 = 0 then .err (-1) else .ok (t.value + 1, t.length - 1, n)
    else if v0 = 0xff then do
      let v1 ← rd buf (t.value + 1)
      if v1 &&& 0x80#8 = 0x80#8 then .err (-1) else .ok (t.value, t.length, n)
    else .ok (t.value, t.length, n)
  else .ok (t.value, t.length, n)

/-- `asn1_decode_bit_string_value` (asn1.cpp 508-538): `(data_ptr, data_length, bits_length, read_num)`.  Line 536
subtracts `in[0]`, the identifier octet. -/
def decBitString (buf : Mem) (p inl : Nat) : Res (Nat × Nat × Nat × Nat) := do
  let (t, n) ← decTlv buf p inl
  if t.num ≠ 3 ∨ t.length = 0 then .err (-1)
  else do
    let v0 ← rd buf t.value
    if t.length = 1 ∧ v0 ≠ 0 then .err (-1)
    else if ¬ v0 ≤ 7#8 then .err (-1)
    else do
      let in0 ← rd buf p
      .ok (t.value + 1, t.length - 1, szSub (8 * (t.length - 1) % 2 ^ 64) in0.toNat, n)

/-- `asn1_decode_octet_string_value` (asn1.cpp 540-560): `(data_ptr, data_length, read_num)`. -/
def decOctetString (buf : Mem) (p inl : Nat) : Res (Nat × Nat × Nat) := do
  let (t, n) ← decTlv buf p inl
  if t.num ≠ 4 ∨ t.length = 0 then .err (-1) else .ok (t.value, t.length, n)

/-- `asn1_decode_null_value` (asn1.cpp 562-578): `*read_num`. -/
def decNull (buf : Mem) (p inl : Nat) : Res Nat := do
  let (t, n) ← decTlv buf p inl
  if t.pc ≠ 0x00 ∨ t.num ≠ 5 ∨ t.length ≠ 0 then .err (-1) else .ok n

/-- `asn1_decode_sequence_value` (asn1.cpp 580-601), `asn1_decode_set_value` (603-624). -/
def decConstructed (num : Byte) (buf : Mem) (p inl : Nat) : Res (Nat × Nat × Nat) := do
  let (t, n) ← decTlv buf p inl
  if t.pc ≠ 0x20 ∨ t.num ≠ num ∨ t.length = 0 then .err (-1) else .ok (t.value, t.length, n)
def decSequence := decConstructed 16
def decSet := decConstructed 17

/-! ## src/sm2/sm2p256v1_asn1.cpp -/

/-- `sm2_signature_asn1_encode_outl` (sm2p256v1_asn1.cpp 81-86). -/
def sigOutl (R S : List Byte) : Res Nat := do
  let a ← integerOutl R
  let b ← integerOutl S
  tlvOutl (a + b)

/-- `sm2_signature_asn1_encode` (sm2p256v1_asn1.cpp 88-104); `R`, `S` are 32-byte arrays. -/
def sigEncode (m : Mem) (p : Nat) (R S : List Byte) : Res (Mem × Nat) := do
  let a ← integerOutl R
  let b ← integerOutl S
  let (m, n0) := encSequenceTl m p (a + b)
  let (m, n1) := encInteger m (p + n0) R
  let (m, n2) := encInteger m (p + n0 + n1) S
  .ok (m, n0 + n1 + n2)

/-- `sm2_cipher_asn1_encode_outl` (sm2p256v1_asn1.cpp 161-168). -/
def cipherOutl (X Y H C : List Byte) : Res Nat := do
  let a ← integerOutl X
  let b ← integerOutl Y
  let c ← tlvOutl H.length
  let d ← tlvOutl C.length
  tlvOutl ((a + b + c + d) % 2 ^ 64)

/-- `if (asn1_decode_x(...)) return -1`. -/
def orFail {α} : Res α → Res α
  | .err _ => .err (-1)
  | r => r

/-- `sm2_signature_asn1_decode` (sm2p256v1_asn1.cpp 106-145): positions of `R`, `S` and `*read_num`. -/
def sigDecode (buf : Mem) (p inl : Nat) : Res (Nat × Nat × Nat) := do
  let (sv, sl, n) ← orFail (decSequence buf p inl)
  let inl' := szSub inl n
  let (r, rl, n1) ← orFail (decInteger buf sv sl)
  if rl ≠ 32 then .err (-1)
  else do
    let sv := sv + n1
    let sl := szSub sl n1
    let (s, sl2, _) ← orFail (decInteger buf sv sl)
    if sl2 ≠ 32 then .err (-1) else .ok (r, s, szSub inl inl')

/-- `sm2_private_key_asn1_decode` (sm2p256v1_asn1.cpp 25-41). -/
def privDecode (buf : Mem) (p inl : Nat) : Res (Nat × Nat) := do
  let (d, l, n) ← orFail (decInteger buf p inl)
  if l ≠ 32 then .err (-1) else .ok (d, n)

/-- `sm2_public_key_asn1_decode` (sm2p256v1_asn1.cpp 59-75); line 70 joins the two tests with `&&`. -/
def pubDecode (buf : Mem) (p inl : Nat) : Res (Nat × Nat) := do
  let (d, l, bits, n) ← orFail (decBitString buf p inl)
  if l ≠ 65 ∧ bits ≠ 65 * 8 then .err (-1) else .ok (d, n)

/-- `sm2_cipher_asn1_encode` (sm2p256v1_asn1.cpp 170-195). -/
def cipherEncode (m : Mem) (p : Nat) (X Y H C : List Byte) : Res (Mem × Nat) := do
  let a ← integerOutl X
  let b ← integerOutl Y
  let c ← tlvOutl H.length
  let d ← tlvOutl C.length
  let (m, n0) := encSequenceTl m p ((a + b + c + d) % 2 ^ 64)
  let (m, n1) := encInteger m (p + n0) X
  let (m, n2) := encInteger m (p + n0 + n1) Y
  let (m, n3) := encOctetString m (p + n0 + n1 + n2) H
  let (m, n4) := encOctetString m (p + n0 + n1 + n2 + n3) C
  .ok (m, n0 + n1 + n2 + n3 + n4)

/-- `sm2_cipher_asn1_decode` (sm2p256v1_asn1.cpp 197-253): positions of `X`, `Y`, position and length of the hash and
of the ciphertext, and `*read_num`. -/
def cipherDecode (buf : Mem) (p inl : Nat) : Res (Nat × Nat × (Nat × Nat) × (Nat × Nat) × Nat) := do
  let (sv, sl, n) ← orFail (decSequence buf p inl)
  let inl' := szSub inl n
  let (x, xl, n1) ← orFail (decInteger buf sv sl)
  if xl ≠ 32 then .err (-1)
  else do
    let sv := sv + n1
    let sl := szSub sl n1
    let (y, yl, n2) ← orFail (decInteger buf sv sl)
    if yl ≠ 32 then .err (-1)
    else do
      let sv := sv + n2
      let sl := szSub sl n2
      let (h, hl, n3) ← orFail (decOctetString buf sv sl)
      let sv := sv + n3
      let sl := szSub sl n3
      let (c, cl, _) ← orFail (decOctetString buf sv sl)
      .ok (x, y, (h, hl), (c, cl), szSub inl inl')

end Verif.Asn1
