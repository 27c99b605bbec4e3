import Verif.Spec.Sm2Enc
import Verif.Spec.Sm2Den
import Verif.Model.Sm2
/-!
# Specification: SM2 signatures (GB/T 32918.2) and public-key encryption (GB/T 32918.4)

`H` is the hash function as a function on octet strings, `v` the octet length of its digests, `G` the base point.
-/
namespace Verif.Spec

/-- The hash class `C` computes the function `H`: every history of `update`s followed by `do_final` on a fresh object
gives the digest of the concatenation, or throws when the bit length does not fit in 64 bits. -/
structure IsHash {S : Type} (C : HashClass S) (H : List (BitVec 8) → List (BitVec 8)) : Prop where
  pos : 0 < C.DS
  small : C.DS < 2 ^ 28
  len : ∀ m, (H m).length = C.DS
  stream : ∀ chunks last, C.stream chunks last =
    if 8 * (chunks.flatten ++ last).length < 2 ^ 64 then .ok (H (chunks.flatten ++ last)) else .throw

section
variable (H : List (BitVec 8) → List (BitVec 8))

/-- `Z_A = H(ENTL ‖ ID ‖ a ‖ b ‖ x_G ‖ y_G ‖ x_A ‖ y_A)` (GB/T 32918.2, 5.5). -/
def sm2Z (id x y : List (BitVec 8)) : List (BitVec 8) :=
  H (toBE 2 (8 * id.length) ++ id ++ toBE 32 sm2a ++ toBE 32 sm2b ++ toBE 32 sm2gx ++ toBE 32 sm2gy ++ x ++ y)

/-- `e = H(Z_A ‖ M)` as an integer. -/
def sm2E (id x y msg : List (BitVec 8)) : Nat := beVal (H (sm2Z H id x y ++ msg))

/-- The standard's verification equation for the public key `Q` and digest `e` (GB/T 32918.2, 7.1). -/
def Sm2Valid (G Q : Sm2Point) (e r s : Nat) : Prop :=
  1 ≤ r ∧ r < sm2n ∧ 1 ≤ s ∧ s < sm2n ∧ (r + s) % sm2n ≠ 0 ∧
    ∃ x y h, s • G + ((r + s) % sm2n) • Q = .some x y h ∧ (e + x.val) % sm2n = r

/-- The standard's signature for private key `d`, digest `e` and nonce `k` (GB/T 32918.2, 6.1). -/
def IsSm2Sig (G : Sm2Point) (d e k r s : Nat) : Prop :=
  (∃ x y h, k • G = .some x y h ∧ r = (e + x.val) % sm2n) ∧ r ≠ 0 ∧ r + k ≠ sm2n ∧
    s < sm2n ∧ s ≠ 0 ∧ (s * (1 + d) + r * d) % sm2n = k % sm2n

/-- Key derivation function (GB/T 32918.4, 5.4.3): `n` octets of `H(Z ‖ 1) ‖ H(Z ‖ 2) ‖ ...`. -/
def sm2Kdf (v : Nat) (Z : List (BitVec 8)) (n : Nat) : List (BitVec 8) :=
  ((List.range ((n + v - 1) / v)).flatMap fun i => H (Z ++ toBE 4 (i + 1))).take n

end

/-- The public-key object holds the point `Q`. -/
def Sm2PubIs (pub : Sm2.Pub) (Q : Sm2Point) : Prop :=
  pub.x.length = 32 ∧ pub.y.length = 32 ∧ Sm2IsAffine pub.P Q ∧
    ∃ h, Q = .some (beVal pub.x : ZMod sm2p) (beVal pub.y : ZMod sm2p) h

/-- The private-key object holds the integer `d` and its public point. -/
def Sm2PrivIs (G : Sm2Point) (K : Sm2.Priv) (d : Nat) : Prop :=
  K.priv = toBE 32 d ∧ 1 ≤ d ∧ d < sm2n ∧ Sm2PubIs K.pub (d • G)

/-- The standard's octet string for a point, by form. -/
def encForm (pc : Sm2.PC) (x y : ZMod sm2p) : List (BitVec 8) :=
  match pc with
  | .uncompressed => encUncompressed x y
  | .compressed => encCompressed x y
  | .mix => encMixed x y

/-- The octet string `C1` denotes the point `P`: tag 04, 06 or 07 with both coordinates, or 02, 03 with `x` and the
parity of `y`; coordinates are taken modulo `p`. -/
def Sm2Decodes (C1 : List (BitVec 8)) (P : Sm2Point) : Prop :=
  ∃ b rest, C1 = b :: rest ∧
    ((b = 0x04 ∨ b = 0x06 ∨ b = 0x07) ∧ rest.length = 64 ∧
        (∃ h, P = .some (beVal (rest.take 32) : ZMod sm2p) (beVal (rest.drop 32) : ZMod sm2p) h) ∨
     (b = 0x02 ∨ b = 0x03) ∧ rest.length = 32 ∧
        (∃ y h, P = .some (beVal rest : ZMod sm2p) y h ∧ y.val % 2 = b.toNat % 2))

/-- The standard's decryption (GB/T 32918.4, 7.1) of `C1 ‖ C3 ‖ C2` under the private key `d`. -/
def IsSm2Plain (H : List (BitVec 8) → List (BitVec 8)) (v d : Nat) (ct pt : List (BitVec 8)) : Prop :=
  ∃ C1 C3 C2 P x2 y2 h2, ct = C1 ++ C3 ++ C2 ∧ C3.length = v ∧ Sm2Decodes C1 P ∧ d • P = .some x2 y2 h2 ∧
    (C2 ≠ [] → ∃ b ∈ sm2Kdf H v (fieldOctets x2 ++ fieldOctets y2) C2.length, b ≠ 0) ∧
    pt = List.zipWith (· ^^^ ·) C2 (sm2Kdf H v (fieldOctets x2 ++ fieldOctets y2) C2.length) ∧
    C3 = H (fieldOctets x2 ++ pt ++ fieldOctets y2)

/-- The standard's ciphertext `C1 ‖ C3 ‖ C2` for the public key `Q` and nonce `k` (GB/T 32918.4, 6.1). -/
def IsSm2Cipher (H : List (BitVec 8) → List (BitVec 8)) (v : Nat) (G Q : Sm2Point) (k : Nat) (pc : Sm2.PC)
    (pt ct : List (BitVec 8)) : Prop :=
  ∃ x1 y1 h1 x2 y2 h2, k • G = .some x1 y1 h1 ∧ k • Q = .some x2 y2 h2 ∧
    ct = encForm pc x1 y1 ++ H (fieldOctets x2 ++ pt ++ fieldOctets y2) ++
      List.zipWith (· ^^^ ·) pt (sm2Kdf H v (fieldOctets x2 ++ fieldOctets y2) pt.length)

end Verif.Spec
