import Verif.Proofs.Sm3Coll
import Verif.Props.Hash
import Verif.Props.Sm2
/-!
# C92: what it takes to make two messages share a digest, a MAC or a signature

`CFCollision m m'` (Spec/Sm3Coll.lean): while hashing `m` and `m'`, two different inputs of the compression function are
compressed to the same value.
-/
namespace Verif.Props
open Verif Verif.Sm3 Verif.Spec

/-- **C92, digests.**  If two message objects, whatever the chunking, return the same digest, then the messages are equal
or a collision of the compression function occurred: nothing in the buffering, the padding or the length field can
identify two messages. -/
theorem C92_digest (chunks chunks' : List (List Byte)) (last last' d : List Byte)
    (h : sm3Stream chunks last = .ok d) (h' : sm3Stream chunks' last' = .ok d) :
    chunks.flatten ++ last = chunks'.flatten ++ last' ∨
      Spec.SM3.CFCollision (chunks.flatten ++ last) (chunks'.flatten ++ last') := by
  rw [C01_sm3_stream] at h h'
  split_ifs at h h' with a b
  rw [Outcome.ok.injEq] at h h'
  by_contra hc
  rw [not_or] at hc
  exact hc.1 (md a b (h.trans h'.symm) hc.2)

/-- The inner and outer messages of HMAC. -/
def innerMsg (K M : List Byte) : List Byte := (hmacKey Spec.SM3.hash 64 K).map (· ^^^ 0x36) ++ M
def outerMsg (K M : List Byte) : List Byte := (hmacKey Spec.SM3.hash 64 K).map (· ^^^ 0x5c) ++ Spec.SM3.hash (innerMsg K M)

/-- One MAC computation on an object in any earlier state. -/
def macStream (m : HMac Ctx) (K : List Byte) (chunks : List (List Byte)) (last : List Byte) : Outcome (List Byte) := do
  let m ← m.setKey cls K
  let m ← chunks.foldlM (fun (m : HMac Ctx) c => m.update cls c) m
  let r ← m.final cls last
  Outcome.ok r.2

/-- **C92, MACs.**  Under one key, two messages with the same MAC are equal or collide in the inner or the outer hash. -/
theorem C92_mac (m m' : HMac Ctx) (K : List Byte) (chunks chunks' : List (List Byte)) (last last' d : List Byte)
    (hK : 8 * K.length < 2 ^ 64) (hM : 8 * (64 + (chunks.flatten ++ last).length) < 2 ^ 64)
    (hM' : 8 * (64 + (chunks'.flatten ++ last').length) < 2 ^ 64)
    (h : macStream m K chunks last = .ok d) (h' : macStream m' K chunks' last' = .ok d) :
    chunks.flatten ++ last = chunks'.flatten ++ last' ∨
      Spec.SM3.CFCollision (innerMsg K (chunks.flatten ++ last)) (innerMsg K (chunks'.flatten ++ last')) ∨
      Spec.SM3.CFCollision (outerMsg K (chunks.flatten ++ last)) (outerMsg K (chunks'.flatten ++ last')) := by
  have e := (C05_hmac m K chunks last hK hM).symm.trans h
  have e' := (C05_hmac m' K chunks' last' hK hM').symm.trans h'
  rw [Outcome.ok.injEq] at e e'
  have ho : Spec.SM3.hash (outerMsg K (chunks.flatten ++ last)) = Spec.SM3.hash (outerMsg K (chunks'.flatten ++ last')) :=
    e.trans e'.symm
  have li : ∀ M : List Byte, (innerMsg K M).length = 64 + M.length := by
    intro M; rw [innerMsg, List.length_append, List.length_map, hmacKey_len]
  have lo : ∀ M : List Byte, (outerMsg K M).length = 64 + 32 := by
    intro M; rw [outerMsg, List.length_append, List.length_map, hmacKey_len, Sm3.hash_len]
  by_contra hc
  rw [not_or, not_or] at hc
  obtain ⟨c1, c2, c3⟩ := hc
  have o := md (by rw [lo]; decide) (by rw [lo]; decide) ho c3
  have i := md (by rw [li]; exact hM) (by rw [li]; exact hM') (List.append_cancel_left o) c2
  exact c1 (List.append_cancel_left i)

/-- What SM2 hashes to `Z` and to `e`. -/
def zMsg (id x y : List Byte) : List Byte :=
  toBE 2 (8 * id.length) ++ id ++ toBE 32 sm2a ++ toBE 32 sm2b ++ toBE 32 sm2gx ++ toBE 32 sm2gy ++ x ++ y
def eMsg (id x y M : List Byte) : List Byte := Spec.SM3.hash (zMsg id x y) ++ M

theorem zMsg_inj {id id' x x' y y' : List Byte} (hi : 8 * id.length ≤ 65535) (hi' : 8 * id'.length ≤ 65535)
    (hx : x.length = 32) (hx' : x'.length = 32)
    (h : zMsg id x y = zMsg id' x' y') : id = id' ∧ x = x' ∧ y = y' := by
  unfold zMsg at h
  simp only [List.append_assoc] at h
  obtain ⟨h1, h⟩ := List.append_inj h (by rw [toBE_len, toBE_len])
  have e := congrArg beVal h1
  rw [beVal_toBE, beVal_toBE] at e
  obtain ⟨h2, h⟩ := List.append_inj h (by omega)
  have h := List.append_cancel_left (List.append_cancel_left (List.append_cancel_left (List.append_cancel_left h)))
  obtain ⟨h3, h4⟩ := List.append_inj h (hx.trans hx'.symm)
  exact ⟨h2, h3, h4⟩

/-- **C92, SM2 digests.**  The integer that is signed determines id, public key and message, unless the compression
function collides. -/
theorem C92_sm2_digest (id id' x x' y y' M M' : List Byte) (hi : 8 * id.length ≤ 65535) (hi' : 8 * id'.length ≤ 65535)
    (hx : x.length = 32) (hx' : x'.length = 32) (hy : y.length = 32) (hy' : y'.length = 32)
    (hM : 8 * (32 + M.length) < 2 ^ 64) (hM' : 8 * (32 + M'.length) < 2 ^ 64)
    (h : sm2E Spec.SM3.hash id x y M = sm2E Spec.SM3.hash id' x' y' M') :
    (id = id' ∧ x = x' ∧ y = y' ∧ M = M') ∨ Spec.SM3.CFCollision (zMsg id x y) (zMsg id' x' y') ∨
      Spec.SM3.CFCollision (eMsg id x y M) (eMsg id' x' y' M') := by
  have he : Spec.SM3.hash (eMsg id x y M) = Spec.SM3.hash (eMsg id' x' y' M') :=
    beVal_inj _ _ (by rw [Sm3.hash_len, Sm3.hash_len]) h
  have le : ∀ id x y M : List Byte, (eMsg id x y M).length = 32 + M.length := by
    intro id x y M; rw [eMsg, List.length_append, Sm3.hash_len]
  have lz : ∀ id x y : List Byte, x.length = 32 → y.length = 32 → (zMsg id x y).length = id.length + 194 := by
    intro id x y h1 h2
    simp only [zMsg, List.length_append, toBE_len, h1, h2]
    omega
  by_contra hc
  rw [not_or, not_or] at hc
  obtain ⟨c1, c2, c3⟩ := hc
  have e := md (by rw [le]; exact hM) (by rw [le]; exact hM') he c3
  obtain ⟨e1, e2⟩ := List.append_inj e (by rw [Sm3.hash_len, Sm3.hash_len])
  have z := md (by rw [lz _ _ _ hx hy]; omega) (by rw [lz _ _ _ hx' hy']; omega) e1 c2
  obtain ⟨z1, z2, z3⟩ := zMsg_inj hi hi' hx hx' z
  exact c1 ⟨z1, z2, z3, e2⟩

/-- **C92, SM2 signatures.**  If one signature is accepted under one public key for two pairs of id and message, then the
pairs are equal, or the compression function of SM3 collides, or two digests differ by a multiple of the group order. -/
theorem C92_signature (pub : Sm2.Pub) (Q : Sm2Point) (hp : Sm2PubIs pub Q) (sig M M' id id' : List Byte)
    (hl : sig.length = 64) (hi : 8 * id.length ≤ 65535) (hi' : 8 * id'.length ≤ 65535)
    (hM : 8 * (32 + M.length) < 2 ^ 64) (hM' : 8 * (32 + M'.length) < 2 ^ 64)
    (h : Sm2.verify Sm3.cls pub sig M id = .returns true) (h' : Sm2.verify Sm3.cls pub sig M' id' = .returns true) :
    (id = id' ∧ M = M') ∨
      Spec.SM3.CFCollision (zMsg id pub.x pub.y) (zMsg id' pub.x pub.y) ∨
      Spec.SM3.CFCollision (eMsg id pub.x pub.y M) (eMsg id' pub.x pub.y M') ∨
      (sm2E Spec.SM3.hash id pub.x pub.y M ≠ sm2E Spec.SM3.hash id' pub.x pub.y M' ∧
        sm2E Spec.SM3.hash id pub.x pub.y M % sm2n = sm2E Spec.SM3.hash id' pub.x pub.y M' % sm2n) := by
  have l1 : (sig.take 32).length = 32 := by rw [List.length_take]; omega
  have l2 : (sig.drop 32).length = 32 := by rw [List.length_drop]; omega
  have b1 := beVal_lt (sig.take 32)
  have b2 := beVal_lt (sig.drop 32)
  rw [l1] at b1
  rw [l2] at b2
  have es : sig = toBE 32 (beVal (sig.take 32)) ++ toBE 32 (beVal (sig.drop 32)) := by
    conv_lhs => rw [← List.take_append_drop 32 sig, ← toBE_beVal (sig.take 32), ← toBE_beVal (sig.drop 32), l1, l2]
  generalize beVal (sig.take 32) = r at b1 es
  generalize beVal (sig.drop 32) = s at b2 es
  rw [es] at h h'
  obtain ⟨b, e1, e2⟩ := C45_verify sm3_isHash pub Q hp r s (by omega) (by omega) M id hi hM
  obtain ⟨b', e1', e2'⟩ := C45_verify sm3_isHash pub Q hp r s (by omega) (by omega) M' id' hi' hM'
  rw [h, Noexcept.returns.injEq] at e1
  rw [h', Noexcept.returns.injEq] at e1'
  have v := e2.mp e1.symm
  have v' := e2'.mp e1'.symm
  have em : sm2E Spec.SM3.hash id pub.x pub.y M % sm2n = sm2E Spec.SM3.hash id' pub.x pub.y M' % sm2n := by
    rcases v with ⟨-, -, -, -, -, x, y, hn, a1, a2⟩ | ⟨-, -, -, -, -, a1, a2⟩ <;>
      rcases v' with ⟨-, -, -, -, -, x', y', hn', c1, c2⟩ | ⟨-, -, -, -, -, c1, c2⟩
    · rw [a1] at c1
      have ex : x = x' := by injection c1
      rw [← ex] at c2
      exact Nat.ModEq.add_right_cancel' x.val (a2.trans c2.symm)
    · rw [a1] at c1; cases c1
    · rw [a1] at c1; cases c1
    · exact a2.trans c2.symm
  by_cases ee : sm2E Spec.SM3.hash id pub.x pub.y M = sm2E Spec.SM3.hash id' pub.x pub.y M'
  · rcases C92_sm2_digest id id' _ _ _ _ M M' hi hi' hp.1 hp.1 hp.2.1 hp.2.1 hM hM' ee with h | h | h
    · exact Or.inl ⟨h.1, h.2.2.2⟩
    · exact Or.inr (Or.inl h)
    · exact Or.inr (Or.inr (Or.inl h))
  · exact Or.inr (Or.inr (Or.inr ⟨ee, em⟩))

/-- **C92, forms.**  For two different messages, the first of admissible length, the results differ or hashing the two shows a
collision. -/
theorem C92_different (m m' : List Byte) (hm : 8 * m.length < 2 ^ 64) (hne : m ≠ m') :
    sm3Stream [] m ≠ sm3Stream [] m' ∨ Spec.SM3.CFCollision m m' := by
  by_contra hc
  rw [not_or, not_not] at hc
  refine (C92_digest [] [] m m' (Spec.SM3.hash m) (C02_sm3_spec m hm) (hc.1 ▸ C02_sm3_spec m hm)).elim hne hc.2

/-- Two chunkings of one message meet the hypotheses of `C92_digest`, with the digest of the standard's example. -/
example : ∃ d, sm3Stream [[0x61]] [0x62, 0x63] = .ok d ∧ sm3Stream [[], [0x61, 0x62]] [0x63] = .ok d :=
  ⟨_, C01_sm3_stream _ _, C01_sm3_stream _ _⟩

example : 8 * ([1] : List Byte).length < 2 ^ 64 ∧ ([1] : List Byte) ≠ [1, 0] := by
  decide

/-- `zMsg` and `eMsg` are what the standard hashes. -/
example (id x y M : List Byte) : sm2Z Spec.SM3.hash id x y = Spec.SM3.hash (zMsg id x y) ∧
    sm2E Spec.SM3.hash id x y M = beVal (Spec.SM3.hash (eMsg id x y M)) := ⟨rfl, rfl⟩

/-- … and `innerMsg`, `outerMsg` what RFC 2104 hashes. -/
example (K M : List Byte) : hmac Spec.SM3.hash 64 K M = Spec.SM3.hash (outerMsg K M) := rfl

/-- An accepted signature, as `C92_signature` assumes: SM3, public key `G`, id `31`, message `61 62 63`. -/
example : ∃ sig : List Byte, sig.length = 64 ∧ Sm2PubIs gPub (1 • sm2G) ∧
    Sm2.verify Sm3.cls gPub sig [0x61, 0x62, 0x63] [0x31] = .returns true := by
  have hp : Sm2PubIs gPub (1 • sm2G) := by rw [one_nsmul]; exact gPub_is
  obtain ⟨r, s, -, -, h, -⟩ := C45_infinity_accepted sm3_isHash gPub 1 (by decide) (by decide) hp [0x61, 0x62, 0x63] [0x31]
    (by decide) (by decide)
    (sm2E_of sm3_isHash (Z := toBE 32 0x94d0fce4e1b1ba1cbf168b926587b6678b3bdb8d0c594725ee73b79355fad911)
      (e := toBE 32 0x72b404da1d3bbbc9d3fa429ce10c4d4193694d1f104e9118a7c02e541731aec3)
      (by decide) (by decide) (by decide) (by decide) (by decide +kernel) (by decide +kernel) (by decide +kernel))
  exact ⟨_, by rw [List.length_append, toBE_len, toBE_len], hp, h⟩

end Verif.Props
