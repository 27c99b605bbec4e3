import Verif.Model.EndianMovbe
import Verif.Props.MemUtil
/-!
# Property C22 for the build with `CPU_FLAG_MOVBE`: the same accessors
-/
namespace Verif.Props
open Verif.Spec

namespace Movbe
open EndianMovbe

theorem app_val {a b : Nat} (x : BitVec a) (y : BitVec b) : (x ++ y).toNat = x.toNat * 2 ^ b + y.toNat := by
  rw [BitVec.toNat_append, ← Nat.shiftLeft_add_eq_or_of_lt y.isLt, Nat.shiftLeft_eq]

theorem byte_val {w : Nat} (x : BitVec w) (i : Nat) : (byte x i).toNat = x.toNat / 256 ^ i % 256 := by
  unfold byte
  rw [BitVec.extractLsb'_toNat, Nat.shiftRight_eq_div_pow, Nat.pow_mul]

theorem byte_app0 {a : Nat} (x : BitVec a) (y : Byte) : byte (x ++ y) 0 = y := by
  apply BitVec.eq_of_toNat_eq
  have := y.isLt
  rw [byte_val, app_val]; omega

theorem byte_app_succ {a : Nat} (x : BitVec a) (y : Byte) (i : Nat) : byte (x ++ y) (i + 1) = byte x i := by
  apply BitVec.eq_of_toNat_eq
  have h : (x.toNat * 2 ^ 8 + y.toNat) / 256 = x.toNat := by have := y.isLt; omega
  rw [byte_val, byte_val, app_val, show 256 ^ (i + 1) = 256 * 256 ^ i from Nat.pow_succ', ← Nat.div_div_eq_div_mul, h]

theorem byte_one (y : Byte) : byte y 0 = y := by
  apply BitVec.eq_of_toNat_eq
  have := y.isLt
  rw [byte_val]; omega

theorem byteAt_byte {w : Nat} (n : BitVec w) (hw : 8 ≤ w) (i : Nat) : MemUtil.byteAt n (8 * i) = byte n i := by
  apply BitVec.eq_of_toNat_eq
  rw [byte_val, MemUtil.byteAt_val n _ hw, Nat.pow_mul]

theorem bytes16 (x : BitVec 16) : MemUtil.byteAt x 0 = byte x 0 ∧ MemUtil.byteAt x 8 = byte x 1 :=
  ⟨byteAt_byte x (by decide) 0, byteAt_byte x (by decide) 1⟩

theorem bytes32 (x : W32) : MemUtil.byteAt x 0 = byte x 0 ∧ MemUtil.byteAt x 8 = byte x 1 ∧
    MemUtil.byteAt x 16 = byte x 2 ∧ MemUtil.byteAt x 24 = byte x 3 :=
  ⟨byteAt_byte x (by decide) 0, byteAt_byte x (by decide) 1, byteAt_byte x (by decide) 2, byteAt_byte x (by decide) 3⟩

theorem bytes64 (x : W64) : MemUtil.byteAt x 0 = byte x 0 ∧ MemUtil.byteAt x 8 = byte x 1 ∧
    MemUtil.byteAt x 16 = byte x 2 ∧ MemUtil.byteAt x 24 = byte x 3 ∧ MemUtil.byteAt x 32 = byte x 4 ∧
    MemUtil.byteAt x 40 = byte x 5 ∧ MemUtil.byteAt x 48 = byte x 6 ∧ MemUtil.byteAt x 56 = byte x 7 :=
  ⟨byteAt_byte x (by decide) 0, byteAt_byte x (by decide) 1, byteAt_byte x (by decide) 2, byteAt_byte x (by decide) 3,
   byteAt_byte x (by decide) 4, byteAt_byte x (by decide) 5, byteAt_byte x (by decide) 6, byteAt_byte x (by decide) 7⟩

theorem bswap16_host (a b : Byte) : bswap16 (host16 a b) = a ++ b := by
  unfold bswap16 host16
  rw [byte_app0, show (1 : Nat) = 0 + 1 from rfl, byte_app_succ, byte_one]

theorem bswap32_host (a b c d : Byte) : bswap32 (host32 a b c d) = a ++ b ++ c ++ d := by
  unfold bswap32 host32
  rw [show (3 : Nat) = 0 + 1 + 1 + 1 from rfl, show (2 : Nat) = 0 + 1 + 1 from rfl, show (1 : Nat) = 0 + 1 from rfl]
  simp only [byte_app0, byte_app_succ, byte_one]

theorem bswap64_host (a b c d e f g h : Byte) :
    bswap64 (host64 a b c d e f g h) = a ++ b ++ c ++ d ++ e ++ f ++ g ++ h := by
  unfold bswap64 host64
  rw [show (7 : Nat) = 0 + 1 + 1 + 1 + 1 + 1 + 1 + 1 from rfl, show (6 : Nat) = 0 + 1 + 1 + 1 + 1 + 1 + 1 from rfl,
    show (5 : Nat) = 0 + 1 + 1 + 1 + 1 + 1 from rfl, show (4 : Nat) = 0 + 1 + 1 + 1 + 1 from rfl,
    show (3 : Nat) = 0 + 1 + 1 + 1 from rfl, show (2 : Nat) = 0 + 1 + 1 from rfl, show (1 : Nat) = 0 + 1 from rfl]
  simp only [byte_app0, byte_app_succ, byte_one]

theorem mem16_bswap (x : BitVec 16) : mem16 (bswap16 x) = [byte x 1, byte x 0] := by
  unfold mem16 bswap16
  rw [byte_app0, show (1 : Nat) = 0 + 1 from rfl, byte_app_succ, byte_one]

theorem mem32_bswap (x : W32) : mem32 (bswap32 x) = [byte x 3, byte x 2, byte x 1, byte x 0] := by
  unfold mem32 bswap32
  generalize byte x 0 = a, byte x 1 = b, byte x 2 = c, byte x 3 = d
  rw [show (3 : Nat) = 0 + 1 + 1 + 1 from rfl, show (2 : Nat) = 0 + 1 + 1 from rfl, show (1 : Nat) = 0 + 1 from rfl]
  simp only [byte_app0, byte_app_succ, byte_one]

theorem mem64_bswap (x : W64) : mem64 (bswap64 x) =
    [byte x 7, byte x 6, byte x 5, byte x 4, byte x 3, byte x 2, byte x 1, byte x 0] := by
  unfold mem64 bswap64
  generalize byte x 0 = a, byte x 1 = b, byte x 2 = c, byte x 3 = d, byte x 4 = e, byte x 5 = f, byte x 6 = g,
    byte x 7 = h
  rw [show (7 : Nat) = 0 + 1 + 1 + 1 + 1 + 1 + 1 + 1 from rfl, show (6 : Nat) = 0 + 1 + 1 + 1 + 1 + 1 + 1 from rfl,
    show (5 : Nat) = 0 + 1 + 1 + 1 + 1 + 1 from rfl, show (4 : Nat) = 0 + 1 + 1 + 1 + 1 from rfl,
    show (3 : Nat) = 0 + 1 + 1 + 1 from rfl, show (2 : Nat) = 0 + 1 + 1 from rfl, show (1 : Nat) = 0 + 1 from rfl]
  simp only [byte_app0, byte_app_succ, byte_one]

end Movbe

open Movbe EndianMovbe in
/-- C22: the loads of the MOVBE build are the loads of the portable build, hence give the positional value of the
bytes. -/
theorem C22_movbe_loads (a b c d e f g h : Byte) :
    EndianMovbe.load16be a b = MemUtil.load16be a b ∧ EndianMovbe.load16le a b = MemUtil.load16le a b ∧
    EndianMovbe.load32be a b c d = MemUtil.load32be a b c d ∧
    EndianMovbe.load32le a b c d = MemUtil.load32le a b c d ∧
    EndianMovbe.load64be a b c d e f g h = MemUtil.load64be a b c d e f g h ∧
    EndianMovbe.load64le a b c d e f g h = MemUtil.load64le a b c d e f g h := by
  obtain ⟨h1, h2, h3, h4, h5, h6⟩ := C22_loads a b c d e f g h
  unfold EndianMovbe.load16be EndianMovbe.load16le EndianMovbe.load32be EndianMovbe.load32le EndianMovbe.load64be
    EndianMovbe.load64le
  rw [bswap16_host, bswap32_host, bswap64_host]
  unfold host16 host32 host64
  refine ⟨?_, ?_, ?_, ?_, ?_, ?_⟩ <;> apply BitVec.eq_of_toNat_eq
  · rw [h1]; simp only [app_val, beVal, List.foldl_cons, List.foldl_nil]; omega
  · rw [h2]; simp only [app_val, leVal]; omega
  · rw [h3]; simp only [app_val, beVal, List.foldl_cons, List.foldl_nil]; omega
  · rw [h4]; simp only [app_val, leVal]; omega
  · rw [h5]; simp only [app_val, beVal, List.foldl_cons, List.foldl_nil]; omega
  · rw [h6]; simp only [app_val, leVal]; omega

open Movbe EndianMovbe in
/-- C22: the stores of the MOVBE build write the bytes the portable build writes. -/
theorem C22_movbe_stores (x : BitVec 16) (y : W32) (z : W64) :
    EndianMovbe.store16be x = MemUtil.store16be x ∧ EndianMovbe.store16le x = MemUtil.store16le x ∧
    EndianMovbe.store32be y = MemUtil.store32be y ∧ EndianMovbe.store32le y = MemUtil.store32le y ∧
    EndianMovbe.store64be z = MemUtil.store64be z ∧ EndianMovbe.store64le z = MemUtil.store64le z := by
  obtain ⟨x0, x1⟩ := bytes16 x
  obtain ⟨y0, y1, y2, y3⟩ := bytes32 y
  obtain ⟨z0, z1, z2, z3, z4, z5, z6, z7⟩ := bytes64 z
  refine ⟨?_, ?_, ?_, ?_, ?_, ?_⟩
  · unfold EndianMovbe.store16be MemUtil.store16be; rw [mem16_bswap, x0, x1]
  · unfold EndianMovbe.store16le MemUtil.store16le mem16; rw [x0, x1]
  · unfold EndianMovbe.store32be MemUtil.store32be; rw [mem32_bswap, y0, y1, y2, y3]
  · unfold EndianMovbe.store32le MemUtil.store32le mem32; rw [y0, y1, y2, y3]
  · unfold EndianMovbe.store64be MemUtil.store64be; rw [mem64_bswap, z0, z1, z2, z3, z4, z5, z6, z7]
  · unfold EndianMovbe.store64le MemUtil.store64le mem64; rw [z0, z1, z2, z3, z4, z5, z6, z7]

example : EndianMovbe.load32be 1 2 3 4 = 0x01020304#32 ∧ EndianMovbe.store64le 0x0807060504030201#64 = [1, 2, 3, 4, 5, 6, 7, 8] := by
  decide

end Verif.Props
