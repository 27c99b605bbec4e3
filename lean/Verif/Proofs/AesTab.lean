import Verif.Model.Aes
import Verif.Spec.Aes
import Verif.Proofs.Sm4
import Verif.Proofs.Tables
/-! # AES: words, tables, linear algebra -/
namespace Verif.Aes
open Verif.Spec

/-! ## Words from bytes -/

def w4 (a b c d : Byte) : W32 := a ++ b ++ c ++ d

theorem w4_or (a b c d : Byte) :
    (a.setWidth 32 <<< 24) ||| (b.setWidth 32 <<< 16) ||| (c.setWidth 32 <<< 8) ||| (d.setWidth 32 <<< 0) = w4 a b c d :=
  Sm4.join_bytes a b c d

theorem load_w4 (a b c d : Byte) : memLoad32BE a b c d = w4 a b c d := by
  rw [← w4_or]
  rfl

theorem w4_toNat (a b c d : Byte) :
    (w4 a b c d).toNat = ((a.toNat * 256 + b.toNat) * 256 + c.toNat) * 256 + d.toNat := by
  rw [← load_w4, memLoad_toNat]

theorem w4_24 (a b c d : Byte) : (w4 a b c d >>> 24 &&& 0xFF#32).toNat = a.toNat := by
  rw [Sm4.byte_index, BitVec.extractLsb'_toNat, w4_toNat, Nat.shiftRight_eq_div_pow]
  have := a.isLt; have := b.isLt; have := c.isLt; have := d.isLt
  omega
theorem w4_16 (a b c d : Byte) : (w4 a b c d >>> 16 &&& 0xFF#32).toNat = b.toNat := by
  rw [Sm4.byte_index, BitVec.extractLsb'_toNat, w4_toNat, Nat.shiftRight_eq_div_pow]
  have := a.isLt; have := b.isLt; have := c.isLt; have := d.isLt
  omega
theorem w4_8 (a b c d : Byte) : (w4 a b c d >>> 8 &&& 0xFF#32).toNat = c.toNat := by
  rw [Sm4.byte_index, BitVec.extractLsb'_toNat, w4_toNat, Nat.shiftRight_eq_div_pow]
  have := a.isLt; have := b.isLt; have := c.isLt; have := d.isLt
  omega
theorem w4_0 (a b c d : Byte) : (w4 a b c d >>> 0 &&& 0xFF#32).toNat = d.toNat := by
  rw [Sm4.byte_index, BitVec.extractLsb'_toNat, w4_toNat, Nat.shiftRight_eq_div_pow]
  have := a.isLt; have := b.isLt; have := c.isLt; have := d.isLt
  omega

theorem w4_xor (a b c d e f g h : Byte) :
    w4 a b c d ^^^ w4 e f g h = w4 (a ^^^ e) (b ^^^ f) (c ^^^ g) (d ^^^ h) := by
  unfold w4
  rw [BitVec.xor_append, BitVec.xor_append, BitVec.xor_append]

/-! ## Tables -/

def bx (T : Array Byte) (b : Byte) : Byte := T.getD b.toNat 0

theorem sbox_tab : sbox.toList = (List.range 256).map fun i => AES.sbox (BitVec.ofNat 8 i) := by decide +kernel
theorem sbox_ok (b : Byte) : sbox.getD b.toNat 0 = AES.sbox b := tab_byte _ _ sbox_tab b 0
theorem invSbox_tab : invSbox.toList = (List.range 256).map fun i => AES.invSbox (BitVec.ofNat 8 i) := by decide +kernel
theorem invSbox_ok (b : Byte) : invSbox.getD b.toNat 0 = AES.invSbox b := tab_byte _ _ invSbox_tab b 0
theorem sbox_size : sbox.size = 256 := by decide +kernel
theorem invSbox_size : invSbox.size = 256 := by decide +kernel
theorem inv_sub_list : (sbox.toList.map fun s => invSbox.getD s.toNat 0) = (List.range 256).map (BitVec.ofNat 8) := by
  decide +kernel
theorem inv_sub_tab (b : Byte) : invSbox.getD (sbox.getD b.toNat 0).toNat 0 = b := by
  have h := tab_byte ((sbox.toList.map fun s => invSbox.getD s.toNat 0).toArray) id (by simpa using inv_sub_list) b 0
  have h2 := tab_getD ((sbox.toList.map fun s => invSbox.getD s.toNat 0).toArray) sbox (fun s => invSbox.getD s.toNat 0)
    (by simp) sbox_size b 0 0
  rw [← h2, h]; rfl

/-! Multiplication by the constants of MixColumns, by `xtime` only. -/
def x2 (a : Byte) : Byte := AES.xtime a
def x3 (a : Byte) : Byte := AES.xtime a ^^^ a
def x9 (a : Byte) : Byte := AES.xtime (AES.xtime (AES.xtime a)) ^^^ a
def xb (a : Byte) : Byte := AES.xtime (AES.xtime (AES.xtime a)) ^^^ AES.xtime a ^^^ a
def xd (a : Byte) : Byte := AES.xtime (AES.xtime (AES.xtime a)) ^^^ AES.xtime (AES.xtime a) ^^^ a
def xe (a : Byte) : Byte := AES.xtime (AES.xtime (AES.xtime a)) ^^^ AES.xtime (AES.xtime a) ^^^ AES.xtime a

theorem g2 (a : Byte) : AES.gmul 2 a = x2 a := by
  simp [AES.gmul, x2, List.range_succ, Nat.repeat]; try ac_rfl
theorem g3 (a : Byte) : AES.gmul 3 a = x3 a := by
  simp [AES.gmul, x3, List.range_succ, Nat.repeat]; try ac_rfl
theorem g9 (a : Byte) : AES.gmul 9 a = x9 a := by
  simp [AES.gmul, x9, List.range_succ, Nat.repeat]; try ac_rfl
theorem gb (a : Byte) : AES.gmul 0xb a = xb a := by
  simp [AES.gmul, xb, List.range_succ, Nat.repeat]; try ac_rfl
theorem gd (a : Byte) : AES.gmul 0xd a = xd a := by
  simp [AES.gmul, xd, List.range_succ, Nat.repeat]; try ac_rfl
theorem ge (a : Byte) : AES.gmul 0xe a = xe a := by
  simp [AES.gmul, xe, List.range_succ, Nat.repeat]; try ac_rfl

theorem te0_tab_x : te0.toList = sbox.toList.map fun s => w4 (x2 s) s s (x3 s) := by decide +kernel
theorem te0_tab : ∀ b : Byte, te0.getD b.toNat 0 =
    w4 (AES.gmul 2 (bx sbox b)) (bx sbox b) (bx sbox b) (AES.gmul 3 (bx sbox b)) := by
  intro b; simp only [g2, g3]; exact tab_getD te0 sbox _ te0_tab_x sbox_size b 0 0
theorem te1_tab_x : te1.toList = sbox.toList.map fun s => w4 (x3 s) (x2 s) s s := by decide +kernel
theorem te1_tab : ∀ b : Byte, te1.getD b.toNat 0 =
    w4 (AES.gmul 3 (bx sbox b)) (AES.gmul 2 (bx sbox b)) (bx sbox b) (bx sbox b) := by
  intro b; simp only [g2, g3]; exact tab_getD te1 sbox _ te1_tab_x sbox_size b 0 0
theorem te2_tab_x : te2.toList = sbox.toList.map fun s => w4 s (x3 s) (x2 s) s := by decide +kernel
theorem te2_tab : ∀ b : Byte, te2.getD b.toNat 0 =
    w4 (bx sbox b) (AES.gmul 3 (bx sbox b)) (AES.gmul 2 (bx sbox b)) (bx sbox b) := by
  intro b; simp only [g2, g3]; exact tab_getD te2 sbox _ te2_tab_x sbox_size b 0 0
theorem te3_tab_x : te3.toList = sbox.toList.map fun s => w4 s s (x3 s) (x2 s) := by decide +kernel
theorem te3_tab : ∀ b : Byte, te3.getD b.toNat 0 =
    w4 (bx sbox b) (bx sbox b) (AES.gmul 3 (bx sbox b)) (AES.gmul 2 (bx sbox b)) := by
  intro b; simp only [g2, g3]; exact tab_getD te3 sbox _ te3_tab_x sbox_size b 0 0
theorem td0_tab_x : td0.toList = invSbox.toList.map fun s => w4 (xe s) (x9 s) (xd s) (xb s) := by decide +kernel
theorem td0_tab : ∀ b : Byte, td0.getD b.toNat 0 = w4 (AES.gmul 0xe (bx invSbox b)) (AES.gmul 9 (bx invSbox b))
    (AES.gmul 0xd (bx invSbox b)) (AES.gmul 0xb (bx invSbox b)) := by
  intro b; simp only [g9, gb, gd, ge]; exact tab_getD td0 invSbox _ td0_tab_x invSbox_size b 0 0
theorem td1_tab_x : td1.toList = invSbox.toList.map fun s => w4 (xb s) (xe s) (x9 s) (xd s) := by decide +kernel
theorem td1_tab : ∀ b : Byte, td1.getD b.toNat 0 = w4 (AES.gmul 0xb (bx invSbox b)) (AES.gmul 0xe (bx invSbox b))
    (AES.gmul 9 (bx invSbox b)) (AES.gmul 0xd (bx invSbox b)) := by
  intro b; simp only [g9, gb, gd, ge]; exact tab_getD td1 invSbox _ td1_tab_x invSbox_size b 0 0
theorem td2_tab_x : td2.toList = invSbox.toList.map fun s => w4 (xd s) (xb s) (xe s) (x9 s) := by decide +kernel
theorem td2_tab : ∀ b : Byte, td2.getD b.toNat 0 = w4 (AES.gmul 0xd (bx invSbox b)) (AES.gmul 0xb (bx invSbox b))
    (AES.gmul 0xe (bx invSbox b)) (AES.gmul 9 (bx invSbox b)) := by
  intro b; simp only [g9, gb, gd, ge]; exact tab_getD td2 invSbox _ td2_tab_x invSbox_size b 0 0
theorem td3_tab_x : td3.toList = invSbox.toList.map fun s => w4 (x9 s) (xd s) (xb s) (xe s) := by decide +kernel
theorem td3_tab : ∀ b : Byte, td3.getD b.toNat 0 = w4 (AES.gmul 9 (bx invSbox b)) (AES.gmul 0xd (bx invSbox b))
    (AES.gmul 0xb (bx invSbox b)) (AES.gmul 0xe (bx invSbox b)) := by
  intro b; simp only [g9, gb, gd, ge]; exact tab_getD td3 invSbox _ td3_tab_x invSbox_size b 0 0
theorem rcon_ok : ∀ j < 10, rcon.getD j 0 = (Nat.repeat AES.xtime j 1).setWidth 32 := by decide +kernel

theorem bx_sbox (b : Byte) : bx sbox b = AES.sbox b := sbox_ok b
theorem bx_inv (b : Byte) : bx invSbox b = AES.invSbox b := invSbox_ok b
theorem inv_sbox (b : Byte) : AES.invSbox (AES.sbox b) = b := by
  rw [← sbox_ok, ← invSbox_ok]; exact inv_sub_tab b

/-! ## Linear algebra over GF(2^8) -/

theorem xtime_xor (a b : Byte) : AES.xtime (a ^^^ b) = AES.xtime a ^^^ AES.xtime b := by
  unfold AES.xtime
  rw [BitVec.getLsbD_xor, BitVec.shiftLeft_xor_distrib]
  cases a.getLsbD 7 <;> cases b.getLsbD 7 <;> simp
  · ac_rfl
  · ac_rfl
  · rw [show a <<< 1 ^^^ 27#8 ^^^ (b <<< 1 ^^^ 27#8) = a <<< 1 ^^^ b <<< 1 ^^^ (27#8 ^^^ 27#8) by ac_rfl,
      BitVec.xor_self, BitVec.xor_zero]

theorem repeat_xor (i : Nat) (a b : Byte) :
    Nat.repeat AES.xtime i (a ^^^ b) = Nat.repeat AES.xtime i a ^^^ Nat.repeat AES.xtime i b := by
  induction i with
  | zero => rfl
  | succ i ih => simp only [Nat.repeat, ih, xtime_xor]

theorem gmul_xor (k a b : Byte) : AES.gmul k (a ^^^ b) = AES.gmul k a ^^^ AES.gmul k b := by
  unfold AES.gmul
  have : ∀ (l : List Nat) (x y : Byte),
      l.foldl (fun r i => if k.getLsbD i then r ^^^ Nat.repeat AES.xtime i (a ^^^ b) else r) (x ^^^ y) =
      l.foldl (fun r i => if k.getLsbD i then r ^^^ Nat.repeat AES.xtime i a else r) x ^^^
      l.foldl (fun r i => if k.getLsbD i then r ^^^ Nat.repeat AES.xtime i b else r) y := by
    intro l
    induction l with
    | nil => intro x y; rfl
    | cons i l ih =>
      intro x y
      simp only [List.foldl_cons]
      rw [← ih]
      cases k.getLsbD i
      · rfl
      · simp only [if_true]
        rw [repeat_xor]
        congr 1; ac_rfl
  have := this (List.range 8) 0 0
  rwa [show (0 : Byte) ^^^ 0 = 0 from rfl] at this

theorem mix1_x : ∀ a : Byte, xe (x2 a) ^^^ xb a ^^^ xd a ^^^
    x9 (x3 a) = a := by decide +kernel
theorem mix1 : ∀ a : Byte, AES.gmul 0x0e (AES.gmul 2 a) ^^^ AES.gmul 0x0b a ^^^ AES.gmul 0x0d a ^^^
    AES.gmul 0x09 (AES.gmul 3 a) = a := by
  simp only [g2, g3, g9, gb, gd, ge]; exact mix1_x
theorem mix2_x : ∀ a : Byte, xe (x3 a) ^^^ xb (x2 a) ^^^ xd a ^^^
    x9 a = 0 := by decide +kernel
theorem mix2 : ∀ a : Byte, AES.gmul 0x0e (AES.gmul 3 a) ^^^ AES.gmul 0x0b (AES.gmul 2 a) ^^^ AES.gmul 0x0d a ^^^
    AES.gmul 0x09 a = 0 := by
  simp only [g2, g3, g9, gb, gd, ge]; exact mix2_x
theorem mix3_x : ∀ a : Byte, xe a ^^^ xb (x3 a) ^^^ xd (x2 a) ^^^
    x9 a = 0 := by decide +kernel
theorem mix3 : ∀ a : Byte, AES.gmul 0x0e a ^^^ AES.gmul 0x0b (AES.gmul 3 a) ^^^ AES.gmul 0x0d (AES.gmul 2 a) ^^^
    AES.gmul 0x09 a = 0 := by
  simp only [g2, g3, g9, gb, gd, ge]; exact mix3_x
theorem mix4_x : ∀ a : Byte, xe a ^^^ xb a ^^^ xd (x3 a) ^^^
    x9 (x2 a) = 0 := by decide +kernel
theorem mix4 : ∀ a : Byte, AES.gmul 0x0e a ^^^ AES.gmul 0x0b a ^^^ AES.gmul 0x0d (AES.gmul 3 a) ^^^
    AES.gmul 0x09 (AES.gmul 2 a) = 0 := by
  simp only [g2, g3, g9, gb, gd, ge]; exact mix4_x

attribute [local irreducible] AES.gmul in
theorem mix_col (a b c d : Byte) :
    AES.gmul 0x0e (AES.gmul 2 a ^^^ AES.gmul 3 b ^^^ c ^^^ d) ^^^
      AES.gmul 0x0b (AES.gmul 2 b ^^^ AES.gmul 3 c ^^^ d ^^^ a) ^^^
      AES.gmul 0x0d (AES.gmul 2 c ^^^ AES.gmul 3 d ^^^ a ^^^ b) ^^^
      AES.gmul 0x09 (AES.gmul 2 d ^^^ AES.gmul 3 a ^^^ b ^^^ c) = a := by
  simp only [gmul_xor]
  have h1 := mix1 a
  have h2 := mix2 b
  have h3 := mix3 c
  have h4 := mix4 d
  have e : AES.gmul 14 (AES.gmul 2 a) ^^^ AES.gmul 14 (AES.gmul 3 b) ^^^ AES.gmul 14 c ^^^ AES.gmul 14 d ^^^
      (AES.gmul 11 (AES.gmul 2 b) ^^^ AES.gmul 11 (AES.gmul 3 c) ^^^ AES.gmul 11 d ^^^ AES.gmul 11 a) ^^^
      (AES.gmul 13 (AES.gmul 2 c) ^^^ AES.gmul 13 (AES.gmul 3 d) ^^^ AES.gmul 13 a ^^^ AES.gmul 13 b) ^^^
      (AES.gmul 9 (AES.gmul 2 d) ^^^ AES.gmul 9 (AES.gmul 3 a) ^^^ AES.gmul 9 b ^^^ AES.gmul 9 c) =
      (AES.gmul 0x0e (AES.gmul 2 a) ^^^ AES.gmul 0x0b a ^^^ AES.gmul 0x0d a ^^^ AES.gmul 0x09 (AES.gmul 3 a)) ^^^
      (AES.gmul 0x0e (AES.gmul 3 b) ^^^ AES.gmul 0x0b (AES.gmul 2 b) ^^^ AES.gmul 0x0d b ^^^ AES.gmul 0x09 b) ^^^
      (AES.gmul 0x0e c ^^^ AES.gmul 0x0b (AES.gmul 3 c) ^^^ AES.gmul 0x0d (AES.gmul 2 c) ^^^ AES.gmul 0x09 c) ^^^
      (AES.gmul 0x0e d ^^^ AES.gmul 0x0b d ^^^ AES.gmul 0x0d (AES.gmul 3 d) ^^^ AES.gmul 0x09 (AES.gmul 2 d)) := by
    ac_rfl
  rw [e, h1, h2, h3, h4]
  simp

end Verif.Aes
