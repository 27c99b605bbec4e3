import Verif.Proofs.AesTab
import Mathlib.Data.Vector.Basic
import Mathlib.Data.Fintype.EquivFin
/-! # AES: rounds, key schedule, inverse -/
namespace Verif.Aes
open Verif.Spec

attribute [local irreducible] AES.gmul AES.sbox AES.invSbox

/-! ## States -/

theorem at_mk (f : Nat → Nat → Byte) (r c : Nat) (hr : r < 4) (hc : c < 4) : AES.at_ (AES.mk f) r c = f r c := by
  unfold AES.at_ AES.mk
  rw [List.getD_eq_getElem?_getD, List.getElem?_map, List.getElem?_range (by omega)]
  simp only [Option.map_some, Option.getD_some]
  congr 1 <;> omega

theorem mk_congr (f g : Nat → Nat → Byte) (h : ∀ r < 4, ∀ c < 4, f r c = g r c) : AES.mk f = AES.mk g := by
  unfold AES.mk
  apply List.map_congr_left
  intro k hk
  have := List.mem_range.mp hk
  exact h _ (by omega) _ (by omega)

theorem mk_at (x : List Byte) (hx : x.length = 16) : AES.mk (AES.at_ x) = x := by
  apply List.ext_getElem
  · simp [AES.mk, hx]
  · intro i h1 h2
    simp only [AES.mk, List.getElem_map, List.getElem_range, AES.at_]
    rw [show i % 4 + 4 * (i / 4) = i by omega, List.getD_eq_getElem?_getD, List.getElem?_eq_getElem h2]
    rfl

theorem mk_len (f : Nat → Nat → Byte) : (AES.mk f).length = 16 := by simp [AES.mk]

def toW (l : List Byte) (c : Nat) : W32 := w4 (AES.at_ l 0 c) (AES.at_ l 1 c) (AES.at_ l 2 c) (AES.at_ l 3 c)

def toSt (l : List Byte) : State := (toW l 0, toW l 1, toW l 2, toW l 3)

theorem ld_toW (l : List Byte) (c : Nat) : ld l (4 * c) = toW l c := by
  unfold ld toW AES.at_
  rw [load_w4]
  congr 2 <;> omega

/-- The words of a round key. -/
def RkIs (rk : List W32) (i : Nat) (k : List Byte) : Prop := ∀ c < 4, rk.getD (4 * i + c) 0 = toW k c

theorem load_eq (rk : List W32) (k inp : List Byte) (h : RkIs rk 0 k) : load rk inp = toSt (AES.addRoundKey inp k) := by
  have e0 := h 0 (by omega)
  have e1 := h 1 (by omega)
  have e2 := h 2 (by omega)
  have e3 := h 3 (by omega)
  simp only [Nat.mul_zero, Nat.zero_add] at e0 e1 e2 e3
  have l : ∀ c, ld inp (4 * c) = toW inp c := ld_toW inp
  have l0 := l 0
  have l1 := l 1
  have l2 := l 2
  have l3 := l 3
  simp only [Nat.mul_zero, Nat.reduceMul] at l0 l1 l2 l3
  unfold load toSt
  rw [e0, e1, e2, e3, l0, l1, l2, l3]
  simp only [toW, w4_xor, AES.addRoundKey, at_mk, Nat.reduceLT, Nat.lt_add_one, Nat.zero_lt_succ, BitVec.xor_comm]

theorem encRound_eq (rk : List W32) (i : Nat) (k s : List Byte) (h : RkIs rk i k) :
    encRound rk (toSt s) i = toSt (AES.addRoundKey (AES.mixColumns (AES.shiftRows (AES.subBytes s))) k) := by
  have e0 := h 0 (by omega)
  have e1 := h 1 (by omega)
  have e2 := h 2 (by omega)
  have e3 := h 3 (by omega)
  rw [Nat.add_zero] at e0
  unfold encRound toSt
  simp only [e0, e1, e2, e3]
  simp only [at8, toW, w4_24, w4_16, w4_8, w4_0, te0_tab, te1_tab, te2_tab, te3_tab, bx_sbox, w4_xor,
    AES.addRoundKey, AES.mixColumns, AES.shiftRows, AES.subBytes, at_mk, Nat.reduceLT, Nat.lt_add_one, Nat.zero_lt_succ,
    Nat.reduceAdd, Nat.reduceMod, Nat.zero_mod]
  refine Prod.ext ?_ (Prod.ext ?_ (Prod.ext ?_ ?_)) <;> dsimp only <;> congr 1 <;> ac_rfl

theorem sb_or (T : Array Byte) (a b c d : Byte) (x y z w : W32) (hx : (x &&& 0xFF#32).toNat = a.toNat)
    (hy : (y &&& 0xFF#32).toNat = b.toNat) (hz : (z &&& 0xFF#32).toNat = c.toNat) (hw : (w &&& 0xFF#32).toNat = d.toNat) :
    sb T x <<< 24 ||| sb T y <<< 16 ||| sb T z <<< 8 ||| sb T w <<< 0 = w4 (bx T a) (bx T b) (bx T c) (bx T d) := by
  rw [← w4_or]
  simp only [sb, at8, hx, hy, hz, hw, bx]

theorem encLast_eq (rk : List W32) (i : Nat) (k s : List Byte) (h : RkIs rk i k) :
    encLast rk (toSt s) i = toSt (AES.addRoundKey (AES.shiftRows (AES.subBytes s)) k) := by
  have e0 := h 0 (by omega)
  have e1 := h 1 (by omega)
  have e2 := h 2 (by omega)
  have e3 := h 3 (by omega)
  rw [Nat.add_zero] at e0
  unfold encLast toSt
  simp only [e0, e1, e2, e3]
  simp only [toW, sb_or sbox _ _ _ _ _ _ _ _ (w4_24 _ _ _ _) (w4_16 _ _ _ _) (w4_8 _ _ _ _) (w4_0 _ _ _ _), bx_sbox,
    w4_xor, AES.addRoundKey, AES.shiftRows, AES.subBytes, at_mk, Nat.reduceLT, Nat.lt_add_one,
    Nat.zero_lt_succ, Nat.reduceAdd, Nat.reduceMod, Nat.zero_mod]

theorem decRound_eq (rk : List W32) (i : Nat) (k s : List Byte) (h : RkIs rk i k) :
    decRound rk (toSt s) i = toSt (AES.addRoundKey (AES.invMixColumns (AES.invSubBytes (AES.invShiftRows s))) k) := by
  have e0 := h 0 (by omega)
  have e1 := h 1 (by omega)
  have e2 := h 2 (by omega)
  have e3 := h 3 (by omega)
  rw [Nat.add_zero] at e0
  unfold decRound toSt
  simp only [e0, e1, e2, e3]
  simp only [at8, toW, w4_24, w4_16, w4_8, w4_0, td0_tab, td1_tab, td2_tab, td3_tab, bx_inv, w4_xor,
    AES.addRoundKey, AES.invMixColumns, AES.invShiftRows, AES.invSubBytes, at_mk, Nat.reduceLT, Nat.lt_add_one,
    Nat.zero_lt_succ, Nat.reduceAdd, Nat.reduceMod, Nat.zero_mod, Nat.reduceSub]
  refine Prod.ext ?_ (Prod.ext ?_ (Prod.ext ?_ ?_)) <;> dsimp only <;> congr 1 <;> ac_rfl

theorem decLast_eq (rk : List W32) (i : Nat) (k s : List Byte) (h : RkIs rk i k) :
    decLast rk (toSt s) i = toSt (AES.addRoundKey (AES.invSubBytes (AES.invShiftRows s)) k) := by
  have e0 := h 0 (by omega)
  have e1 := h 1 (by omega)
  have e2 := h 2 (by omega)
  have e3 := h 3 (by omega)
  rw [Nat.add_zero] at e0
  unfold decLast toSt
  simp only [e0, e1, e2, e3]
  simp only [toW, sb_or invSbox _ _ _ _ _ _ _ _ (w4_24 _ _ _ _) (w4_16 _ _ _ _) (w4_8 _ _ _ _) (w4_0 _ _ _ _), bx_inv,
    w4_xor, AES.addRoundKey, AES.invShiftRows, AES.invSubBytes, at_mk, Nat.reduceLT, Nat.lt_add_one,
    Nat.zero_lt_succ, Nat.reduceAdd, Nat.reduceMod, Nat.zero_mod, Nat.reduceSub]

theorem store_w4 (a b c d : Byte) : memStore32BE (w4 a b c d) = [a, b, c, d] := by
  apply beVal_inj
  · rfl
  · rw [Sm4.store32_eq, beVal_toBE, w4_toNat]
    have := a.isLt; have := b.isLt; have := c.isLt; have := d.isLt
    simp only [beVal, List.foldl_cons, List.foldl_nil]
    omega

theorem store_eq (s : List Byte) (hs : s.length = 16) : store (toSt s) = s := by
  conv_rhs => rw [← mk_at s hs]
  unfold store toSt toW
  simp only [store_w4]
  rfl

/-! ## Key schedule -/

def wOf (l : List Byte) : W32 := w4 (l.getD 0 0) (l.getD 1 0) (l.getD 2 0) (l.getD 3 0)

theorem getD_map_wOf (L : List (List Byte)) (i : Nat) : (L.map wOf).getD i 0 = wOf (L.getD i []) := by
  simp only [List.getD_eq_getElem?_getD, List.getElem?_map]
  cases L[i]? <;> rfl

theorem list4 (l : List Byte) (h : l.length = 4) : ∃ a b c d, l = [a, b, c, d] := by
  match l, h with
  | [a, b, c, d], _ => exact ⟨a, b, c, d, rfl⟩

theorem nextWord_len (nk : Nat) (L : List (List Byte)) (hL : ∀ w ∈ L, w.length = 4) (hn : 0 < nk) (hl : nk ≤ L.length) :
    (AES.nextWord nk L).length = 4 := by
  have g : ∀ i, i < L.length → (L.getD i []).length = 4 := by
    intro i hi
    rw [List.getD_eq_getElem?_getD, List.getElem?_eq_getElem hi]
    exact hL _ (List.getElem_mem hi)
  unfold AES.nextWord
  obtain ⟨a, b, c, d, e⟩ := list4 _ (g (L.length - 1) (by omega))
  obtain ⟨a', b', c', d', e'⟩ := list4 _ (g (L.length - nk) (by omega))
  simp only [e, e']
  split_ifs <;> rfl

theorem or_rev (a b c d : W32) : a ||| b ||| c ||| d = d ||| c ||| b ||| a := by
  rw [BitVec.or_comm (a ||| b ||| c), BitVec.or_comm (a ||| b), BitVec.or_comm a, ← BitVec.or_assoc, ← BitVec.or_assoc]

theorem keyWord_eq (nk : Nat) (L : List (List Byte)) (hL : ∀ w ∈ L, w.length = 4) (hn : 0 < nk) (hl : nk ≤ L.length)
    (hr : L.length / nk ≤ 10) : keyWord nk (L.map wOf) L.length = wOf (AES.nextWord nk L) := by
  have g : ∀ i, i < L.length → (L.getD i []).length = 4 := by
    intro i hi
    rw [List.getD_eq_getElem?_getD, List.getElem?_eq_getElem hi]
    exact hL _ (List.getElem_mem hi)
  unfold keyWord AES.nextWord
  obtain ⟨a, b, c, d, e⟩ := list4 _ (g (L.length - 1) (by omega))
  obtain ⟨a', b', c', d', e'⟩ := list4 _ (g (L.length - nk) (by omega))
  have h1 : 0 < L.length / nk := Nat.div_pos hl hn
  have hrc := rcon_ok (L.length / nk - 1) (by omega)
  simp only [getD_map_wOf, e, e', hrc]
  have ew : ∀ a b c d : Byte, wOf [a, b, c, d] = w4 a b c d := fun _ _ _ _ => rfl
  have s24 : ∀ a b c d, sb sbox (w4 a b c d >>> 24) = (AES.sbox a).setWidth 32 := by
    intro a b c d; rw [sb, at8, w4_24, sbox_ok]
  have s16 : ∀ a b c d, sb sbox (w4 a b c d >>> 16) = (AES.sbox b).setWidth 32 := by
    intro a b c d; rw [sb, at8, w4_16, sbox_ok]
  have s8 : ∀ a b c d, sb sbox (w4 a b c d >>> 8) = (AES.sbox c).setWidth 32 := by
    intro a b c d; rw [sb, at8, w4_8, sbox_ok]
  have s0 : ∀ a b c d, sb sbox (w4 a b c d >>> 0) = (AES.sbox d).setWidth 32 := by
    intro a b c d; rw [sb, at8, w4_0, sbox_ok]
  have j : ∀ a b c d : Byte, a.setWidth 32 ||| b.setWidth 32 <<< 8 ||| c.setWidth 32 <<< 16 ||| d.setWidth 32 <<< 24 =
      w4 d c b a := by
    intro a b c d
    rw [← w4_or, BitVec.shiftLeft_zero]
    exact or_rev _ _ _ _
  by_cases c1 : L.length % nk = 0
  · rw [if_pos c1, if_pos c1, ew a b c d, ew a' b' c' d', s24, s16, s8, s0, ← BitVec.setWidth_xor, j, w4_xor]
    have er : AES.rotWord [a, b, c, d] = [b, c, d, a] := rfl
    rw [er]
    unfold AES.rcon
    generalize Nat.repeat AES.xtime (L.length / nk - 1) 1 = R
    show _ = w4 (a' ^^^ (AES.sbox b ^^^ R)) (b' ^^^ (AES.sbox c ^^^ 0#8)) (c' ^^^ (AES.sbox d ^^^ 0#8))
      (d' ^^^ (AES.sbox a ^^^ 0#8))
    simp only [BitVec.xor_zero]
  · rw [if_neg c1, if_neg c1]
    by_cases c2 : nk > 6 ∧ L.length % nk = 4
    · rw [if_pos c2, if_pos c2, ew a b c d, ew a' b' c' d', s24, s16, s8, s0, j, w4_xor]
      rfl
    · rw [if_neg c2, if_neg c2, ew, ew, w4_xor]
      rfl

theorem expandLoop (nk n : Nat) (hn : 0 < nk) : ∀ (L : List (List Byte)), (∀ w ∈ L, w.length = 4) → nk ≤ L.length →
    (L.length + n - 1) / nk ≤ 10 →
    let R := Nat.repeat (fun w => w ++ [AES.nextWord nk w]) n L
    (List.range' L.length n).foldl (fun w i => w ++ [keyWord nk w i]) (L.map wOf) = R.map wOf ∧
      (∀ w ∈ R, w.length = 4) ∧ R.length = L.length + n := by
  induction n with
  | zero => intro L hL _ _; exact ⟨rfl, hL, rfl⟩
  | succ n ih =>
    intro L hL hl hr
    have hd : (L.length + n - 1) / nk ≤ 10 := le_trans (Nat.div_le_div_right (by omega)) hr
    have hih := ih L hL hl hd
    obtain ⟨h1, h2, h3⟩ := hih
    intro R
    have hR : R = Nat.repeat (fun w => w ++ [AES.nextWord nk w]) n L ++
        [AES.nextWord nk (Nat.repeat (fun w => w ++ [AES.nextWord nk w]) n L)] := rfl
    generalize Nat.repeat (fun w => w ++ [AES.nextWord nk w]) n L = Q at h1 h2 h3 hR
    rw [List.range'_concat, List.foldl_append, h1, hR]
    simp only [List.foldl_cons, List.foldl_nil, List.map_append, List.map_cons, List.map_nil, Nat.one_mul]
    rw [← h3, keyWord_eq nk Q h2 hn (by omega) (by
      rw [h3]; have : L.length + (n + 1) - 1 = L.length + n := by omega
      rwa [this] at hr)]
    refine ⟨rfl, ?_, by simp; omega⟩
    intro w hw
    rcases List.mem_append.mp hw with h | h
    · exact h2 w h
    · rw [List.mem_singleton] at h
      rw [h]; exact nextWord_len nk Q h2 hn (by omega)

/-- The supported key sizes. -/
def Nk (nk : Nat) : Prop := nk = 4 ∨ nk = 6 ∨ nk = 8

theorem enc_key (nk : Nat) (hk : Nk nk) (key : List Byte) (hl : key.length = 4 * nk) :
    encKeyInit key (32 * nk) = (AES.expand nk (nk + 6) key).map wOf ∧
      (∀ w ∈ AES.expand nk (nk + 6) key, w.length = 4) ∧ (AES.expand nk (nk + 6) key).length = 4 * (nk + 7) := by
  have e1 : nkOf (32 * nk) = nk := by unfold nkOf; omega
  have e2 : nrOf (32 * nk) = nk + 6 := by unfold nrOf; rcases hk with h | h | h <;> subst h <;> rfl
  unfold encKeyInit AES.expand
  simp only [e1, e2]
  set L := (List.range nk).map fun i => (key.drop (4 * i)).take 4 with hLdef
  have hL : ∀ w ∈ L, w.length = 4 := by
    intro w hw
    obtain ⟨i, hi, rfl⟩ := List.mem_map.mp hw
    have := List.mem_range.mp hi
    rw [List.length_take, List.length_drop]; omega
  have hLl : L.length = nk := by simp [hLdef]
  have hw : ((List.range nk).map fun i => ld key (4 * i)) = L.map wOf := by
    rw [hLdef, List.map_map]
    apply List.map_congr_left
    intro i hi
    have := List.mem_range.mp hi
    simp only [Function.comp]
    rw [Sm4.take4 key (4 * i) (by omega)]
    unfold ld
    rw [load_w4]; rfl
  rw [hw]
  have := expandLoop nk (4 * (nk + 6 + 1) - nk) (by rcases hk with h | h | h <;> omega) L hL (by omega)
    (by rw [hLl]; rcases hk with h | h | h <;> subst h <;> decide)
  simp only [hLl] at this
  refine ⟨this.1, this.2.1, ?_⟩
  rw [this.2.2]; rcases hk with h | h | h <;> omega

theorem flatten_getD {α} (z : α) (ws : List (List α)) (h : ∀ w ∈ ws, w.length = 4) (i c : Nat) (hc : c < 4) :
    ws.flatten.getD (4 * i + c) z = (ws.getD i []).getD c z := by
  induction ws generalizing i with
  | nil => simp
  | cons w ws ih =>
    have hw := h w (by simp)
    rw [List.flatten_cons]
    cases i with
    | zero => simp [List.getD_eq_getElem?_getD, List.getElem?_append_left (show c < w.length by omega)]
    | succ i =>
      rw [List.getD_eq_getElem?_getD, List.getElem?_append_right (by omega), ← List.getD_eq_getElem?_getD, hw,
        show 4 * (i + 1) + c - 4 = 4 * i + c by omega, ih (fun w hw => h w (by simp [hw]))]
      simp

theorem roundKey_at (L : List (List Byte)) (hL : ∀ w ∈ L, w.length = 4) (i r c : Nat) (hr : r < 4) (hc : c < 4) :
    AES.at_ (AES.roundKey L i) r c = (L.getD (4 * i + c) []).getD r 0 := by
  unfold AES.at_ AES.roundKey
  rw [Nat.add_comm r, flatten_getD 0 _ (fun w hw => hL w (List.mem_of_mem_drop (List.mem_of_mem_take hw))) c r hr]
  congr 1
  rw [List.getD_eq_getElem?_getD, List.getElem?_take_of_lt hc, List.getElem?_drop, ← List.getD_eq_getElem?_getD]

theorem rkIs_enc (L : List (List Byte)) (hL : ∀ w ∈ L, w.length = 4) (i : Nat) :
    RkIs (L.map wOf) i (AES.roundKey L i) := by
  intro c hc
  rw [getD_map_wOf, toW, roundKey_at L hL i 0 c (by omega) hc, roundKey_at L hL i 1 c (by omega) hc,
    roundKey_at L hL i 2 c (by omega) hc, roundKey_at L hL i 3 c (by omega) hc]
  rfl

theorem enc_block_eq (nk : Nat) (hk : Nk nk) (key x : List Byte) (hl : key.length = 4 * nk) :
    encBlock (encKeyInit key (32 * nk)) x (32 * nk) = AES.encrypt nk key x := by
  obtain ⟨h1, h2, h3⟩ := enc_key nk hk key hl
  have e2 : nrOf (32 * nk) = nk + 6 := by unfold nrOf; rcases hk with h | h | h <;> subst h <;> rfl
  unfold encBlock AES.encrypt AES.cipher
  rw [h1]
  generalize AES.expand nk (nk + 6) key = L at h2
  simp only [e2]
  rw [load_eq _ _ _ (rkIs_enc L h2 0)]
  have loop : ∀ (l : List Nat) (s : List Byte), l.foldl (encRound (L.map wOf)) (toSt s) =
      toSt (l.foldl (fun s i => AES.addRoundKey (AES.mixColumns (AES.shiftRows (AES.subBytes s))) (AES.roundKey L i)) s) := by
    intro l
    induction l with
    | nil => intro s; rfl
    | cons i l ih => intro s; rw [List.foldl_cons, encRound_eq _ _ _ _ (rkIs_enc L h2 i), ih]; rfl
  rw [loop, encLast_eq _ _ _ _ (rkIs_enc L h2 _), store_eq (AES.addRoundKey _ _) (mk_len _)]

/-! ## Inverse -/

open AES in
theorem inv_shift (s : List Byte) : invShiftRows (shiftRows s) = mk (at_ s) := by
  apply mk_congr
  intro r hr c hc
  rw [shiftRows, at_mk _ _ _ hr (Nat.mod_lt _ (by omega))]
  congr 1; omega

open AES in
theorem inv_sub (s : List Byte) : invSubBytes (subBytes s) = mk (at_ s) := by
  apply mk_congr
  intro r hr c hc
  rw [subBytes, at_mk _ _ _ hr hc, inv_sbox]

open AES in
theorem inv_mix (s : List Byte) : invMixColumns (mixColumns s) = mk (at_ s) := by
  apply mk_congr
  intro r hr c hc
  unfold mixColumns
  rw [at_mk _ _ _ hr hc, at_mk _ _ _ (Nat.mod_lt _ (by omega)) hc, at_mk _ _ _ (Nat.mod_lt _ (by omega)) hc,
    at_mk _ _ _ (Nat.mod_lt _ (by omega)) hc]
  have h : ∀ j k, ((r + j) % 4 + k) % 4 = (r + (j + k)) % 4 := by omega
  have h4 : (r + 4) % 4 = r := by omega
  have h5 : (r + 5) % 4 = (r + 1) % 4 := by omega
  have h6 : (r + 6) % 4 = (r + 2) % 4 := by omega
  simp only [h, Nat.reduceAdd, h4, h5, h6]
  exact mix_col _ _ _ _

open AES in
theorem add_add (s k : List Byte) : addRoundKey (addRoundKey s k) k = mk (at_ s) := by
  apply mk_congr
  intro r hr c hc
  rw [addRoundKey, at_mk _ _ _ hr hc, BitVec.xor_assoc, BitVec.xor_self, BitVec.xor_zero]

open AES in
/-- One full round undone (up to the substitution layer). -/
theorem undo_round (s k : List Byte) (hs : s.length = 16) :
    invMixColumns (addRoundKey (invSubBytes (invShiftRows (shiftRows (subBytes
      (addRoundKey (mixColumns (shiftRows (subBytes s))) k))))) k) = shiftRows (subBytes s) := by
  rw [inv_shift, mk_at (subBytes _) (mk_len _), inv_sub, mk_at (addRoundKey _ _) (mk_len _), add_add,
    mk_at (mixColumns _) (mk_len _), inv_mix, mk_at (shiftRows _) (mk_len _)]

open AES in
theorem inv_cipher (Nr : Nat) (w : List AES.Word) (x : List Byte) (hx : x.length = 16) :
    AES.invCipher Nr w (AES.cipher Nr w x) = x := by
  unfold AES.invCipher AES.cipher
  simp only
  rw [add_add, mk_at (shiftRows _) (mk_len _)]
  have loop : ∀ (l : List Nat) (s : List Byte), s.length = 16 →
      l.reverse.foldl (fun s i => invMixColumns (addRoundKey (invSubBytes (invShiftRows s)) (roundKey w i)))
        (shiftRows (subBytes (l.foldl (fun s i => addRoundKey (mixColumns (shiftRows (subBytes s))) (roundKey w i)) s))) =
      shiftRows (subBytes s) := by
    intro l
    induction l with
    | nil => intro s _; rfl
    | cons i l ih =>
      intro s hs
      rw [List.reverse_cons, List.foldl_append, List.foldl_cons (l := l), ih (addRoundKey _ _) (mk_len _), List.foldl_cons, List.foldl_nil,
        undo_round s _ hs]
  rw [loop _ (addRoundKey _ _) (mk_len _), inv_shift, mk_at (subBytes _) (mk_len _), inv_sub,
    mk_at (addRoundKey _ _) (mk_len _), add_add, mk_at x hx]

/-! ## The equivalent inverse cipher -/

open AES in
theorem invMix_add (s k : List Byte) : invMixColumns (addRoundKey s k) = addRoundKey (invMixColumns s) (invMixColumns k) := by
  apply mk_congr
  intro r hr c hc
  unfold invMixColumns addRoundKey
  rw [at_mk _ _ _ hr hc, at_mk _ _ _ (Nat.mod_lt _ (by omega)) hc, at_mk _ _ _ (Nat.mod_lt _ (by omega)) hc,
    at_mk _ _ _ (Nat.mod_lt _ (by omega)) hc, at_mk _ _ _ hr hc, at_mk _ _ _ hr hc]
  simp only [gmul_xor]
  ac_rfl

theorem invMixcol_w4 (a b c d : Byte) : invMixcol (w4 a b c d) =
    w4 (AES.gmul 0xe a ^^^ AES.gmul 0xb b ^^^ AES.gmul 0xd c ^^^ AES.gmul 9 d)
      (AES.gmul 0xe b ^^^ AES.gmul 0xb c ^^^ AES.gmul 0xd d ^^^ AES.gmul 9 a)
      (AES.gmul 0xe c ^^^ AES.gmul 0xb d ^^^ AES.gmul 0xd a ^^^ AES.gmul 9 b)
      (AES.gmul 0xe d ^^^ AES.gmul 0xb a ^^^ AES.gmul 0xd b ^^^ AES.gmul 9 c) := by
  have idx : ∀ x : Byte, (x.setWidth 32 &&& 0xFF#32).toNat = x.toNat := by
    intro x
    rw [BitVec.toNat_and, show (0xFF#32).toNat = 2 ^ 8 - 1 from rfl, Nat.and_two_pow_sub_one_eq_mod,
      BitVec.toNat_setWidth]
    have := x.isLt
    omega
  unfold invMixcol
  simp only [sb, at8, w4_24, w4_16, w4_8, w4_0, idx, td0_tab, td1_tab, td2_tab, td3_tab, sbox_ok, bx_inv, inv_sbox, w4_xor]
  congr 1 <;> ac_rfl

theorem quad_getD (w : List W32) (i c : Nat) (hc : c < 4) : (quad w i).getD c 0 = w.getD (i + c) 0 := by
  match c, hc with
  | 0, _ => rfl
  | 1, _ => rfl
  | 2, _ => rfl
  | 3, _ => rfl

/-- The round keys of the equivalent inverse cipher. -/
def decKey (L : List (List Byte)) (nr i : Nat) : List Byte :=
  if i = 0 then AES.roundKey L nr else if i < nr then AES.invMixColumns (AES.roundKey L (nr - i)) else AES.roundKey L 0

theorem rkIs_dec (nk : Nat) (hk : Nk nk) (key : List Byte) (hl : key.length = 4 * nk) (i : Nat) (hi : i ≤ nk + 6) :
    RkIs (decKeyInit key (32 * nk)) i (decKey (AES.expand nk (nk + 6) key) (nk + 6) i) := by
  obtain ⟨h1, h2, h3⟩ := enc_key nk hk key hl
  have e2 : nrOf (32 * nk) = nk + 6 := by unfold nrOf; rcases hk with h | h | h <;> subst h <;> rfl
  intro c hc
  unfold decKeyInit
  rw [h1]
  generalize AES.expand nk (nk + 6) key = L at h2
  simp only [e2]
  have hf : quad (L.map wOf) (4 * (nk + 6)) ++
      ((List.range' 1 (nk + 6 - 1)).map fun i => (quad (L.map wOf) (4 * (nk + 6 - i))).map invMixcol).flatten ++
      quad (L.map wOf) 0 =
      ([quad (L.map wOf) (4 * (nk + 6))] ++
      ((List.range' 1 (nk + 6 - 1)).map fun i => (quad (L.map wOf) (4 * (nk + 6 - i))).map invMixcol) ++
      [quad (L.map wOf) 0]).flatten := by simp
  rw [hf, flatten_getD 0 _ _ i c hc]
  · unfold decKey
    have hq : ∀ j, (quad (L.map wOf) (4 * j)).getD c 0 = toW (AES.roundKey L j) c := by
      intro j
      rw [quad_getD _ _ _ hc, rkIs_enc L h2 j c hc]
    by_cases c0 : i = 0
    · subst c0
      simp only [if_true, List.singleton_append, List.cons_append, List.getD_cons_zero]
      exact hq _
    · rw [if_neg c0]
      obtain ⟨j, rfl⟩ : ∃ j, i = j + 1 := ⟨i - 1, by omega⟩
      rw [List.singleton_append, List.cons_append, List.getD_cons_succ]
      by_cases c1 : j + 1 < nk + 6
      · rw [if_pos c1, List.getD_eq_getElem?_getD (i := j), List.getElem?_append_left (by simp; omega), List.getElem?_map,
          List.getElem?_range' (by omega)]
        simp only [Option.map_some, Option.getD_some, Nat.one_mul]
        have hm : ((quad (L.map wOf) (4 * (nk + 6 - (1 + j)))).map invMixcol).getD c 0 =
            invMixcol ((quad (L.map wOf) (4 * (nk + 6 - (1 + j)))).getD c 0) := by
          match c, hc with
          | 0, _ => rfl
          | 1, _ => rfl
          | 2, _ => rfl
          | 3, _ => rfl
        rw [hm, hq, Nat.add_comm 1 j, toW, invMixcol_w4]
        simp only [toW, AES.invMixColumns, at_mk, hc, Nat.reduceLT, Nat.lt_add_one,
          Nat.zero_lt_succ, Nat.reduceAdd, Nat.reduceMod, Nat.zero_mod]
      · rw [if_neg c1, List.getD_eq_getElem?_getD (i := j), List.getElem?_append_right (by simp; omega)]
        have : j - ((List.range' 1 (nk + 6 - 1)).map fun i => (quad (L.map wOf) (4 * (nk + 6 - i))).map invMixcol).length = 0 := by
          simp; omega
        rw [this]
        exact hq 0
  · intro w hw
    simp only [List.mem_append, List.mem_singleton, List.mem_map] at hw
    rcases hw with (rfl | ⟨_, _, rfl⟩) | rfl <;> simp [quad]

theorem range_rev (n : Nat) : (List.range' 1 (n - 1)).reverse = (List.range' 1 (n - 1)).map (n - ·) := by
  apply List.ext_getElem
  · simp
  · intro i h1 h2
    simp only [List.length_map, List.length_range'] at h2
    simp only [List.getElem_reverse, List.length_range', List.getElem_range', List.getElem_map]
    omega

theorem dec_block_eq (nk : Nat) (hk : Nk nk) (key x : List Byte) (hl : key.length = 4 * nk) :
    decBlock (decKeyInit key (32 * nk)) x (32 * nk) = AES.decrypt nk key x := by
  have e2 : nrOf (32 * nk) = nk + 6 := by unfold nrOf; rcases hk with h | h | h <;> subst h <;> rfl
  have hrk := rkIs_dec nk hk key hl
  unfold decBlock AES.decrypt AES.invCipher
  generalize AES.expand nk (nk + 6) key = L at hrk
  generalize decKeyInit key (32 * nk) = rk at hrk
  simp only [e2]
  have h0 := hrk 0 (by omega)
  have hn := hrk (nk + 6) (le_refl _)
  unfold decKey at h0 hn
  rw [if_pos rfl] at h0
  rw [if_neg (by omega), if_neg (by omega)] at hn
  rw [load_eq _ _ _ h0, range_rev, List.foldl_map]
  have loop : ∀ (l : List Nat) (s : List Byte), (∀ i ∈ l, 1 ≤ i ∧ i < nk + 6) → l.foldl (decRound rk) (toSt s) =
      toSt (l.foldl (fun s i => AES.invMixColumns (AES.addRoundKey (AES.invSubBytes (AES.invShiftRows s))
        (AES.roundKey L (nk + 6 - i)))) s) := by
    intro l
    induction l with
    | nil => intro s _; rfl
    | cons i l ih =>
      intro s hi
      have hi1 := hi i (by simp)
      have hr := hrk i (by omega)
      unfold decKey at hr
      rw [if_neg (by omega), if_pos hi1.2] at hr
      rw [List.foldl_cons, decRound_eq _ _ _ _ hr, ih _ (fun j hj => hi j (by simp [hj])), List.foldl_cons, invMix_add]
  rw [loop _ _ (by intro i hi; rw [List.mem_range'_1] at hi; omega), decLast_eq _ _ _ _ hn, store_eq (AES.addRoundKey _ _) (mk_len _)]

theorem encBlocks_eq (rk : List W32) (bits : Nat) (inp : List Byte) (n : Nat) :
    encBlocks rk bits inp n = mapBlocks (fun x => encBlock rk x bits) 16 n inp := by
  induction n generalizing inp with
  | zero => rfl
  | succ n ih => simp only [encBlocks, mapBlocks, ih]

theorem decBlocks_eq (rk : List W32) (bits : Nat) (inp : List Byte) (n : Nat) :
    decBlocks rk bits inp n = mapBlocks (fun x => decBlock rk x bits) 16 n inp := by
  induction n generalizing inp with
  | zero => rfl
  | succ n ih => simp only [decBlocks, mapBlocks, ih]

theorem cipher_ok (bits : Nat) (key : List Byte) : CipherOk (cipher bits key) where
  bs := Nat.succ_pos _
  par := Nat.succ_pos _
  lenE := fun _ _ => rfl
  lenD := fun _ _ => rfl

/-- A left inverse on blocks of a fixed length is a right inverse (there are finitely many blocks). -/
theorem right_inverse (n : Nat) (E D : List Byte → List Byte) (hE : ∀ x, x.length = n → (E x).length = n)
    (h : ∀ x, x.length = n → D (E x) = x) (y : List Byte) (hy : y.length = n) : E (D y) = y := by
  let f : List.Vector Byte n → List.Vector Byte n := fun x => ⟨E x.1, hE x.1 x.2⟩
  have hinj : Function.Injective f := by
    intro a b hab
    have : E a.1 = E b.1 := congrArg Subtype.val hab
    apply Subtype.ext
    rw [← h a.1 a.2, ← h b.1 b.2, this]
  have : Finite (List.Vector Byte n) := by
    have : Finite Byte := Finite.of_injective (fun b : Byte => b.toFin) (fun a b h => BitVec.eq_of_toFin_eq h)
    have : Finite (Fin n → Byte) := inferInstance
    exact Finite.of_injective (fun v : List.Vector Byte n => v.get) (fun a b hab => List.Vector.ext fun i => congrFun hab i)
  obtain ⟨x, hx⟩ := (Finite.injective_iff_surjective.1 hinj) ⟨y, hy⟩
  have hx' : E x.1 = y := congrArg Subtype.val hx
  rw [← hx', h x.1 x.2]

end Verif.Aes
