import Verif.Proofs.Mont
import Verif.Spec.Mont
import Mathlib.Data.ZMod.Basic
import Mathlib.FieldTheory.Finite.Basic
import Mathlib.Data.BitVec
/-! Montgomery arithmetic: halving, the constant, exponentiation, residue classes. -/
namespace Verif
open Spec

theorem shr1_word (x y : W32) : ((y <<< 31) ||| (x >>> 1)).toNat = (y.toNat % 2) * 2^31 + x.toNat / 2 := by
  have hx := x.isLt
  have hy := y.isLt
  rw [BitVec.toNat_or, BitVec.toNat_shiftLeft, BitVec.toNat_ushiftRight, Nat.shiftRight_eq_div_pow, Nat.shiftLeft_eq]
  have : y.toNat * 2^31 % 2^32 = (y.toNat % 2) <<< 31 := by
    rw [Nat.shiftLeft_eq]; omega
  rw [this, ← Nat.shiftLeft_add_eq_or_of_lt (by omega), Nat.shiftLeft_eq]

theorem shr1Loop_spec : ∀ (x : W32) (xs : List W32) (c : W32),
    2 * val (shr1Loop (x :: xs) c) + x.toNat % 2 = val (x :: xs) + 2^(32 * (x :: xs).length) * (c.toNat % 2) ∧
    (shr1Loop (x :: xs) c).length = (x :: xs).length
  | x, [], c => by
    simp only [shr1Loop, val_cons, val_nil, shr1_word, List.length_singleton]
    constructor
    · have := x.isLt; omega
    · trivial
  | x, y :: rest, c => by
    obtain ⟨h1, h2⟩ := shr1Loop_spec y rest c
    have hd : shr1Loop (x :: y :: rest) c = ((y <<< 31) ||| (x >>> 1)) :: shr1Loop (y :: rest) c := rfl
    rw [hd, val_cons, shr1_word, val_cons (as := y :: rest)]
    constructor
    · rw [show (x :: y :: rest).length = (y :: rest).length + 1 from rfl, Nat.mul_succ, pow_add]
      rw [Nat.mul_comm _ (2^32), Nat.mul_assoc]
      generalize 2^(32 * (y :: rest).length) * (c.toNat % 2) = Z at *
      generalize val (shr1Loop (y :: rest) c) = A at *
      generalize val (y :: rest) = B at *
      have := x.isLt
      omega
    · simp only [List.length_cons] at h2 ⊢
      omega

theorem mont256Div2_spec {ctx} (h : MontOk ctx) {a : List W32} (ha : Canon ctx a) :
    Canon ctx (mont256Div2 ctx a) ∧ (2 * val (mont256Div2 ctx a)) % val ctx.P = val a := by
  have hodd := h.P_odd
  have hav := ha.2
  match a, ha with
  | a0 :: as, ha =>
    have hand : ∀ w : W32, w &&& 1 ≠ 0 ↔ w.toNat % 2 = 1 := by
      intro w
      rw [toNat_ne_zero_iff]
      have : (w &&& 1).toNat = w.toNat % 2 := by
        rw [BitVec.toNat_and]
        exact Nat.and_one_is_mod _
      rw [this]; omega
    unfold mont256Div2
    simp only
    split
    next hb =>
      rw [hand] at hb
      obtain ⟨s1, s2⟩ := addCarryLoop_spec (a0 :: as) ctx.P 0 (by rw [ha.1, h.P_len]) (by decide)
      have sl := addCarryLoop_len (a0 :: as) ctx.P 0 (by rw [ha.1, h.P_len])
      rw [w32_zero_toNat, ha.1] at s1
      rw [ha.1] at sl
      unfold u256AddCarry
      generalize hg : addCarryLoop (a0 :: as) ctx.P 0 = g at *
      obtain ⟨s, c⟩ := g
      simp only at *
      match s, sl with
      | x :: xs, sl =>
        obtain ⟨q1, q2⟩ := shr1Loop_spec x xs c
        rw [sl] at q1 q2
        have hx : x.toNat % 2 = 0 := by
          rw [val_cons, val_cons] at s1
          rw [show (2:Nat)^(32*8) = 2 * 2^255 by norm_num, Nat.mul_assoc] at s1
          omega
        have e : 2 * val (shr1Loop (x :: xs) c) = val (a0 :: as) + val ctx.P := by
          rw [hx, Nat.mod_eq_of_lt (show c.toNat < 2 by omega)] at q1
          norm_num at *
          omega
        refine ⟨⟨q2, by omega⟩, ?_⟩
        rw [e, Nat.add_mod_right, Nat.mod_eq_of_lt hav]
    next hb =>
      rw [hand] at hb
      obtain ⟨q1, q2⟩ := shr1Loop_spec a0 as 0
      rw [w32_zero_toNat] at q1
      rw [ha.1] at q2
      have e : 2 * val (shr1Loop (a0 :: as) 0) = val (a0 :: as) := by
        simp only [Nat.zero_mod, Nat.mul_zero, Nat.add_zero] at q1
        omega
      exact ⟨⟨q2, by omega⟩, by rw [e, Nat.mod_eq_of_lt hav]⟩

/-! ## mont_compute_N_ -/

theorem montNLoop_spec (P0 B0 : W32) : ∀ (fuel : Nat) (a b x1 x2 y1 y2 : W32), b.toNat < fuel →
    a = x1 * P0 + y1 * B0 → b = x2 * P0 + y2 * B0 → Nat.gcd a.toNat b.toNat = 1 →
    ∃ x y, montNLoop fuel a b x1 x2 y1 y2 = some (x, y) ∧ x * P0 + y * B0 = 1
  | 0, _, _, _, _, _, _, h, _, _, _ => absurd h (by omega)
  | fuel + 1, a, b, x1, x2, y1, y2, h, h1, h2, hg => by
    unfold montNLoop
    split
    next hb =>
      have hbn : b.toNat ≠ 0 := (toNat_ne_zero_iff b).mp hb
      have hr : (a % b).toNat = a.toNat % b.toNat := BitVec.toNat_umod
      have hdm : a % b = a - (a / b) * b := by
        apply BitVec.eq_of_toNat_eq
        have hq : (a / b).toNat = a.toNat / b.toNat := BitVec.toNat_udiv
        have hle : a.toNat / b.toNat * b.toNat ≤ a.toNat := Nat.div_mul_le_self _ _
        have ha := a.isLt
        rw [hr, BitVec.toNat_sub, BitVec.toNat_mul, hq, Nat.mod_eq_of_lt (a := a.toNat / b.toNat * b.toNat) (by omega)]
        have := Nat.div_add_mod a.toNat b.toNat
        rw [Nat.mul_comm] at this
        omega
      apply montNLoop_spec P0 B0 fuel
      · rw [hr]; have := Nat.mod_lt a.toNat (by omega : 0 < b.toNat); omega
      · exact h2
      · rw [hdm]
        calc a - a / b * b = (x1 * P0 + y1 * B0) - a / b * (x2 * P0 + y2 * B0) := by rw [← h1, ← h2]
          _ = _ := by ring
      · rw [hr, Nat.gcd_comm, ← Nat.gcd_rec, Nat.gcd_comm]; exact hg
    next hb =>
      have hb0 : b = 0 := by simpa using hb
      subst hb0
      refine ⟨x1, y1, rfl, ?_⟩
      rw [w32_zero_toNat, Nat.gcd_zero_right] at hg
      rw [← h1]
      exact BitVec.eq_of_toNat_eq hg

theorem montComputeN_spec (P0 : W32) (hodd : P0.toNat % 2 = 1) :
    ∃ N, montComputeN P0 = some N ∧ N * P0 = -1 := by
  have hneg : ∀ x : W32, ~~~x + 1 = -x := fun x => (BitVec.neg_eq_not_add x).symm
  unfold montComputeN
  simp only [hneg]
  have hn : (-P0).toNat = 2^32 - P0.toNat := by
    rw [BitVec.toNat_neg]; have := P0.isLt; omega
  obtain ⟨x, y, e1, e2⟩ := montNLoop_spec P0 (-P0) ((-P0).toNat + 1) P0 (-P0) 1 0 0 1 (by omega)
    (by ring) (by ring) (by
      rw [hn]
      have : Nat.Coprime P0.toNat (2^32) := by
        apply Nat.Coprime.pow_right
        exact (Nat.coprime_two_right.mpr (Nat.odd_iff.mpr hodd))
      exact (Nat.coprime_sub_self_right (by have := P0.isLt; omega)).mpr this)
  refine ⟨-(x - y), by rw [e1]; rfl, ?_⟩
  calc -(x - y) * P0 = -(x * P0 + y * -P0) := by ring
    _ = -1 := by rw [e2]

theorem nok_of_mul (P0 : W32) (rest : List W32) (N : W32) (h : N * P0 = -1) : NOk (P0 :: rest) N := by
  unfold NOk
  rw [val_cons]
  have h1 : (N.toNat * P0.toNat) % 2^32 = 2^32 - 1 := by
    rw [← BitVec.toNat_mul, h]; rfl
  have : N.toNat * (P0.toNat + 2^32 * val rest) + 1 = N.toNat * P0.toNat + 1 + 2^32 * (N.toNat * val rest) := by ring
  rw [this, Nat.add_mul_mod_self_left]
  omega

/-! ## residue classes -/

section
variable {ctx : Mont256CTX} (h : MontOk ctx)
include h

theorem MontOk.coprime : Nat.Coprime (2^256) (val ctx.P) :=
  Nat.Coprime.pow_left _ ((Nat.coprime_two_left).mpr (Nat.odd_iff.mpr h.P_odd))

theorem MontOk.R_inv : ((2^256 : Nat) : ZMod (val ctx.P)) * ((2^256 : Nat) : ZMod (val ctx.P))⁻¹ = 1 :=
  ZMod.coe_mul_inv_eq_one _ h.coprime

theorem montVal_mul_R (a : List W32) :
    montVal (val ctx.P) a * ((2^256 : Nat) : ZMod (val ctx.P)) = (val a : ZMod (val ctx.P)) := by
  unfold montVal
  rw [mul_assoc, mul_comm _ ((2^256 : Nat) : ZMod (val ctx.P)), h.R_inv, mul_one]

theorem montVal_eq_iff (a : List W32) (x : ZMod (val ctx.P)) :
    montVal (val ctx.P) a = x ↔ (val a : ZMod (val ctx.P)) = x * ((2^256 : Nat) : ZMod (val ctx.P)) := by
  constructor
  · rintro rfl; rw [montVal_mul_R h]
  · intro e; unfold montVal; rw [e, mul_assoc, h.R_inv, mul_one]

theorem montVal_inj {a b : List W32} (ha : Canon ctx a) (hb : Canon ctx b) :
    montVal (val ctx.P) a = montVal (val ctx.P) b ↔ a = b := by
  constructor
  · intro e
    rw [montVal_eq_iff h, montVal_mul_R h, ZMod.natCast_eq_natCast_iff'] at e
    rw [Nat.mod_eq_of_lt ha.2, Nat.mod_eq_of_lt hb.2] at e
    exact val_inj a b (by rw [ha.1, hb.1]) e
  · rintro rfl; rfl

theorem montVal_mul {a b : List W32} (ha : a.length = 8) (hb : Canon ctx b) :
    montVal (val ctx.P) (mont256Mul ctx a b) = montVal (val ctx.P) a * montVal (val ctx.P) b := by
  obtain ⟨_, h2⟩ := mont256Mul_canon h ha hb
  have e := (ZMod.natCast_eq_natCast_iff' _ _ _).mpr h2
  rw [Nat.cast_mul, Nat.cast_mul] at e
  rw [montVal_eq_iff h]
  unfold montVal
  calc (val (mont256Mul ctx a b) : ZMod (val ctx.P))
      = val (mont256Mul ctx a b) * ((2^256:Nat) : ZMod (val ctx.P)) * ((2^256:Nat) : ZMod (val ctx.P))⁻¹ := by
        rw [mul_assoc, h.R_inv, mul_one]
    _ = (val a : ZMod (val ctx.P)) * val b * ((2^256:Nat) : ZMod (val ctx.P))⁻¹ *
          (((2^256:Nat) : ZMod (val ctx.P)) * ((2^256:Nat) : ZMod (val ctx.P))⁻¹) := by
        rw [e, h.R_inv, mul_one]
    _ = _ := by ring

theorem montVal_add {a b : List W32} (ha : Canon ctx a) (hb : Canon ctx b) :
    montVal (val ctx.P) (mont256Add ctx a b) = montVal (val ctx.P) a + montVal (val ctx.P) b := by
  unfold montVal
  rw [(mont256Add_spec h ha hb).2, ZMod.natCast_mod, Nat.cast_add, add_mul]

theorem montVal_sub {a b : List W32} (ha : Canon ctx a) (hb : Canon ctx b) :
    montVal (val ctx.P) (mont256Sub ctx a b) = montVal (val ctx.P) a - montVal (val ctx.P) b := by
  unfold montVal
  rw [(mont256Sub_spec h ha hb).2, ZMod.natCast_mod, Nat.cast_add, Nat.cast_sub hb.2.le, ZMod.natCast_self]
  ring

theorem montVal_dbl {a : List W32} (ha : Canon ctx a) :
    montVal (val ctx.P) (mont256Dbl ctx a) = 2 * montVal (val ctx.P) a := by
  unfold montVal
  rw [(mont256Dbl_spec h ha).2, ZMod.natCast_mod, Nat.cast_mul, mul_assoc]; rfl

theorem montVal_div2 {a : List W32} (ha : Canon ctx a) :
    2 * montVal (val ctx.P) (mont256Div2 ctx a) = montVal (val ctx.P) a := by
  unfold montVal
  have := (mont256Div2_spec h ha).2
  conv_rhs => rw [← this]
  rw [ZMod.natCast_mod, Nat.cast_mul, mul_assoc]; rfl

theorem montVal_neg {a : List W32} (ha : Canon ctx a) :
    montVal (val ctx.P) (mont256Neg ctx a) = - montVal (val ctx.P) a := by
  unfold montVal
  rw [(mont256Neg_val h ha).2, Nat.cast_sub ha.2.le, ZMod.natCast_self]
  ring

theorem montVal_one : montVal (val ctx.P) ctx.R = 1 := by
  rw [montVal_eq_iff h, h.R_val, ZMod.natCast_mod, one_mul]

theorem canon_R : Canon ctx ctx.R := ⟨h.R_len, by rw [h.R_val]; exact Nat.mod_lt _ (by have := h.P_gt; omega)⟩

theorem canon_RPow2 : Canon ctx ctx.RPow2 :=
  ⟨h.RPow2_len, by rw [h.RPow2_val]; exact Nat.mod_lt _ (by have := h.P_gt; omega)⟩

theorem canon_zero : Canon ctx u256Zero :=
  ⟨by simp [u256Zero], by have e : val u256Zero = 0 := val_replicate_zero 8; rw [e]; have := h.P_gt; omega⟩

omit h in
theorem montVal_zero : montVal (val ctx.P) u256Zero = 0 := by
  unfold montVal
  have e : val u256Zero = 0 := val_replicate_zero 8
  rw [e]; simp

theorem montVal_toMont {a : List W32} (ha : a.length = 8) :
    montVal (val ctx.P) (u256ToMont ctx a) = (val a : ZMod (val ctx.P)) := by
  unfold u256ToMont
  rw [montVal_mul h ha (canon_RPow2 h)]
  have : montVal (val ctx.P) ctx.RPow2 = ((2^256 : Nat) : ZMod (val ctx.P)) := by
    rw [montVal_eq_iff h, h.RPow2_val, ZMod.natCast_mod, ← Nat.cast_mul, ← pow_add]
  rw [this, montVal_mul_R h]

theorem canon_toMont {a : List W32} (ha : a.length = 8) : Canon ctx (u256ToMont ctx a) :=
  (mont256Mul_canon h ha (canon_RPow2 h)).1

theorem fromMont_spec {a : List W32} (ha : a.length = 8) :
    Canon ctx (u256FromMont ctx a) ∧ (val (u256FromMont ctx a) : ZMod (val ctx.P)) = montVal (val ctx.P) a := by
  have hv : val (a ++ List.replicate 8 0) = val a := by
    rw [val_append, val_replicate_zero]; simp
  have hlt : val (a ++ List.replicate 8 0) < 2^256 * val ctx.P := by
    rw [hv]
    have := len8_lt ha
    have h3 := h.P_gt
    have h4 : 2^256 * 1 ≤ 2^256 * val ctx.P := Nat.mul_le_mul_left _ (by omega)
    omega
  obtain ⟨r1, r2, r3⟩ := mont256Redc_spec ctx h.P_len h.N_ok (a ++ List.replicate 8 0) (by simp [ha]) hlt
  refine ⟨⟨r1, r2⟩, ?_⟩
  rw [hv] at r3
  have e := (ZMod.natCast_eq_natCast_iff' _ _ _).mpr r3
  rw [Nat.cast_mul] at e
  symm
  rw [montVal_eq_iff h, ← e]
  rfl

theorem montVal_eq_zero {a : List W32} (ha : Canon ctx a) : montVal (val ctx.P) a = 0 ↔ val a = 0 := by
  rw [montVal_eq_iff h, zero_mul]
  constructor
  · intro e
    rw [← Nat.cast_zero, ZMod.natCast_eq_natCast_iff', Nat.mod_eq_of_lt ha.2] at e
    simpa using e
  · intro e; rw [e]; simp

/-! ## exponentiation -/

theorem montVal_sqr {a : List W32} (ha : Canon ctx a) :
    Canon ctx (mont256Sqr ctx a) ∧ montVal (val ctx.P) (mont256Sqr ctx a) = montVal (val ctx.P) a ^ 2 := by
  rw [mont256Sqr_eq]
  exact ⟨(mont256Mul_canon h ha.1 ha).1, by rw [montVal_mul h ha.1 ha, sq]⟩

theorem sqr4_spec {a : List W32} (ha : Canon ctx a) :
    Canon ctx (sqr4 ctx a) ∧ montVal (val ctx.P) (sqr4 ctx a) = montVal (val ctx.P) a ^ 16 := by
  obtain ⟨c1, v1⟩ := montVal_sqr h ha
  obtain ⟨c2, v2⟩ := montVal_sqr h c1
  obtain ⟨c3, v3⟩ := montVal_sqr h c2
  obtain ⟨c4, v4⟩ := montVal_sqr h c3
  refine ⟨c4, ?_⟩
  unfold sqr4
  rw [v4, v3, v2, v1]; ring

theorem powTable_spec {base : List W32} (hb : Canon ctx base) :
    ∀ (n j : Nat) (prev : List W32), Canon ctx prev →
    montVal (val ctx.P) prev = montVal (val ctx.P) base ^ j →
    ∀ i, i < n → ∃ e, (powTable ctx base n prev)[i]? = some e ∧ Canon ctx e ∧
      montVal (val ctx.P) e = montVal (val ctx.P) base ^ (j + i)
  | 0, _, _, _, _, i, hi => absurd hi (by omega)
  | n + 1, j, prev, hc, hv, i, hi => by
    unfold powTable
    cases i with
    | zero => exact ⟨prev, rfl, hc, by simpa using hv⟩
    | succ i =>
      have hm := (mont256Mul_canon h hc.1 hb).1
      obtain ⟨e, e1, e2, e3⟩ := powTable_spec hb n (j + 1) (mont256Mul ctx prev base) hm
        (by rw [montVal_mul h hc.1 hb, hv, pow_succ]) i (by omega)
      exact ⟨e, by simpa using e1, e2, by rw [e3]; congr 1; omega⟩

theorem powSel_spec {base : List W32} (hb : Canon ctx base) (idx : Nat) (h1 : 1 ≤ idx) (h2 : idx < 16) :
    ∃ e, powSel (powTable ctx base 14 (mont256Sqr ctx base)) base idx = some e ∧ Canon ctx e ∧
      montVal (val ctx.P) e = montVal (val ctx.P) base ^ idx := by
  unfold powSel
  split
  next e1 => exact ⟨base, rfl, hb, by rw [e1, pow_one]⟩
  next e1 =>
    rw [if_neg (by omega)]
    obtain ⟨c, v⟩ := montVal_sqr h hb
    obtain ⟨e, a1, a2, a3⟩ := powTable_spec h hb 14 2 _ c v (idx - 2) (by omega)
    exact ⟨e, a1, a2, by rw [a3]; congr 1; omega⟩

theorem powMulSel_spec {base t : List W32} (hb : Canon ctx base) (ht : Canon ctx t) (idx : Nat) (h2 : idx < 16) :
    ∃ e, powMulSel ctx (powTable ctx base 14 (mont256Sqr ctx base)) base t idx = some e ∧ Canon ctx e ∧
      montVal (val ctx.P) e = montVal (val ctx.P) t * montVal (val ctx.P) base ^ idx := by
  unfold powMulSel
  split
  next hne =>
    obtain ⟨e, a1, a2, a3⟩ := powSel_spec h hb idx (by omega) h2
    refine ⟨mont256Mul ctx t e, by rw [a1]; rfl, (mont256Mul_canon h ht.1 a2).1, ?_⟩
    rw [montVal_mul h ht.1 a2, a3]
  next hz =>
    have : idx = 0 := by simpa using hz
    exact ⟨t, rfl, ht, by rw [this]; simp⟩

omit h in
theorem nibbles (e : Byte) : ((e >>> 4) &&& 0xF#8).toNat < 16 ∧ (e &&& 0xF#8).toNat < 16 ∧
    ((e >>> 4) &&& 0xF#8).toNat * 16 + (e &&& 0xF#8).toNat = e.toNat ∧
    ((e >>> 4) &&& 0xF#8).toNat = e.toNat / 16 := by
  revert e; decide +kernel

theorem powLoop_spec {base : List W32} (hb : Canon ctx base) :
    ∀ (es : List Byte) (t : List W32) (E : Nat), Canon ctx t →
    montVal (val ctx.P) t = montVal (val ctx.P) base ^ E →
    ∃ r, powLoop ctx (powTable ctx base 14 (mont256Sqr ctx base)) base es t = some r ∧ Canon ctx r ∧
      montVal (val ctx.P) r = montVal (val ctx.P) base ^ (E * 256^es.length + beVal es)
  | [], t, E, ht, hv => ⟨t, rfl, ht, by simpa [beVal] using hv⟩
  | e :: es, t, E, ht, hv => by
    obtain ⟨n1, n2, n3, _⟩ := nibbles e
    obtain ⟨c1, v1⟩ := sqr4_spec h ht
    obtain ⟨t1, a1, a2, a3⟩ := powMulSel_spec h hb c1 _ n1
    obtain ⟨c2, v2⟩ := sqr4_spec h a2
    obtain ⟨t2, b1, b2, b3⟩ := powMulSel_spec h hb c2 _ n2
    obtain ⟨r, r1, r2, r3⟩ := powLoop_spec hb es t2 (E * 256 + e.toNat) b2 (by
      rw [b3, v2, a3, v1, hv, ← n3]
      generalize ((e >>> 4) &&& 0xF#8).toNat = p
      generalize (e &&& 0xF#8).toNat = q
      rw [mul_pow, ← pow_mul, ← pow_mul, ← pow_mul, ← pow_add, ← pow_add]
      rw [show E * (16 * 16) + p * 16 + q = E * 256 + (p * 16 + q) by ring])
    refine ⟨r, ?_, r2, ?_⟩
    · unfold powLoop
      rw [a1]
      simp only [Option.bind_eq_bind, Option.bind_some]
      rw [b1]
      simpa using r1
    · rw [r3]
      congr 1
      have : beVal (e :: es) = e.toNat * 256^es.length + beVal es := by
        have := beVal_append [e] es
        simpa [beVal] using this
      rw [this, List.length_cons, pow_succ]; ring

omit h in
theorem beVal_dropWhile (l : List Byte) : beVal (l.dropWhile (· == 0)) = beVal l := by
  induction l with
  | nil => rfl
  | cons x xs ih =>
    rw [List.dropWhile_cons]
    split
    next hx =>
      have : x = 0 := by simpa using hx
      subst this
      rw [ih]
      simp [beVal]
    next => rfl

theorem mont256Pow_spec {base e : List W32} (hb : Canon ctx base) (_he : e.length = 8) (hne : val e ≠ 0) :
    ∃ r, mont256Pow ctx base e = some r ∧ Canon ctx r ∧
      montVal (val ctx.P) r = montVal (val ctx.P) base ^ val e := by
  unfold mont256Pow
  split
  next hz =>
    rw [u256EqualZero_iff] at hz
    refine ⟨_, rfl, canon_zero h, ?_⟩
    rw [montVal_zero, (montVal_eq_zero h hb).mpr hz, zero_pow hne]
  next hz =>
    rw [if_neg (by rw [u256EqualZero_iff]; exact hne)]
    simp only
    have hbe := beVal_dropWhile (u256ToBytes e)
    rw [u256ToBytes_spec] at hbe
    split
    next hnil => rw [hnil] at hbe; simp [beVal] at hbe; omega
    next x es heq =>
      rw [heq] at hbe
      have hx0 : x.toNat ≠ 0 := by
        intro hx
        have h1 := List.head_dropWhile_not (p := (· == (0:Byte))) (l := u256ToBytes e) (by rw [heq]; simp)
        simp only [heq, List.head_cons] at h1
        have : x = 0 := BitVec.eq_of_toNat_eq (by simpa using hx)
        rw [this] at h1
        simp at h1
      obtain ⟨n1, n2, n3, n4⟩ := nibbles x
      have hexp : beVal (x :: es) = x.toNat * 256^es.length + beVal es := by
        have := beVal_append [x] es
        simpa [beVal] using this
      have hfirst : ∃ t, (if x > 0xF#8 then do
            let t ← powSel (powTable ctx base 14 (mont256Sqr ctx base)) base (((x >>> 4) &&& 0xF#8).toNat)
            powMulSel ctx (powTable ctx base 14 (mont256Sqr ctx base)) base (sqr4 ctx t) ((x &&& 0xF#8).toNat)
          else powSel (powTable ctx base 14 (mont256Sqr ctx base)) base ((x &&& 0xF#8).toNat)) = some t ∧
          Canon ctx t ∧ montVal (val ctx.P) t = montVal (val ctx.P) base ^ x.toNat := by
        split
        next hgt =>
          have hg : 15 < x.toNat := by simpa [BitVec.lt_def] using hgt
          obtain ⟨t, a1, a2, a3⟩ := powSel_spec h hb _ (by omega : 1 ≤ ((x >>> 4) &&& 0xF#8).toNat) n1
          obtain ⟨c2, v2⟩ := sqr4_spec h a2
          obtain ⟨t2, b1, b2, b3⟩ := powMulSel_spec h hb c2 _ n2
          refine ⟨t2, by rw [a1]; simpa using b1, b2, ?_⟩
          rw [b3, v2, a3, ← n3, ← pow_mul, ← pow_add]
        next hgt =>
          have hg : ¬ 15 < x.toNat := by simpa [BitVec.lt_def] using hgt
          obtain ⟨t, a1, a2, a3⟩ := powSel_spec h hb _ (by omega : 1 ≤ (x &&& 0xF#8).toNat) n2
          exact ⟨t, a1, a2, by rw [a3]; congr 1; omega⟩
      obtain ⟨t, f1, f2, f3⟩ := hfirst
      obtain ⟨r, r1, r2, r3⟩ := powLoop_spec h hb es t x.toNat f2 f3
      refine ⟨r, ?_, r2, ?_⟩
      · simp only [Option.bind_eq_bind] at f1 ⊢
        split at f1
        next hgt =>
          obtain ⟨u, u1, u2⟩ := Option.bind_eq_some_iff.mp f1
          rw [if_pos hgt, u1, Option.bind_some, u2, Option.bind_some]
          exact r1
        next hgt =>
          rw [if_neg hgt, f1, Option.bind_some]
          exact r1
      · rw [r3, ← hexp, hbe]

theorem mont256Inv_spec (hp : (val ctx.P).Prime) {a : List W32} (ha : Canon ctx a) :
    ∃ r, mont256Inv ctx a = some r ∧ Canon ctx r ∧
      montVal (val ctx.P) r = (montVal (val ctx.P) a)⁻¹ := by
  have : Fact (val ctx.P).Prime := ⟨hp⟩
  have h2 := h.P_gt
  obtain ⟨r, r1, r2, r3⟩ := mont256Pow_spec h ha h.PSub2_len (by rw [h.PSub2_val]; omega)
  refine ⟨r, r1, r2, ?_⟩
  rw [r3, h.PSub2_val]
  by_cases hz : montVal (val ctx.P) a = 0
  · rw [hz, inv_zero, zero_pow (by omega)]
  · apply eq_inv_of_mul_eq_one_left
    rw [← pow_succ, show val ctx.P - 2 + 1 = val ctx.P - 1 by omega]
    exact ZMod.pow_card_sub_one_eq_one hz

end
end Verif
