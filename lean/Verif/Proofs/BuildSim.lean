import Verif.Props.NumberX64
import Verif.Model.Sm2Ec
/-! # Two implementations of the field operations that correspond give corresponding points -/
namespace Verif
open Spec

/-- `x` and `y` both fail or both succeed with related results. -/
inductive RelO {α β : Type} (R : α → β → Prop) : Option α → Option β → Prop
  | none : RelO R .none .none
  | some {a b} (h : R a b) : RelO R (.some a) (.some b)

/-- The operations of `F` and `G` map related operands to related results. -/
structure FpSim {α β : Type} (F : FpOps α) (G : FpOps β) (R : α → β → Prop) : Prop where
  add : ∀ {a a' b b'}, R a a' → R b b' → R (F.add a b) (G.add a' b')
  sub : ∀ {a a' b b'}, R a a' → R b b' → R (F.sub a b) (G.sub a' b')
  mul : ∀ {a a' b b'}, R a a' → R b b' → R (F.mul a b) (G.mul a' b')
  sqr : ∀ {a a'}, R a a' → R (F.sqr a) (G.sqr a')
  dbl : ∀ {a a'}, R a a' → R (F.dbl a) (G.dbl a')
  tpl : ∀ {a a'}, R a a' → RelO R (F.tpl a) (G.tpl a')
  inv : ∀ {a a'}, R a a' → RelO R (F.inv a) (G.inv a')
  eq : ∀ {a a' b b'}, R a a' → R b b' → F.eq a b = G.eq a' b'
  isZero : ∀ {a a'}, R a a' → F.isZero a = G.isZero a'
  one : R F.one G.one
  zero : R F.zero G.zero

structure RelA {α β : Type} (R : α → β → Prop) (P : EcA α) (Q : EcA β) : Prop where
  x : R P.x Q.x
  y : R P.y Q.y

structure RelJ {α β : Type} (R : α → β → Prop) (P : EcJ α) (Q : EcJ β) : Prop where
  x : R P.x Q.x
  y : R P.y Q.y
  z : R P.z Q.z

section
variable {α β : Type} {F : FpOps α} {G : FpOps β} {R : α → β → Prop}

theorem sim_check (h : FpSim F G R) {a b : α} {a' b' : β} (ha : R a a') (hb : R b b') {P : EcA α} {P' : EcA β}
    (hP : RelA R P P') : ecACheck F a b P = ecACheck G a' b' P' := by
  unfold ecACheck
  have hx := hP.x
  exact h.eq (h.sqr hP.y) (h.add (h.add hb (h.mul ha hx)) (h.mul (h.sqr hx) hx))

theorem sim_inf (h : FpSim F G R) : RelJ R (ecJInf F) (ecJInf G) := ⟨h.one, h.one, h.zero⟩

theorem sim_fromA (h : FpSim F G R) {P : EcA α} {P' : EcA β} (hP : RelA R P P') :
    RelJ R (ecJFromA F P) (ecJFromA G P') := ⟨hP.x, hP.y, h.one⟩

theorem sim_dbl (h : FpSim F G R) {P : EcJ α} {P' : EcJ β} (hP : RelJ R P P') :
    RelO (RelJ R) (ecJDbl F P) (ecJDbl G P') := by
  have hx := hP.x
  have hy := hP.y
  have hz := hP.z
  unfold ecJDbl
  dsimp only
  have ht := h.tpl (h.mul (h.sub hx (h.sqr hz)) (h.add hx (h.sqr hz)))
  revert ht
  generalize F.tpl _ = t
  generalize G.tpl _ = t'
  intro ht
  cases ht with
  | none => exact .none
  | some ht =>
    have hg := h.sqr hy
    have hb := h.dbl (h.dbl (h.mul hx hg))
    have hx3 := h.sub (h.sub (h.sqr ht) hb) hb
    refine .some ⟨hx3, ?_, ?_⟩
    · exact h.sub (h.mul (h.sub hb hx3) ht) (h.dbl (h.sqr (h.dbl hg)))
    · exact h.sub (h.sub (h.sqr (h.add hy hz)) hg) (h.sqr hz)

theorem sim_add (h : FpSim F G R) {P Q : EcJ α} {P' Q' : EcJ β} (hP : RelJ R P P') (hQ : RelJ R Q Q') :
    RelO (RelJ R) (ecJAdd F P Q) (ecJAdd G P' Q') := by
  have h1 := h.sqr hP.z
  have h2 := h.sqr hQ.z
  have hu1 := h.mul hP.x h2
  have hu2 := h.mul hQ.x h1
  have hs1 := h.mul (h.mul hP.y hQ.z) h2
  have hs2 := h.mul (h.mul hQ.y hP.z) h1
  unfold ecJAdd
  dsimp only
  rw [h.eq hu1 hu2, h.eq hs1 hs2]
  split
  · split
    · exact sim_dbl h hP
    · exact .some (sim_inf h)
  · have hh := h.sub hu2 hu1
    have hi := h.sqr (h.dbl hh)
    have hj := h.mul hh hi
    have hr := h.dbl (h.sub hs2 hs1)
    have hv := h.mul hu1 hi
    have hx3 := h.sub (h.sub (h.sub (h.sqr hr) hj) hv) hv
    refine .some ⟨hx3, ?_, ?_⟩
    · exact h.sub (h.mul (h.sub hv hx3) hr) (h.dbl (h.mul hs1 hj))
    · exact h.mul (h.sub (h.sub (h.sqr (h.add hP.z hQ.z)) h1) h2) hh

theorem sim_addA (h : FpSim F G R) {P : EcJ α} {P' : EcJ β} {Q : EcA α} {Q' : EcA β} (hP : RelJ R P P')
    (hQ : RelA R Q Q') : RelJ R (ecJAddA F P Q) (ecJAddA G P' Q') := by
  have h1 := h.sqr hP.z
  have hu2 := h.mul hQ.x h1
  have hs2 := h.mul (h.mul hQ.y hP.z) h1
  have hh := h.sub hu2 hP.x
  have hhh := h.sqr hh
  have hi := h.dbl (h.dbl hhh)
  have hj := h.mul hh hi
  have hr := h.dbl (h.sub hs2 hP.y)
  have hv := h.mul hP.x hi
  have hx3 := h.sub (h.sub (h.sub (h.sqr hr) hj) hv) hv
  unfold ecJAddA
  dsimp only
  exact ⟨hx3, h.sub (h.mul hr (h.sub hv hx3)) (h.dbl (h.mul hP.y hj)),
    h.sub (h.sub (h.sqr (h.add hP.z hh)) h1) hhh⟩

theorem sim_toA (h : FpSim F G R) {P : EcJ α} {P' : EcJ β} (hP : RelJ R P P') :
    RelO (RelA R) (ecJToA F P) (ecJToA G P') := by
  unfold ecJToA
  have ht := h.inv hP.z
  revert ht
  generalize F.inv _ = t
  generalize G.inv _ = t'
  intro ht
  cases ht with
  | none => exact .none
  | some ht => exact .some ⟨h.mul hP.x (h.sqr ht), h.mul hP.y (h.mul ht (h.sqr ht))⟩

end

/-! ## The number functions of the two builds -/

/-- Arrays of the two builds that hold the same number below `p`. -/
structure RS (p : Nat) (a : List W32) (b : List W64) : Prop where
  l : Reduced p a
  r : X64.Reduced p b
  eq : val a = val b

theorem RS.mont {p : Nat} {a : List W32} {b : List W64} (h : RS p a b) : montVal p a = montVal p b := by
  unfold montVal; rw [h.eq]

theorem rs_of_mont {p : Nat} (hp : p % 2 = 1) {a : List W32} {b : List W64} (ha : Reduced p a) (hb : X64.Reduced p b)
    (h : montVal p a = montVal p b) : RS p a b := by
  refine ⟨ha, hb, ?_⟩
  unfold montVal at h
  have hu : ((2 ^ 256 : Nat) : ZMod p) * ((2 ^ 256 : Nat) : ZMod p)⁻¹ = 1 := by
    apply ZMod.coe_mul_inv_eq_one
    apply Nat.Coprime.pow_left
    rw [Nat.coprime_two_left, Nat.odd_iff]
    exact hp
  have h2 : (val a : ZMod p) = (val b : ZMod p) := by
    have := congrArg (· * ((2 ^ 256 : Nat) : ZMod p)) h
    simp only [mul_assoc] at this
    rwa [mul_comm _ ((2 ^ 256 : Nat) : ZMod p), hu, mul_one, mul_one] at this
  rwa [ZMod.natCast_eq_natCast_iff', Nat.mod_eq_of_lt ha.2, Nat.mod_eq_of_lt hb.2] at h2

section
variable {ctx : Mont256CTX} {ctx' : X64.Mont256CTX} {p : Nat} (h : IsMontCtx ctx p) (h' : X64.IsMontCtx ctx' p)
include h h'

theorem rs_add {a b : List W32} {a' b' : List W64} (ha : RS p a a') (hb : RS p b b') :
    RS p (mont256Add ctx a b) (X64.mont256Add ctx' a' b') := by
  have x := (Props.C35_mont_linear h a b ha.l hb.l).1
  have y := (X64.Props.C35_x64_mont_linear h' a' b' ha.r hb.r).1
  exact rs_of_mont h.odd x.1 y.1 (by rw [x.2.2, y.2.2, ha.mont, hb.mont])

theorem rs_sub {a b : List W32} {a' b' : List W64} (ha : RS p a a') (hb : RS p b b') :
    RS p (mont256Sub ctx a b) (X64.mont256Sub ctx' a' b') := by
  have x := (Props.C35_mont_linear h a b ha.l hb.l).2.1
  have y := (X64.Props.C35_x64_mont_linear h' a' b' ha.r hb.r).2.1
  exact rs_of_mont h.odd x.1 y.1 (by rw [x.2.2, y.2.2, ha.mont, hb.mont])

theorem rs_dbl {a : List W32} {a' : List W64} (ha : RS p a a') :
    RS p (mont256Dbl ctx a) (X64.mont256Dbl ctx' a') := by
  have x := (Props.C35_mont_linear h a a ha.l ha.l).2.2.1
  have y := (X64.Props.C35_x64_mont_linear h' a' a' ha.r ha.r).2.2.1
  exact rs_of_mont h.odd x.1 y.1 (by rw [x.2.2, y.2.2, ha.mont])

theorem rs_mul {a b : List W32} {a' b' : List W64} (ha : RS p a a') (hb : RS p b b') :
    RS p (mont256Mul ctx a b) (X64.mont256Mul ctx' a' b') := by
  have x := Props.C34_mont_mul_sqr h a b ha.l hb.l
  have y := X64.Props.C34_x64_mont_mul_sqr h' a' b' ha.r hb.r
  exact rs_of_mont h.odd x.1 y.1 (by rw [x.2.1, y.2.1, ha.mont, hb.mont])

theorem rs_sqr {a : List W32} {a' : List W64} (ha : RS p a a') :
    RS p (mont256Sqr ctx a) (X64.mont256Sqr ctx' a') := by
  have x := (Props.C34_mont_mul_sqr h a a ha.l ha.l).2.2
  have y := (X64.Props.C34_x64_mont_mul_sqr h' a' a' ha.r ha.r).2.2
  exact rs_of_mont h.odd x.1 y.1 (by rw [x.2, y.2, ha.mont])

theorem rs_tpl (hbig : 2 ^ 255 < p) {a : List W32} {a' : List W64} (ha : RS p a a') :
    RelO (RS p) (mont256Tpl ctx a) (some (X64.mont256Tpl ctx' a')) := by
  obtain ⟨r, r1, r2, -, r4⟩ := Props.C35_mont_tpl h hbig a ha.l
  have y := X64.Props.C35_x64_mont_tpl h' a' ha.r
  rw [r1]
  exact .some (rs_of_mont h.odd r2 y.1 (by rw [r4, y.2.2, ha.mont]))

theorem rs_neg {a : List W32} {a' : List W64} (ha : RS p a a') (hne : val a ≠ 0) :
    RS p (mont256Neg ctx a) (X64.mont256Neg ctx' a') := by
  have x := Props.C36_mont_neg_partial h a ha.l hne
  have y := X64.Props.C36_x64_mont_neg h' a' ha.r
  exact rs_of_mont h.odd x.1 y.1 (by rw [x.2.1, y.2.1, ha.mont])

theorem rs_pow {a e : List W32} {a' e' : List W64} (ha : RS p a a') (he : e.length = 8) (he' : e'.length = 4)
    (hee : val e = val e') (hne : val e ≠ 0) : RelO (RS p) (mont256Pow ctx a e) (X64.mont256Pow ctx' a' e') := by
  obtain ⟨r, r1, r2, r3⟩ := Props.C37_mont_pow_partial h a e ha.l he hne
  obtain ⟨s, s1, s2, s3⟩ := X64.Props.C37_x64_mont_pow_partial h' a' e' ha.r he' (by rw [← hee]; exact hne)
  rw [r1, s1]
  exact .some (rs_of_mont h.odd r2 s2 (by rw [r3, s3, ha.mont, hee]))

theorem rs_inv {a : List W32} {a' : List W64} (ha : RS p a a') :
    RelO (RS p) (mont256Inv ctx a) (X64.mont256Inv ctx' a') := by
  have hg := h.gt_two
  exact rs_pow h h' ha h.PSub2.1 h'.PSub2.1 (by rw [h.PSub2.2, h'.PSub2.2]) (by rw [h.PSub2.2]; omega)

omit h h' in
theorem rs_equal {a b : List W32} {a' b' : List W64} (ha : RS p a a') (hb : RS p b b') :
    mont256Equal ctx a b = X64.mont256Equal ctx' a' b' := by
  have x := (Props.C31_cmp a b ha.l.1 hb.l.1).2
  have y := (X64.Props.C31_x64_cmp a' b' ha.r.1 hb.r.1).2
  rw [ha.eq, hb.eq, ← y] at x
  exact Bool.eq_iff_iff.mpr x

omit h h' in
theorem rs_equalZero {a : List W32} {a' : List W64} (ha : RS p a a') :
    mont256EqualZero ctx a = X64.mont256EqualZero ctx' a' := by
  have x := u256EqualZero_iff a
  rw [ha.eq, ← X64.u256EqualZero_iff a'] at x
  exact Bool.eq_iff_iff.mpr x

theorem rs_one : RS p (mont256SetOne ctx) (X64.mont256SetOne ctx') := by
  have hg := h.gt_two
  have hm : 2 ^ 256 % p < p := Nat.mod_lt _ (by omega)
  exact ⟨⟨h.R.1, by rw [show val (mont256SetOne ctx) = _ from h.R.2]; exact hm⟩,
    ⟨h'.R.1, by rw [show val (X64.mont256SetOne ctx') = _ from h'.R.2]; exact hm⟩,
    by rw [show val (mont256SetOne ctx) = _ from h.R.2, show val (X64.mont256SetOne ctx') = _ from h'.R.2]⟩

omit h' in
theorem rs_zero : RS p u256Zero X64.u256Zero := by
  have hg := h.gt_two
  have e1 : val u256Zero = 0 := by decide
  have e2 : val X64.u256Zero = 0 := by decide
  exact ⟨⟨by decide, by rw [e1]; omega⟩, ⟨by decide, by rw [e2]; omega⟩, by rw [e1, e2]⟩

theorem rs_fromBytes {bs : List Byte} (hl : bs.length = 32) :
    RS p (mont256FromBytes ctx bs) (X64.mont256FromBytes ctx' bs) := by
  have x := Props.C39_from_to_bytes h bs hl
  have y := X64.Props.C39_x64_from_to_bytes h' bs hl
  exact rs_of_mont h.odd x.1 y.1 (by rw [x.2.1, y.2.1])

theorem rs_fromBytesEx (bs : List Byte) :
    RelO (RS p) (mont256FromBytesEx ctx bs) (X64.mont256FromBytesEx ctx' bs) := by
  obtain ⟨r, r1, r2, r3⟩ := Props.C39_from_bytes_ex h bs
  obtain ⟨s, s1, s2, s3⟩ := X64.Props.C39_x64_from_bytes_ex h' bs
  rw [r1, s1]
  exact .some (rs_of_mont h.odd r2 s2 (by rw [r3, s3]))

theorem rs_toBytes {a : List W32} {a' : List W64} (ha : RS p a a') :
    mont256ToBytes ctx a = X64.mont256ToBytes ctx' a' := by
  obtain ⟨x, x1, x2, x3, -⟩ := Props.C39_to_bytes h a ha.l
  obtain ⟨y, y1, y2, y3, -⟩ := X64.Props.C39_x64_to_bytes h' a' ha.r
  rw [x3, y3]
  have : (x : ZMod p) = (y : ZMod p) := by rw [x2, y2, ha.mont]
  rw [ZMod.natCast_eq_natCast_iff', Nat.mod_eq_of_lt x1, Nat.mod_eq_of_lt y1] at this
  rw [this]

end

/-- Arrays of the two builds that hold the same 256-bit number. -/
structure NS (a : List W32) (b : List W64) : Prop where
  l : a.length = 8
  r : b.length = 4
  eq : val a = val b

theorem ns_fromBytes {bs : List Byte} (h : bs.length = 32) : NS (u256FromBytes bs) (X64.u256FromBytes bs) := by
  obtain ⟨l, v⟩ := u256FromBytes_spec bs h
  obtain ⟨l', v'⟩ := X64.u256FromBytes_spec bs h
  exact ⟨l, l', by rw [v, v']⟩

theorem ns_toBytes {a : List W32} {b : List W64} (h : NS a b) : u256ToBytes a = X64.u256ToBytes b := by
  rw [u256ToBytes_eq h.l, X64.u256ToBytes_eq h.r, h.eq]

theorem ns_cmp {a b : List W32} {a' b' : List W64} (h : NS a a') (k : NS b b') :
    u256Cmp a b = X64.u256Cmp a' b' := by
  rw [(Props.C31_cmp a b h.l k.l).1, (X64.Props.C31_x64_cmp a' b' h.r k.r).1, h.eq, k.eq]

theorem ns_equalZero {a : List W32} {b : List W64} (h : NS a b) : u256EqualZero a = X64.u256EqualZero b := by
  have x := u256EqualZero_iff a
  rw [h.eq, ← X64.u256EqualZero_iff b] at x
  exact Bool.eq_iff_iff.mpr x

theorem ns_sub {a b : List W32} {a' b' : List W64} (h : NS a a') (k : NS b b') :
    NS (u256SubBorrow a b).1 (X64.u256SubBorrow a' b').1 := by
  obtain ⟨x1, x2, x3⟩ := u256Sub_spec a b h.l k.l
  obtain ⟨y1, y2, y3⟩ := X64.u256Sub_spec a' b' h.r k.r
  refine ⟨x1, y1, ?_⟩
  rw [h.eq, k.eq] at x2 x3
  rcases Nat.lt_or_ge (val a') (val b') with hlt | hge
  · rw [(x3 hlt).1, (y3 hlt).1]
  · rw [(x2 hge).1, (y2 hge).1]

theorem ns_bitTest {a : List W32} {b : List W64} (h : NS a b) {i : Nat} (hi : i < 256) :
    u256BitTest a i = X64.u256BitTest b i := by
  rw [Props.C31_bittest a h.l i hi, X64.Props.C31_x64_bittest b h.r i hi, h.eq]

theorem carry_unique {x y M : Nat} {c d : CInt} (hx : x < M) (hy : y < M) (h : x + M * c.toNat = y + M * d.toNat) :
    x = y ∧ c = d := by
  have h1 : c.toNat = d.toNat := by
    have := congrArg (· / M) h
    beta_reduce at this
    rwa [Nat.add_mul_div_left _ _ (by omega), Nat.add_mul_div_left _ _ (by omega), Nat.div_eq_of_lt hx,
      Nat.div_eq_of_lt hy, Nat.zero_add, Nat.zero_add] at this
  refine ⟨by rw [h1] at h; omega, BitVec.eq_of_toNat_eq h1⟩

theorem ns_tpl {a : List W32} {b : List W64} (h : NS a b) :
    NS (u256TplCarry a).1 (X64.u256TplCarry b).1 ∧ (u256TplCarry a).2 = (X64.u256TplCarry b).2 := by
  have x := (Props.C31_add_dbl_tpl a a h.l h.l).2.2
  have y := (X64.Props.C31_x64_add_dbl_tpl b b h.r h.r).2.2
  have hx := len8_lt x.2.2.2
  have hy := X64.len4_lt y.2.2.2
  have := carry_unique hx hy (by rw [x.1, y.1, h.eq])
  exact ⟨⟨x.2.2.2, y.2.2.2, this.1⟩, this.2⟩

theorem ns_inc {a : List W32} {b : List W64} (h : NS a b) :
    NS (u256AddWord a 1).1 (X64.u256AddWord b 1).1 := by
  have x := (Props.C31_word_ops a 1 h.l).1
  have y := (X64.Props.C31_x64_word_ops b 1 h.r).1
  have lx := (Props.C31_add_dbl_tpl a (1 :: List.replicate 7 0) h.l (by simp)).2.2.2.1
  have ly := (X64.Props.C31_x64_add_dbl_tpl b (1 :: List.replicate 3 0) h.r (by simp)).2.2.2.1
  have hx : val (u256AddWord a 1).1 < 2 ^ 256 := len8_lt lx
  have hy : val (X64.u256AddWord b 1).1 < 2 ^ 256 := X64.len4_lt ly
  have := carry_unique hx hy (by rw [x, y, h.eq]; rfl)
  exact ⟨lx, ly, this.1⟩

end Verif
