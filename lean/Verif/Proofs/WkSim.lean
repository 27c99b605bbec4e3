import Verif.Proofs.BuildSim
import Verif.Proofs.WkTower
import Verif.Model.Sm9Ec
/-!
# Two implementations of the field operations that correspond up to the unreduced zero

`RO` relates fully reduced operands, `RW` relates operands one of which may be the modulus instead of zero.
-/
set_option linter.unusedSectionVars false
namespace Verif
open Spec

structure WkSim {α β : Type} (F : FpOps α) (G : FpOps β) (RO RW : α → β → Prop) : Prop where
  wk : ∀ {a a'}, RO a a' → RW a a'
  add_ow : ∀ {a a' b b'}, RO a a' → RW b b' → RO (F.add a b) (G.add a' b')
  add_wo : ∀ {a a' b b'}, RW a a' → RO b b' → RO (F.add a b) (G.add a' b')
  add_ww : ∀ {a a' b b'}, RW a a' → RW b b' → RW (F.add a b) (G.add a' b')
  sub_ow : ∀ {a a' b b'}, RO a a' → RW b b' → RO (F.sub a b) (G.sub a' b')
  mul : ∀ {a a' b b'}, RW a a' → RW b b' → RO (F.mul a b) (G.mul a' b')
  sqr : ∀ {a a'}, RW a a' → RO (F.sqr a) (G.sqr a')
  dbl : ∀ {a a'}, RO a a' → RO (F.dbl a) (G.dbl a')
  dbl_w : ∀ {a a'}, RW a a' → RW (F.dbl a) (G.dbl a')
  tpl : ∀ {a a'}, RO a a' → RelO RO (F.tpl a) (G.tpl a')
  neg : ∀ {a a'}, RW a a' → RW (F.neg a) (G.neg a')
  inv : ∀ {a a'}, RO a a' → RelO RW (F.inv a) (G.inv a')
  eq : ∀ {a a' b b'}, RO a a' → RO b b' → F.eq a b = G.eq a' b'
  isZero : ∀ {a a'}, RO a a' → F.isZero a = G.isZero a'
  one : RO F.one G.one
  zero : RO F.zero G.zero

/-- Related by their values. -/
structure RelV {α β K : Type} (ok : α → Prop) (ok' : β → Prop) (φ : α → K) (ψ : β → K) (a : α) (b : β) : Prop where
  l : ok a
  r : ok' b
  eq : φ a = ψ b

theorem WkHom.sim {K α β : Type} [Field K] {F : FpOps α} {G : FpOps β} {ok wk : α → Prop} {ok' wk' : β → Prop} {φ : α → K}
    {ψ : β → K} (h : WkHom F ok wk φ) (k : WkHom G ok' wk' ψ) :
    WkSim F G (RelV ok ok' φ ψ) (RelV wk wk' φ ψ) where
  wk a := ⟨h.wk_of a.l, k.wk_of a.r, a.eq⟩
  add_ow a b := ⟨h.add_ow a.l b.l, k.add_ow a.r b.r, by
    rw [h.add (h.wk_of a.l) b.l, k.add (k.wk_of a.r) b.r, a.eq, b.eq]⟩
  add_wo a b := ⟨h.add_wo a.l b.l, k.add_wo a.r b.r, by
    rw [h.add a.l (h.wk_of b.l), k.add a.r (k.wk_of b.r), a.eq, b.eq]⟩
  add_ww a b := ⟨h.add_ww a.l b.l, k.add_ww a.r b.r, by rw [h.add a.l b.l, k.add a.r b.r, a.eq, b.eq]⟩
  sub_ow a b := ⟨h.sub_ow a.l b.l, k.sub_ow a.r b.r, by rw [h.sub a.l b.l, k.sub a.r b.r, a.eq, b.eq]⟩
  mul a b := ⟨h.mul_ww a.l b.l, k.mul_ww a.r b.r, by rw [h.mul a.l b.l, k.mul a.r b.r, a.eq, b.eq]⟩
  sqr a := ⟨h.sqr_w a.l, k.sqr_w a.r, by rw [h.sqr a.l, k.sqr a.r, a.eq]⟩
  dbl a := ⟨h.dbl_o a.l, k.dbl_o a.r, by rw [h.dbl (h.wk_of a.l), k.dbl (k.wk_of a.r), a.eq]⟩
  dbl_w a := ⟨h.dbl_w a.l, k.dbl_w a.r, by rw [h.dbl a.l, k.dbl a.r, a.eq]⟩
  tpl a := by
    obtain ⟨r, r1, r2, r3⟩ := h.tpl a.l
    obtain ⟨s, s1, s2, s3⟩ := k.tpl a.r
    rw [r1, s1]
    exact .some ⟨r2, s2, by rw [r3, s3, a.eq]⟩
  neg a := ⟨h.neg_w a.l, k.neg_w a.r, by rw [h.neg a.l, k.neg a.r, a.eq]⟩
  inv a := by
    obtain ⟨r, r1, r2, r3⟩ := h.inv a.l
    obtain ⟨s, s1, s2, s3⟩ := k.inv a.r
    rw [r1, s1]
    exact .some ⟨r2, s2, by rw [r3, s3, a.eq]⟩
  eq a b := by rw [Bool.eq_iff_iff, h.eq a.l b.l, k.eq a.r b.r, a.eq, b.eq]
  isZero a := by rw [Bool.eq_iff_iff, h.isZero a.l, k.isZero a.r, a.eq]
  one := ⟨h.one_ok, k.one_ok, by rw [h.one, k.one]⟩
  zero := ⟨h.zero_ok, k.zero_ok, by rw [h.zero, k.zero]⟩

structure R2 {α β : Type} (R : α → β → Prop) (a : Fp2 α) (b : Fp2 β) : Prop where
  c0 : R a.c0 b.c0
  c1 : R a.c1 b.c1

structure R4 {α β : Type} (R : α → β → Prop) (a : Fp4 α) (b : Fp4 β) : Prop where
  c0 : R2 R a.c0 b.c0
  c1 : R2 R a.c1 b.c1

structure R12 {α β : Type} (R : α → β → Prop) (a : Fp12 α) (b : Fp12 β) : Prop where
  c0 : R4 R a.c0 b.c0
  c1 : R4 R a.c1 b.c1
  c2 : R4 R a.c2 b.c2

section
variable {α β : Type} {F : FpOps α} {G : FpOps β} {RO RW : α → β → Prop} (h : WkSim F G RO RW)
include h

theorem WkSim.add {a b : α} {a' b' : β} (ha : RO a a') (hb : RO b b') : RO (F.add a b) (G.add a' b') :=
  h.add_ow ha (h.wk hb)
theorem WkSim.sub {a b : α} {a' b' : β} (ha : RO a a') (hb : RO b b') : RO (F.sub a b) (G.sub a' b') :=
  h.sub_ow ha (h.wk hb)
theorem WkSim.mulO {a b : α} {a' b' : β} (ha : RO a a') (hb : RO b b') : RO (F.mul a b) (G.mul a' b') :=
  h.mul (h.wk ha) (h.wk hb)
theorem WkSim.sqrO {a : α} {a' : β} (ha : RO a a') : RO (F.sqr a) (G.sqr a') := h.sqr (h.wk ha)

/-! ## Points -/

theorem ws_check0 {b : α} {b' : β} (hb : RO b b') {P : EcA α} {P' : EcA β} (hP : RelA RO P P') :
    ecACheck0 F b P = ecACheck0 G b' P' := by
  unfold ecACheck0
  exact h.eq (h.sqrO hP.y) (h.add hb (h.mulO (h.sqrO hP.x) hP.x))

theorem ws_inf : RelJ RO (ecJInf F) (ecJInf G) := ⟨h.one, h.one, h.zero⟩

theorem ws_fromA {P : EcA α} {P' : EcA β} (hP : RelA RO P P') : RelJ RO (ecJFromA F P) (ecJFromA G P') :=
  ⟨hP.x, hP.y, h.one⟩

theorem ws_neg {P : EcA α} {P' : EcA β} (hP : RelA RW P P') : RelA RW (ecANeg F P) (ecANeg G P') :=
  ⟨hP.x, h.neg hP.y⟩

theorem ws_jneg {P : EcJ α} {P' : EcJ β} (hP : RelJ RW P P') : RelJ RW (ecJNeg F P) (ecJNeg G P') :=
  ⟨hP.x, h.neg hP.y, hP.z⟩

theorem ws_dbl {P : EcJ α} {P' : EcJ β} (hP : RelJ RO P P') : RelO (RelJ RO) (ecJDbl0 F P) (ecJDbl0 G P') := by
  have hx := hP.x
  have hy := hP.y
  have hz := hP.z
  unfold ecJDbl0
  dsimp only
  have ha := h.sqrO hx
  have hb := h.sqrO hy
  have hc := h.sqrO hb
  have hd := h.dbl (h.sub (h.sub (h.sqrO (h.add hx hb)) ha) hc)
  have ht := h.tpl ha
  revert ht
  generalize F.tpl _ = t
  generalize G.tpl _ = t'
  intro ht
  cases ht with
  | none => exact .none
  | some ht =>
    have hx3 := h.sub (h.sub (h.sqrO ht) hd) hd
    exact .some ⟨hx3, h.sub (h.mulO (h.sub hd hx3) ht) (h.dbl (h.dbl (h.dbl hc))), h.dbl (h.mulO hy hz)⟩

theorem ws_add {P Q : EcJ α} {P' Q' : EcJ β} (hP : RelJ RO P P') (qx : RW Q.x Q'.x) (qy : RW Q.y Q'.y)
    (qz : RO Q.z Q'.z) : RelO (RelJ RO) (ecJAdd0 F P Q) (ecJAdd0 G P' Q') := by
  have h1 := h.sqrO hP.z
  have h2 := h.sqrO qz
  have hu1 := h.mulO hP.x h2
  have hu2 := h.mul qx (h.wk h1)
  have hs1 := h.mulO (h.mulO hP.y qz) h2
  have hs2 := h.mulO (h.mul qy (h.wk hP.z)) h1
  unfold ecJAdd0
  dsimp only
  rw [h.eq hu1 hu2, h.eq hs1 hs2]
  split
  · split
    · exact ws_dbl h hP
    · exact .some (ws_inf h)
  · have hh := h.sub hu2 hu1
    have hi := h.sqrO (h.dbl hh)
    have hj := h.mulO hh hi
    have hr := h.dbl (h.sub hs2 hs1)
    have hv := h.mulO hu1 hi
    have hx3 := h.sub (h.sub (h.sub (h.sqrO hr) hj) hv) hv
    refine .some ⟨hx3, ?_, ?_⟩
    · exact h.sub (h.mulO (h.sub hv hx3) hr) (h.dbl (h.mulO hs1 hj))
    · exact h.mulO (h.sub (h.sub (h.sqrO (h.add hP.z qz)) h1) h2) hh

theorem ws_addA {P : EcJ α} {P' : EcJ β} {Q : EcA α} {Q' : EcA β} (hP : RelJ RO P P')
    (hQ : RelA RW Q Q') : RelJ RO (ecJAddA F P Q) (ecJAddA G P' Q') := by
  have h1 := h.sqrO hP.z
  have hu2 := h.mul hQ.x (h.wk h1)
  have hs2 := h.mulO (h.mul hQ.y (h.wk hP.z)) h1
  have hh := h.sub hu2 hP.x
  have hhh := h.sqrO hh
  have hi := h.dbl (h.dbl hhh)
  have hj := h.mulO hh hi
  have hr := h.dbl (h.sub hs2 hP.y)
  have hv := h.mulO hP.x hi
  have hx3 := h.sub (h.sub (h.sub (h.sqrO hr) hj) hv) hv
  unfold ecJAddA
  dsimp only
  exact ⟨hx3, h.sub (h.mulO hr (h.sub hv hx3)) (h.dbl (h.mulO hP.y hj)),
    h.sub (h.sub (h.sqrO (h.add hP.z hh)) h1) hhh⟩

theorem ws_toA {P : EcJ α} {P' : EcJ β} (hP : RelJ RO P P') :
    RelO (RelA RO) (ecJToA F P) (ecJToA G P') := by
  unfold ecJToA
  have ht := h.inv hP.z
  revert ht
  generalize F.inv _ = t
  generalize G.inv _ = t'
  intro ht
  cases ht with
  | none => exact .none
  | some ht => exact .some ⟨h.mulO hP.x (h.sqr ht), h.mulO hP.y (h.mul ht (h.wk (h.sqr ht)))⟩

/-! ## The tower -/

theorem WkSim.wk2 {a : Fp2 α} {a' : Fp2 β} (ha : R2 RO a a') : R2 RW a a' := ⟨h.wk ha.c0, h.wk ha.c1⟩
theorem WkSim.wk4 {a : Fp4 α} {a' : Fp4 β} (ha : R4 RO a a') : R4 RW a a' := ⟨h.wk2 ha.c0, h.wk2 ha.c1⟩
theorem WkSim.wk12 {a : Fp12 α} {a' : Fp12 β} (ha : R12 RO a a') : R12 RW a a' :=
  ⟨h.wk4 ha.c0, h.wk4 ha.c1, h.wk4 ha.c2⟩

theorem ws2_mul {a b : Fp2 α} {a' b' : Fp2 β} (ha : R2 RW a a') (hb : R2 RW b b') :
    R2 RO (fp2Mul F a b) (fp2Mul G a' b') := by
  have p0 := h.mul ha.c0 hb.c0
  have p1 := h.mul ha.c1 hb.c1
  exact ⟨h.sub p0 (h.dbl p1), h.sub (h.sub (h.mul (h.add_ww ha.c0 ha.c1) (h.add_ww hb.c0 hb.c1)) p0) p1⟩

theorem ws2_sqr {a : Fp2 α} {a' : Fp2 β} (ha : R2 RW a a') : R2 RO (fp2Sqr F a) (fp2Sqr G a') := by
  have p0 := h.sqr ha.c0
  have p1 := h.sqr ha.c1
  exact ⟨h.sub p0 (h.dbl p1), h.sub (h.sub (h.sqr (h.add_ww ha.c0 ha.c1)) p0) p1⟩

theorem ws2_mulU {a : Fp2 α} {a' : Fp2 β} (ha : R2 RW a a') : R2 RW (fp2MulU F a) (fp2MulU G a') :=
  ⟨h.neg (h.dbl_w ha.c1), ha.c0⟩

theorem ws2_mulFp {a : Fp2 α} {a' : Fp2 β} (ha : R2 RW a a') {b : α} {b' : β} (hb : RW b b') :
    R2 RO (fp2MulFp F a b) (fp2MulFp G a' b') := ⟨h.mul ha.c0 hb, h.mul ha.c1 hb⟩

theorem ws2_inv {a : Fp2 α} {a' : Fp2 β} (ha : R2 RO a a') : RelO (R2 RW) (fp2Inv F a) (fp2Inv G a') := by
  unfold fp2Inv
  dsimp only
  have ht := h.inv (h.add (h.sqrO ha.c0) (h.dbl (h.sqrO ha.c1)))
  revert ht
  generalize F.inv _ = t
  generalize G.inv _ = t'
  intro ht
  cases ht with
  | none => exact .none
  | some ht => exact .some ⟨h.wk (h.mul (h.wk ha.c0) ht), h.neg (h.wk (h.mul (h.wk ha.c1) ht))⟩

theorem ws2_tpl {a : Fp2 α} {a' : Fp2 β} (ha : R2 RO a a') : RelO (R2 RO) (fp2Tpl F a) (fp2Tpl G a') := by
  unfold fp2Tpl
  have h0 := h.tpl ha.c0
  have h1 := h.tpl ha.c1
  revert h0 h1
  generalize F.tpl a.c0 = s
  generalize G.tpl a'.c0 = s'
  generalize F.tpl a.c1 = t
  generalize G.tpl a'.c1 = t'
  intro h0 h1
  cases h0 with
  | none => exact .none
  | some h0 =>
    cases h1 with
    | none => exact .none
    | some h1 => exact .some ⟨h0, h1⟩

theorem WkSim.two : WkSim (fp2Ops F) (fp2Ops G) (R2 RO) (R2 RW) where
  wk := h.wk2
  add_ow a b := ⟨h.add_ow a.c0 b.c0, h.add_ow a.c1 b.c1⟩
  add_wo a b := ⟨h.add_wo a.c0 b.c0, h.add_wo a.c1 b.c1⟩
  add_ww a b := ⟨h.add_ww a.c0 b.c0, h.add_ww a.c1 b.c1⟩
  sub_ow a b := ⟨h.sub_ow a.c0 b.c0, h.sub_ow a.c1 b.c1⟩
  mul := ws2_mul h
  sqr := ws2_sqr h
  dbl a := ⟨h.dbl a.c0, h.dbl a.c1⟩
  dbl_w a := ⟨h.dbl_w a.c0, h.dbl_w a.c1⟩
  tpl := ws2_tpl h
  neg a := ⟨h.neg a.c0, h.neg a.c1⟩
  inv := ws2_inv h
  eq a b := by simp only [fp2Ops, fp2Eq]; rw [h.eq a.c0 b.c0, h.eq a.c1 b.c1]
  isZero a := by simp only [fp2Ops, fp2IsZero]; rw [h.isZero a.c0, h.isZero a.c1]
  one := ⟨h.one, h.zero⟩
  zero := ⟨h.zero, h.zero⟩

theorem ws4_add_ww {a b : Fp4 α} {a' b' : Fp4 β} (ha : R4 RW a a') (hb : R4 RW b b') :
    R4 RW (fp4Add F a b) (fp4Add G a' b') := ⟨h.two.add_ww ha.c0 hb.c0, h.two.add_ww ha.c1 hb.c1⟩
theorem ws4_add_ow {a b : Fp4 α} {a' b' : Fp4 β} (ha : R4 RO a a') (hb : R4 RW b b') :
    R4 RO (fp4Add F a b) (fp4Add G a' b') := ⟨h.two.add_ow ha.c0 hb.c0, h.two.add_ow ha.c1 hb.c1⟩
theorem ws4_add_wo {a b : Fp4 α} {a' b' : Fp4 β} (ha : R4 RW a a') (hb : R4 RO b b') :
    R4 RO (fp4Add F a b) (fp4Add G a' b') := ⟨h.two.add_wo ha.c0 hb.c0, h.two.add_wo ha.c1 hb.c1⟩
theorem ws4_sub {a b : Fp4 α} {a' b' : Fp4 β} (ha : R4 RO a a') (hb : R4 RO b b') :
    R4 RO (fp4Sub F a b) (fp4Sub G a' b') := ⟨h.two.sub ha.c0 hb.c0, h.two.sub ha.c1 hb.c1⟩
theorem ws4_mul {a b : Fp4 α} {a' b' : Fp4 β} (ha : R4 RW a a') (hb : R4 RW b b') :
    R4 RO (fp4Mul F a b) (fp4Mul G a' b') := by
  have H := h.two
  have p0 := H.mul ha.c0 hb.c0
  have p1 := H.mul ha.c1 hb.c1
  exact ⟨H.add_ow p0 (ws2_mulU h (H.wk p1)),
    H.sub (H.sub (H.mul (H.add_ww ha.c0 ha.c1) (H.add_ww hb.c0 hb.c1)) p0) p1⟩
theorem ws4_mulV {a : Fp4 α} {a' : Fp4 β} (ha : R4 RW a a') : R4 RW (fp4MulV F a) (fp4MulV G a') :=
  ⟨ws2_mulU h ha.c1, ha.c0⟩
theorem ws4_mulFp {a : Fp4 α} {a' : Fp4 β} (ha : R4 RW a a') {b : α} {b' : β} (hb : RW b b') :
    R4 RO (fp4MulFp F a b) (fp4MulFp G a' b') := ⟨ws2_mulFp h ha.c0 hb, ws2_mulFp h ha.c1 hb⟩
theorem ws4_neg {a : Fp4 α} {a' : Fp4 β} (ha : R4 RW a a') : R4 RW (fp4Neg F a) (fp4Neg G a') :=
  ⟨h.two.neg ha.c0, h.two.neg ha.c1⟩
theorem ws4_zero : R4 RO (fp4Zero F) (fp4Zero G) := ⟨h.two.zero, h.two.zero⟩
theorem ws4_one : R4 RO (fp4One F) (fp4One G) := ⟨h.two.one, h.two.zero⟩
theorem ws12_zero : R12 RO (fp12Zero F) (fp12Zero G) := ⟨ws4_zero h, ws4_zero h, ws4_zero h⟩
theorem ws12_one : R12 RO (fp12One F) (fp12One G) := ⟨ws4_one h, ws4_zero h, ws4_zero h⟩

theorem ws12_mul {a b : Fp12 α} {a' b' : Fp12 β} (ha : R12 RW a a') (hb : R12 RW b b') :
    R12 RO (fp12Mul F a b) (fp12Mul G a' b') := by
  have M := fun {a b : Fp4 α} {a' b' : Fp4 β} (x : R4 RW a a') (y : R4 RW b b') => ws4_mul h x y
  have A := fun {a b : Fp4 α} {a' b' : Fp4 β} (x : R4 RW a a') (y : R4 RW b b') => ws4_add_ww h x y
  have S := fun {a b : Fp4 α} {a' b' : Fp4 β} (x : R4 RO a a') (y : R4 RO b b') => ws4_sub h x y
  have p0 := M ha.c0 hb.c0
  have p1 := M ha.c1 hb.c1
  have p2 := M ha.c2 hb.c2
  refine ⟨?_, ?_, ?_⟩
  · exact ws4_add_wo h (ws4_mulV h (h.wk4 (S (S (M (A ha.c1 ha.c2) (A hb.c1 hb.c2)) p1) p2))) p0
  · exact ws4_add_ow h (S (S (M (A ha.c0 ha.c1) (A hb.c0 hb.c1)) p0) p1) (ws4_mulV h (h.wk4 p2))
  · exact ws4_add_ow h (S (S (M (A ha.c0 ha.c2) (A hb.c0 hb.c2)) p0) p2) (h.wk4 p1)

theorem ws12_mulO {a b : Fp12 α} {a' b' : Fp12 β} (ha : R12 RO a a') (hb : R12 RO b b') :
    R12 RO (fp12Mul F a b) (fp12Mul G a' b') := ws12_mul h (h.wk12 ha) (h.wk12 hb)
theorem ws12_sqr {a : Fp12 α} {a' : Fp12 β} (ha : R12 RW a a') : R12 RO (fp12Sqr F a) (fp12Sqr G a') :=
  ws12_mul h ha ha

theorem ws12_isZero {a : Fp12 α} {a' : Fp12 β} (ha : R12 RO a a') : fp12IsZero F a = fp12IsZero G a' := by
  have z : ∀ {x : Fp2 α} {y : Fp2 β}, R2 RO x y → fp2IsZero F x = fp2IsZero G y := h.two.isZero
  unfold fp12IsZero fp4IsZero
  rw [z ha.c0.c0, z ha.c0.c1, z ha.c1.c0, z ha.c1.c1, z ha.c2.c0, z ha.c2.c1]

/-! ## Powers -/

theorem ws12_table {a : Fp12 α} {a' : Fp12 β} (ha : R12 RO a a') : ∀ (n : Nat) (p : Fp12 α) (p' : Fp12 β), R12 RO p p' →
    ∀ i : Nat, RelO (R12 RO) (fp12Table F a n p)[i]? (fp12Table G a' n p')[i]?
  | 0, _, _, _, i => by simp only [fp12Table, List.getElem?_nil]; exact .none
  | n + 1, p, p', hp, i => by
    unfold fp12Table
    cases i with
    | zero => simp only [List.getElem?_cons_zero]; exact .some hp
    | succ i => simp only [List.getElem?_cons_succ]; exact ws12_table ha n _ _ (ws12_mulO h hp ha) i

theorem ws12_sel {a : Fp12 α} {a' : Fp12 β} (ha : R12 RO a a') (i : Nat) :
    RelO (R12 RO) (fp12Sel (fp12Table F a 14 (fp12Sqr F a)) a i) (fp12Sel (fp12Table G a' 14 (fp12Sqr G a')) a' i) := by
  unfold fp12Sel
  split
  · exact .some ha
  · split
    · exact .none
    · exact ws12_table h ha 14 _ _ (ws12_sqr h (h.wk12 ha)) _

theorem ws12_mulSel {a t : Fp12 α} {a' t' : Fp12 β} (ha : R12 RO a a') (ht : R12 RO t t') (i : Nat) :
    RelO (R12 RO) (fp12MulSel F (fp12Table F a 14 (fp12Sqr F a)) a t i)
      (fp12MulSel G (fp12Table G a' 14 (fp12Sqr G a')) a' t' i) := by
  unfold fp12MulSel
  split
  · have hs := ws12_sel h ha i
    revert hs
    generalize fp12Sel _ a i = s
    generalize fp12Sel _ a' i = s'
    intro hs
    cases hs with
    | none => exact .none
    | some hs => exact .some (ws12_mulO h ht hs)
  · exact .some ht

theorem ws12_sqr4 {t : Fp12 α} {t' : Fp12 β} (ht : R12 RO t t') : R12 RO (fp12Sqr4 F t) (fp12Sqr4 G t') := by
  have s := fun {x : Fp12 α} {y : Fp12 β} (k : R12 RO x y) => ws12_sqr h (h.wk12 k)
  exact s (s (s (s ht)))

theorem ws12_loop {a : Fp12 α} {a' : Fp12 β} (ha : R12 RO a a') : ∀ (es : List Byte) (t : Fp12 α) (t' : Fp12 β), R12 RO t t' →
    RelO (R12 RO) (fp12PowLoop F (fp12Table F a 14 (fp12Sqr F a)) a es t)
      (fp12PowLoop G (fp12Table G a' 14 (fp12Sqr G a')) a' es t')
  | [], t, t', ht => .some ht
  | e :: es, t, t', ht => by
    unfold fp12PowLoop
    have h1 := ws12_mulSel h ha (ws12_sqr4 h ht) (((e >>> 4) &&& 0xF#8).toNat)
    revert h1
    generalize fp12MulSel F _ a _ _ = s
    generalize fp12MulSel G _ a' _ _ = s'
    intro h1
    cases h1 with
    | none => exact .none
    | some h1 =>
      dsimp only [Option.bind_eq_bind, Option.bind_some]
      have h2 := ws12_mulSel h ha (ws12_sqr4 h h1) ((e &&& 0xF#8).toNat)
      revert h2
      generalize fp12MulSel F _ a _ _ = s
      generalize fp12MulSel G _ a' _ _ = s'
      intro h2
      cases h2 with
      | none => exact .none
      | some h2 => exact ws12_loop ha es _ _ h2

theorem ws12_pow {a : Fp12 α} {a' : Fp12 β} (ha : R12 RO a a') (e : List Byte) :
    RelO (R12 RO) (fp12Pow F a e) (fp12Pow G a' e) := by
  unfold fp12Pow
  rw [ws12_isZero h ha]
  split
  · exact .some (ws12_zero h)
  · dsimp only
    split
    · exact .none
    next b _ =>
      split
      · have hs := ws12_sel h ha (((b >>> 4) &&& 0xF#8).toNat)
        revert hs
        generalize fp12Sel _ a _ = s
        generalize fp12Sel _ a' _ = s'
        intro hs
        cases hs with
        | none => exact .none
        | some hs =>
          have h1 := ws12_mulSel h ha (ws12_sqr4 h hs) ((b &&& 0xF#8).toNat)
          dsimp only [Option.bind_eq_bind, Option.bind_some]
          revert h1
          generalize fp12MulSel F _ a _ _ = s
          generalize fp12MulSel G _ a' _ _ = s'
          intro h1
          cases h1 with
          | none => exact .none
          | some h1 => exact ws12_loop h ha _ _ _ h1
      · have hs := ws12_sel h ha ((b &&& 0xF#8).toNat)
        revert hs
        generalize fp12Sel _ a _ = s
        generalize fp12Sel _ a' _ = s'
        intro hs
        cases hs with
        | none => exact .none
        | some hs => exact ws12_loop h ha _ _ _ hs

end
end Verif
