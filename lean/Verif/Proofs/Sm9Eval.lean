import Verif.Spec.Sm9Scheme
import Verif.Proofs.Sm9Miller
import Verif.Proofs.Sm9Poly
/-! # Kernel evaluation of the pairing on natural numbers -/
set_option linter.unusedSectionVars false
open WeierstrassCurve WeierstrassCurve.Affine
namespace Verif
open Spec

local notation "F" => nat2Ops sm9p

/-- `a0 + a1 w³ + a4 w²` as a list of coefficients. -/
def nSparse (a0 a1 a4 : Nat × Nat) : List Nat := [a0.1, 0, a4.1, a1.1, 0, 0, a0.2, 0, a4.2, a1.2, 0, 0]

/-- The tangent function. -/
def nTan (T : EcJ (Nat × Nat)) (x y : Nat × Nat) : List Nat :=
  let z2 := (F).sqr T.z
  let x2 := (F).sqr T.x
  let z3 := (F).mul z2 T.z
  let t := (F).mul z2 x2
  let s := (F).mul x2 T.x
  let d := (F).dbl ((F).mul z3 T.y)
  nSparse ((F).sub ((F).dbl ((F).sqr T.y)) ((F).add ((F).dbl s) s)) ((F).sub (F).zero ((F).mul d y))
    ((F).mul ((F).add ((F).dbl t) t) x)

/-- The line function. -/
def nLinA (T : EcJ (Nat × Nat)) (A : EcA (Nat × Nat)) (x y : Nat × Nat) : List Nat :=
  let z2 := (F).sqr T.z
  let b := (F).mul ((F).sub T.x ((F).mul z2 A.x)) T.z
  let c := (F).sub T.y ((F).mul ((F).mul z2 T.z) A.y)
  nSparse ((F).sub ((F).mul b A.y) ((F).mul c A.x)) ((F).sub (F).zero ((F).mul b y)) ((F).mul c x)

/-- The line function for Jacobian points. -/
def nLinJ (T I : EcJ (Nat × Nat)) (x y : Nat × Nat) : List Nat :=
  let z2 := (F).sqr T.z
  let i2 := (F).sqr I.z
  let i3 := (F).mul i2 I.z
  let b := (F).mul ((F).mul ((F).sub ((F).mul i2 T.x) ((F).mul z2 I.x)) T.z) I.z
  let c := (F).sub ((F).mul i3 T.y) ((F).mul ((F).mul z2 T.z) I.y)
  nSparse ((F).sub ((F).mul b I.y) ((F).mul ((F).mul c I.x) I.z)) ((F).sub (F).zero ((F).mul ((F).mul b i3) y))
    ((F).mul ((F).mul i3 c) x)

/-- The loop. -/
def nLoop (x y : Nat × Nat) (A nA : EcA (Nat × Nat)) : List Char → List Nat → EcJ (Nat × Nat) →
    Option (List Nat × EcJ (Nat × Nat))
  | [], f, T => some (f, T)
  | c :: cs, f, T =>
    forceList (twMulR f f) fun f =>
    forceList (twMulR f (nTan T x y)) fun f =>
    match ecJDbl0 F T with
    | none => none
    | some T => forceJ T fun T =>
      match decide (c = '1') with
      | true => forceList (twMulR f (nLinA T A x y)) fun f => forceJ (ecJAddA F T A) fun T => nLoop x y A nA cs f T
      | false =>
        match decide (c = '2') with
        | true => forceList (twMulR f (nLinA T nA x y)) fun f => forceJ (ecJAddA F T nA) fun T => nLoop x y A nA cs f T
        | false => nLoop x y A nA cs f T

/-- `kA²`. -/
def kA2nat : Nat × Nat := (nat2Ops sm9p).mul kAnat kAnat

/-- The image of the point under the Frobenius map. -/
def nFrob (A : EcA (Nat × Nat)) : EcJ (Nat × Nat) := ⟨(A.x.1, sm9p - A.x.2), (A.y.1, sm9p - A.y.2), kAnat⟩

/-- The negated image of the point under the square of the Frobenius map. -/
def nFrob2 (A : EcA (Nat × Nat)) : EcJ (Nat × Nat) := ⟨A.x, (F).sub (F).zero A.y, kA2nat⟩

/-- The last line. -/
def nLast (x y : Nat × Nat) (A : EcA (Nat × Nat)) (f : List Nat) (o : Option (EcJ (Nat × Nat))) : Option (List Nat) :=
  o.map fun T => twMulR f (nLinJ T (nFrob2 A) x y)

/-- The two last lines. -/
def nTail (x y : Nat × Nat) (A : EcA (Nat × Nat)) (o : Option (List Nat × EcJ (Nat × Nat))) : Option (List Nat) :=
  o.bind fun fT => nLast x y A (twMulR fT.1 (nLinJ fT.2 (nFrob A) x y)) (ecJAdd0 F fT.2 (nFrob A))

theorem nTail_some {x y : Nat × Nat} {A : EcA (Nat × Nat)} {f : List Nat} {T T' : EcJ (Nat × Nat)}
    (h : ecJAdd0 F T (nFrob A) = some T') :
    nTail x y A (some (f, T)) = some (twMulR (twMulR f (nLinJ T (nFrob A) x y)) (nLinJ T' (nFrob2 A) x y)) := by
  unfold nTail
  rw [Option.bind_some, h]
  unfold nLast
  rw [Option.map_some]

/-- The function before the final exponentiation. -/
def nMiller (x y : Nat) (A : EcA (Nat × Nat)) : Option (List Nat) :=
  nTail (x, 0) (y, 0) A (nLoop (x, 0) (y, 0) A ⟨A.x, (F).sub (F).zero A.y⟩ Sm9.nafA
    [1, 0, 0, 0, 0, 0, 0, 0, 0, 0, 0, 0] ⟨A.x, A.y, (1, 0)⟩)

theorem nMiller_some {x y : Nat} {A : EcA (Nat × Nat)} {o : Option (List Nat × EcJ (Nat × Nat))}
    (h : nLoop (x, 0) (y, 0) A ⟨A.x, (F).sub (F).zero A.y⟩ Sm9.nafA
    [1, 0, 0, 0, 0, 0, 0, 0, 0, 0, 0, 0] ⟨A.x, A.y, (1, 0)⟩ = o) : nMiller x y A = nTail (x, 0) (y, 0) A o :=
  congrArg (nTail (x, 0) (y, 0) A) h

/-- The coefficients of the `p⁶`-th power. -/
def twConj : List Nat → List Nat
  | [] => []
  | [x] => [x]
  | x :: y :: l => x :: (sm9p - y % sm9p) :: twConj l

/-- The `k` low bits, most significant first. -/
def msbits (n : Nat) : Nat → List Bool
  | 0 => []
  | k + 1 => Nat.testBit n k :: msbits n k

theorem bitsAfter_ms (n : Nat) : ∀ k v, bitsAfter v (msbits n k) = v * 2 ^ k + n % 2 ^ k
  | 0, v => by simp [bitsAfter, msbits, Nat.mod_one]
  | k + 1, v => by
    unfold msbits bitsAfter
    rw [bitsAfter_ms n k, Nat.testBit_eq_decide_div_mod_eq, pow_succ, Nat.mod_mul]
    rcases Nat.mod_two_eq_zero_or_one (n / 2 ^ k) with h | h <;> simp [h] <;> ring

/-- `1`. -/
def twOne : List Nat := [1, 0, 0, 0, 0, 0, 0, 0, 0, 0, 0, 0]

section
variable {K : Type} [Field K] [Algebra (ZMod sm9p) K] {w : K} (hw : w ^ 12 = -2)
include hw

theorem ev_conj : ∀ l : List Nat, twEv w (twConj l) = twEv w l ^ sm9p ^ 6
  | [] => by simp only [twConj, twEv]; rw [zero_pow (by decide +kernel)]
  | [x] => by
    simp only [twConj, twEv, mul_zero, add_zero]
    rw [← fK_apply, map_natCast]
  | x :: y :: l => by
    have ih := ev_conj l
    simp only [twConj, twEv]
    rw [ih, natCast_sub_p, ← fK_apply, ← fK_apply]
    simp only [map_add, map_mul, map_natCast, fK_w hw, kA_6]
    ring

theorem ev_sparse (a0 a1 a4 : Nat × Nat) :
    twEv w (nSparse a0 a1 a4) = ev2 w a0 + ev2 w a1 * w ^ 3 + ev2 w a4 * w ^ 2 := by
  simp only [nSparse, twEv, ev2, Nat.cast_zero]
  ring

variable [DecidableEq K]

local notation "ev" => Is (fun _ => True) (ev2 w)

theorem nTan_is {T : EcJ (Nat × Nat)} {J : EcJ K} (hT : IsJ (fun _ => True) (ev2 w) T J) {x y : Nat × Nat} {X Y : K}
    (hx : ev x X) (hy : ev y Y) : twEv w (nTan T x y) = tanK w J X Y := by
  have H := nat2Ops_hom hw
  obtain ⟨tx, ty, tz⟩ := hT
  have z2 := H.is_sqr tz
  have x2 := H.is_sqr tx
  have z3 := H.is_mul z2 tz
  have t := H.is_mul z2 x2
  have s := H.is_mul x2 tx
  have d := H.is_dbl (H.is_mul z3 ty)
  have a0 := H.is_sub (H.is_dbl (H.is_sqr ty)) (H.is_add (H.is_dbl s) s)
  have a1 := H.is_sub H.is_zero (H.is_mul d hy)
  have a4 := H.is_mul (H.is_add (H.is_dbl t) t) hx
  unfold nTan
  rw [ev_sparse hw, a0.2, a1.2, a4.2]
  unfold tanK
  ring

theorem nLinA_is {T : EcJ (Nat × Nat)} {J : EcJ K} (hT : IsJ (fun _ => True) (ev2 w) T J) {A : EcA (Nat × Nat)} {B : EcA K}
    (hA : IsA (fun _ => True) (ev2 w) A B) {x y : Nat × Nat} {X Y : K}
    (hx : ev x X) (hy : ev y Y) : twEv w (nLinA T A x y) = linAK w J B X Y := by
  have H := nat2Ops_hom hw
  obtain ⟨tx, ty, tz⟩ := hT
  obtain ⟨ax, ay⟩ := hA
  have z2 := H.is_sqr tz
  have b := H.is_mul (H.is_sub tx (H.is_mul z2 ax)) tz
  have c := H.is_sub ty (H.is_mul (H.is_mul z2 tz) ay)
  have a0 := H.is_sub (H.is_mul b ay) (H.is_mul c ax)
  have a1 := H.is_sub H.is_zero (H.is_mul b hy)
  have a4 := H.is_mul c hx
  unfold nLinA
  rw [ev_sparse hw, a0.2, a1.2, a4.2]
  unfold linAK
  ring

theorem nLinJ_is {T I : EcJ (Nat × Nat)} {J L : EcJ K} (hT : IsJ (fun _ => True) (ev2 w) T J)
    (hI : IsJ (fun _ => True) (ev2 w) I L) {x y : Nat × Nat} {X Y : K}
    (hx : ev x X) (hy : ev y Y) : twEv w (nLinJ T I x y) = linJK w J L X Y := by
  have H := nat2Ops_hom hw
  obtain ⟨tx, ty, tz⟩ := hT
  obtain ⟨ix, iy, iz⟩ := hI
  have z2 := H.is_sqr tz
  have i2 := H.is_sqr iz
  have i3 := H.is_mul i2 iz
  have b := H.is_mul (H.is_mul (H.is_sub (H.is_mul i2 tx) (H.is_mul z2 ix)) tz) iz
  have c := H.is_sub (H.is_mul i3 ty) (H.is_mul (H.is_mul z2 tz) iy)
  have a0 := H.is_sub (H.is_mul b iy) (H.is_mul (H.is_mul c ix) iz)
  have a1 := H.is_sub H.is_zero (H.is_mul (H.is_mul b i3) hy)
  have a4 := H.is_mul (H.is_mul i3 c) hx
  unfold nLinJ
  rw [ev_sparse hw, a0.2, a1.2, a4.2]
  unfold linJK
  ring

local notation "ok2" => All2 (Reduced sm9p)
local notation "wk2" => All2 (AtMost sm9p)
local notation "ok12" => All12 (Reduced sm9p)

omit hw in
/-- The arrays and the numbers stand for the same elements. -/
def Sim (w : K) (f : Sm9.F12) (T : Sm9.J2) (fn : List Nat) (Tn : EcJ (Nat × Nat)) : Prop :=
  Is ok12 (fp12Den w) f (twEv w fn) ∧ ∃ J : EcJ K, IsJ ok2 (fp2Den w) T J ∧ IsJ (fun _ => True) (ev2 w) Tn J

variable {p : Sm9.A} {x y : Nat × Nat} {X Y : K} (px : Is (Reduced sm9p) fpDen p.x X) (py : Is (Reduced sm9p) fpDen p.y Y)
  (hx : Is (fun _ => True) (ev2 w) x X) (hy : Is (fun _ => True) (ev2 w) y Y)
include px py hx hy

theorem nLoop_sim {A nA : Sm9.A2} {B nB : EcA (Nat × Nat)} {C nC : EcA K} (hA : IsA wk2 (fp2Den w) A C)
    (hnA : IsA wk2 (fp2Den w) nA nC) (hB : IsA (fun _ => True) (ev2 w) B C) (hnB : IsA (fun _ => True) (ev2 w) nB nC)
    (cs : List Char) : ∀ {f : Sm9.F12} {T : Sm9.J2} {fn : List Nat} {Tn : EcJ (Nat × Nat)}, Sim w f T fn Tn →
      ∃ f' T' fn' Tn', Sm9.millerLoop p A nA cs f T = some (f', T') ∧ nLoop x y B nB cs fn Tn = some (fn', Tn') ∧
        Sim w f' T' fn' Tn' := by
  induction cs with
  | nil => intro f T fn Tn h; exact ⟨f, T, fn, Tn, rfl, rfl, h⟩
  | cons c cs ih =>
    intro f T fn Tn h
    obtain ⟨hf, J, j1, j2⟩ := h
    have H := sm9fp2_wk hw
    have N := nat2Ops_hom hw
    obtain ⟨g, g1, g2⟩ := gTangent_is hw j1 px py
    have g3 := nTan_is hw j2 hx hy
    obtain ⟨T2, S, t1, t2, t3⟩ := hom_dbl0 H.fpHom j1
    obtain ⟨N2, S', n1, n2, n3⟩ := hom_dbl0 N j2
    rw [t3] at n3
    cases n3
    have m1 := f12Mul hw (f12w hw (f12Sqr hw (f12w hw hf))) g2
    have m1' := m1.val (show _ = twEv w (twMulR (twMulR fn fn) (nTan Tn x y)) by
      rw [ev_mulR hw, ev_mulR hw, g3]; ring)
    have step : ∀ {A : Sm9.A2} {B : EcA (Nat × Nat)} {C : EcA K}, IsA wk2 (fp2Den w) A C →
        IsA (fun _ => True) (ev2 w) B C →
        Sim w (fp12Mul Sm9.fp (fp12Mul Sm9.fp (fp12Sqr Sm9.fp f) g) (Sm9.gLineA T2 A p)) (Sm9.j2AddA T2 A)
          (twMulR (twMulR (twMulR fn fn) (nTan Tn x y)) (nLinA N2 B x y)) (ecJAddA (nat2Ops sm9p) N2 B) := by
      intro A B C hA hB
      refine ⟨(f12Mul hw (f12w hw m1') (gLineA_is hw t2 hA px py)).val ?_, _, hom_addA_wk H t2 hA, hom_addA N n2 hB⟩
      rw [ev_mulR hw (twMulR (twMulR fn fn) (nTan Tn x y)), nLinA_is hw n2 hB hx hy]
    unfold Sm9.millerLoop nLoop Sm9.millerStep
    simp only [forceList_eq, forceJ_eq]
    rw [g1]
    dsimp only [Option.bind_eq_bind, Option.bind_some]
    rw [show Sm9.j2Dbl T = some T2 from t1, n1]
    dsimp only [Option.bind_some]
    by_cases c1 : c = '1'
    · simp only [if_pos c1, decide_eq_true c1]
      exact ih (step hA hB)
    · simp only [if_neg c1, decide_eq_false c1]
      by_cases c2 : c = '2'
      · simp only [if_pos c2, decide_eq_true c2]
        exact ih (step hnA hnB)
      · simp only [if_neg c2, decide_eq_false c2]
        exact ih ⟨m1', _, t2, n2⟩

end

section
variable {K : Type} [Field K] [Algebra (ZMod sm9p) K] {w : K} (hw : w ^ 12 = -2)
include hw
variable [DecidableEq K]

/-- **The kernel evaluation agrees with the library's function.** -/
theorem nMiller_sim {p : Sm9.A} {A : Sm9.A2} {x y : Nat} {B : EcA (Nat × Nat)}
    (px : Is (Reduced sm9p) (fpDen (K := K)) p.x x) (py : Is (Reduced sm9p) (fpDen (K := K)) p.y y)
    (ax : Is (All2 (Reduced sm9p)) (fp2Den w) A.x (ev2 w B.x)) (ay : Is (All2 (Reduced sm9p)) (fp2Den w) A.y (ev2 w B.y))
    (bx : B.x.2 ≤ sm9p) (byy : B.y.2 ≤ sm9p) :
    ∃ f l, Sm9.miller p A = some f ∧ nMiller x y B = some l ∧ Is (All12 (Reduced sm9p)) (fp12Den w) f (twEv w l) := by
  have H := sm9fp2_wk hw
  have h := sm9fp_wk (K := K)
  have N := nat2Ops_hom hw
  have hx : Is (fun _ => True) (ev2 w) (x, 0) (x : K) := ⟨trivial, by simp [ev2]⟩
  have hy : Is (fun _ => True) (ev2 w) (y, 0) (y : K) := ⟨trivial, by simp [ev2]⟩
  have b1 : Is (fun _ => True) (ev2 w) B.x (ev2 w B.x) := ⟨trivial, rfl⟩
  have b2 : Is (fun _ => True) (ev2 w) B.y (ev2 w B.y) := ⟨trivial, rfl⟩
  have b3 := (N.is_sub N.is_zero b2).val (zero_sub _)
  have o : Is (All12 (Reduced sm9p)) (fp12Den w) (fp12One Sm9.fp) (twEv w [1, 0, 0, 0, 0, 0, 0, 0, 0, 0, 0, 0]) :=
    (f12One hw).val (by simp [twEv])
  obtain ⟨f, T, fn, Tn, e1, e2, s1, J, j1, j2⟩ := nLoop_sim hw px py hx hy (A := A) (nA := ecANeg Sm9.fp2 A) (B := B)
    (nB := ⟨B.x, (nat2Ops sm9p).sub (nat2Ops sm9p).zero B.y⟩) (C := ⟨ev2 w B.x, ev2 w B.y⟩)
    (nC := ⟨ev2 w B.x, -ev2 w B.y⟩) ⟨H.w ax, H.w ay⟩ ⟨H.w ax, H.iNeg (H.w ay)⟩ ⟨b1, b2⟩ ⟨b1, b3⟩ Sm9.nafA
    (f := fp12One Sm9.fp) (T := ecJFromA Sm9.fp2 A) (fn := [1, 0, 0, 0, 0, 0, 0, 0, 0, 0, 0, 0]) (Tn := ⟨B.x, B.y, (1, 0)⟩)
    ⟨o, ⟨ev2 w B.x, ev2 w B.y, 1⟩, ⟨ax, ay, ⟨H.one_ok, H.one⟩⟩, ⟨b1, b2, ⟨trivial, by simp [ev2]⟩⟩⟩
  have zc : ∀ {bs : List Byte} {n : Nat}, Is (Reduced sm9p) (fpDen (K := K)) (Sm9.fpFromBytes bs) (kA K ^ n) →
      Is (All2 (Reduced sm9p)) (fp2Den w) (⟨Sm9.fpFromBytes bs, Sm9.fp.zero⟩ : Sm9.F2) (kA K ^ n) := fun hb =>
    (is2 hb ⟨h.zero_ok, h.zero⟩).val (by ring)
  have z1 := zc (cL1835_is (K := K))
  have z2 := zc (cL1850_is (K := K))
  have k1 : Is (fun _ => True) (ev2 w) kAnat (kA K ^ 1) := ⟨trivial, by
    simp only [kAnat, ev2, Nat.cast_zero, zero_mul, add_zero]
    rw [kA, sm9a1, map_natCast, pow_one]⟩
  have k2 : Is (fun _ => True) (ev2 w) kA2nat (kA K ^ 2) := (N.is_mul k1 k1).val (by ring)
  have cx := (f2Conj hw (fun x hx => h.wk_of hx) ax.1).val (by rw [ax.2])
  have cy := (f2Conj hw (fun x hx => h.wk_of hx) ay.1).val (by rw [ay.2])
  have dx : Is (fun _ => True) (ev2 w) (B.x.1, sm9p - B.x.2) (sm9Frob K (ev2 w B.x)) := ⟨trivial, (frob_ev2 hw _ bx).symm⟩
  have dy : Is (fun _ => True) (ev2 w) (B.y.1, sm9p - B.y.2) (sm9Frob K (ev2 w B.y)) := ⟨trivial, (frob_ev2 hw _ byy).symm⟩
  obtain ⟨T', S, t1, t2, t3⟩ := hom_add0_wk H (Q := Sm9.j2FrobA A)
    (I := ⟨sm9Frob K (ev2 w B.x), sm9Frob K (ev2 w B.y), kA K ^ 1⟩) j1 cx cy z1
  obtain ⟨N', S', n1, n2, n3⟩ := hom_add0 N (Q := nFrob B)
    (I := ⟨sm9Frob K (ev2 w B.x), sm9Frob K (ev2 w B.y), kA K ^ 1⟩) j2 ⟨dx, dy, k1⟩
  rw [t3] at n3
  cases n3
  have l1 := gLineJ_is hw j1 (Q := Sm9.j2FrobA A) (I := ⟨sm9Frob K (ev2 w B.x), sm9Frob K (ev2 w B.y), kA K ^ 1⟩)
    ⟨cx, cy, H.w z1⟩ px py
  have l1' := nLinJ_is hw j2 (I := nFrob B)
    (L := ⟨sm9Frob K (ev2 w B.x), sm9Frob K (ev2 w B.y), kA K ^ 1⟩) ⟨dx, dy, k1⟩ hx hy
  have l2 := gLineJ_is hw t2 (Q := ecJNeg Sm9.fp2 (Sm9.j2Frob2A A)) (I := ⟨ev2 w B.x, -ev2 w B.y, kA K ^ 2⟩)
    ⟨H.w ax, H.iNeg (H.w ay), H.w z2⟩ px py
  have l2' := nLinJ_is hw n2 (I := nFrob2 B)
    (L := ⟨ev2 w B.x, -ev2 w B.y, kA K ^ 2⟩) ⟨b1, b3, k2⟩ hx hy
  have m := f12Mul hw (f12w hw (f12Mul hw (f12w hw s1) l1)) l2
  refine ⟨_, twMulR (twMulR fn (nLinJ Tn (nFrob B) (x, 0) (y, 0)))
    (nLinJ N' (nFrob2 B) (x, 0) (y, 0)), ?_, ?_, m.val ?_⟩
  · unfold Sm9.miller
    dsimp only
    rw [e1]
    dsimp only [Option.bind_eq_bind, Option.bind_some]
    rw [show Sm9.j2Add T (Sm9.j2FrobA A) = some T' from t1]
    rfl
  · exact (nMiller_some e2).trans (nTail_some n1)
  · rw [ev_mulR hw, ev_mulR hw, l1', l2']

omit [DecidableEq K] in
/-- One stage of an exponentiation. -/
theorem ev_stage {b c c' : List Nat} {v : Nat} (h : twEv w c = twEv w b ^ v) (n k : Nat)
    (e : twPow b (msbits n k) c = c') : twEv w c' = twEv w b ^ (v * 2 ^ k + n % 2 ^ k) := by
  rw [← e, ev_pow hw b _ c v h, bitsAfter_ms]

omit [DecidableEq K] in
theorem ev_easy {l inv b : List Nat} (c1 : twMulR l inv = twOne) (c2 : twMulR (twConj l) inv = b) :
    twEv w b = twEv w l ^ (sm9p ^ 6 - 1) := by
  have hi : twEv w l * twEv w inv = 1 := by
    rw [← ev_mulR hw, c1]; simp [twOne, twEv]
  rw [← c2, ev_mulR hw, ev_conj hw]
  conv_lhs => rw [show sm9p ^ 6 = sm9p ^ 6 - 1 + 1 by decide +kernel]
  rw [pow_succ, mul_assoc, hi, mul_one]

theorem eval_right {p : Sm9.A} {A : Sm9.A2} {x y : Nat} {B : EcA (Nat × Nat)} {l inv b c : List Nat}
    (px : Is (Reduced sm9p) (fpDen (K := K)) p.x x) (py : Is (Reduced sm9p) (fpDen (K := K)) p.y y)
    (ax : Is (All2 (Reduced sm9p)) (fp2Den w) A.x (ev2 w B.x)) (ay : Is (All2 (Reduced sm9p)) (fp2Den w) A.y (ev2 w B.y))
    (bx : B.x.2 ≤ sm9p) (byy : B.y.2 ≤ sm9p) (h0 : nMiller x y B = some l) (h1 : twMulR l inv = twOne)
    (h2 : twMulR (twConj l) inv = b) (h3 : twSlip l = false) (h4 : l.length = 12)
    (h5 : twEv w c = twEv w b ^ ((sm9p ^ 2 + 1) * 0x2400000000215d941)) (h6 : twSlip c = false) (h7 : c.length = 12) :
    PairRight w p A := by
  obtain ⟨f, l', e1, e2, f1, f2⟩ := nMiller_sim hw px py ax ay bx byy
  rw [h0] at e2
  rw [← Option.some.inj e2] at f2
  intro f' hf'
  rw [e1] at hf'
  cases hf'
  refine ⟨right_of_poly hw f1 l h4 h3 f2, fun h hh e => right_of_poly hw hh c h7 h6 (e.trans ?_)⟩
  rw [h5, ev_easy hw h1 h2, f2, mul_assoc, pow_mul]

omit [DecidableEq K] in
theorem ev_one_coeff {l : List Nat} (hl : l.length = 12) (e : twEv w l = 1) : l.getD 1 0 % sm9p = 0 := by
  match l, hl with
  | [l0, l1, l2, l3, l4, l5, l6, l7, l8, l9, l10, l11], _ =>
    have sj := fun x : Nat => fp_surj (x : ZMod sm9p)
    obtain ⟨a0, r0, v0⟩ := sj l0
    obtain ⟨a1, r1, v1⟩ := sj l1
    obtain ⟨a2, r2, v2⟩ := sj l2
    obtain ⟨a3, r3, v3⟩ := sj l3
    obtain ⟨a4, r4, v4⟩ := sj l4
    obtain ⟨a5, r5, v5⟩ := sj l5
    obtain ⟨a6, r6, v6⟩ := sj l6
    obtain ⟨a7, r7, v7⟩ := sj l7
    obtain ⟨a8, r8, v8⟩ := sj l8
    obtain ⟨a9, r9, v9⟩ := sj l9
    obtain ⟨a10, r10, v10⟩ := sj l10
    obtain ⟨a11, r11, v11⟩ := sj l11
    have o := f12One hw
    have hb : (fp12One Sm9.fp : Sm9.F12) = ⟨⟨⟨a0, a6⟩, ⟨a3, a9⟩⟩, ⟨⟨a1, a7⟩, ⟨a4, a10⟩⟩, ⟨⟨a2, a8⟩, ⟨a5, a11⟩⟩⟩ := by
      refine f12_inj hw o.1 ⟨⟨⟨r0, r6⟩, ⟨r3, r9⟩⟩, ⟨⟨r1, r7⟩, ⟨r4, r10⟩⟩, ⟨⟨r2, r8⟩, ⟨r5, r11⟩⟩⟩
        (o.2.trans (e.symm.trans ?_))
      unfold fp12Den den12 den4 den2 fpDen
      simp only [v0, v1, v2, v3, v4, v5, v6, v7, v8, v9, v10, v11, twEv, map_natCast]
      ring
    have h1 : Sm9.fp.zero = a1 := congrArg (fun z : Sm9.F12 => z.c1.c0.c0) hb
    rw [← h1] at v1
    have hz : montVal sm9p Sm9.fp.zero = 0 := sm9fp_wk0.zero
    rw [hz] at v1
    exact Nat.mod_eq_zero_of_dvd ((ZMod.natCast_eq_zero_iff _ _).mp v1.symm)

theorem eval_ne {p : Sm9.A} {A : Sm9.A2} {x y : Nat} {B : EcA (Nat × Nat)} {l inv b c : List Nat}
    (px : Is (Reduced sm9p) (fpDen (K := K)) p.x x) (py : Is (Reduced sm9p) (fpDen (K := K)) p.y y)
    (ax : Is (All2 (Reduced sm9p)) (fp2Den w) A.x (ev2 w B.x)) (ay : Is (All2 (Reduced sm9p)) (fp2Den w) A.y (ev2 w B.y))
    (bx : B.x.2 ≤ sm9p) (byy : B.y.2 ≤ sm9p) (h0 : nMiller x y B = some l) (h1 : twMulR l inv = twOne)
    (h2 : twMulR (twConj l) inv = b)
    (h5 : twEv w c = twEv w b ^ ((sm9p ^ 2 + 1) * ((sm9p ^ 4 - sm9p ^ 2 + 1) / sm9n)))
    (h6 : c.length = 12) (h7 : c.getD 1 0 % sm9p ≠ 0) {f : Sm9.F12}
    (hf : Sm9.miller p A = some f) : fp12Den w f ^ ((sm9p ^ 12 - 1) / sm9n) ≠ 1 := by
  obtain ⟨f', l', e1, e2, f1, f2⟩ := nMiller_sim hw px py ax ay bx byy
  rw [h0] at e2
  rw [← Option.some.inj e2] at f2
  rw [e1] at hf
  cases hf
  intro h
  refine h7 (ev_one_coeff hw h6 ?_)
  rw [h5, ev_easy hw h1 h2, ← pow_mul, ← h, ← f2,
    show (sm9p ^ 6 - 1) * ((sm9p ^ 2 + 1) * ((sm9p ^ 4 - sm9p ^ 2 + 1) / sm9n)) = (sm9p ^ 12 - 1) / sm9n by decide +kernel]

end

/-- The coordinates of the generator of `G1`. -/
def g1x : Nat := 0x93DE051D62BF718FF5ED0704487D01D6E1E4086909DC3280E8C4E4817C66DDDD
/-- The coordinates of the generator of `G1`. -/
def g1y : Nat := 0x21FE8DDA4F21E607631065125C395BBC1C1C00CBFA6024350C464CD70A3EA616

end Verif
