import Verif.Proofs.Sm9X64Base
import Verif.Proofs.Sm2X64
import Verif.Proofs.Sm9Keys
/-! # SM9 with 64-bit limbs: what it computes is what the build with 32-bit limbs computes, up to the pairing -/
set_option linter.constructorNameAsVariable false
set_option linter.unusedSectionVars false
namespace Verif
open Spec

theorem relA_wk {α β : Type} {F : FpOps α} {G : FpOps β} {RO RW : α → β → Prop} (h : WkSim F G RO RW) {P : EcA α} {P' : EcA β}
    (hP : RelA RO P P') : RelA RW P P' := ⟨h.wk hP.x, h.wk hP.y⟩

theorem r2_mk {α β : Type} {R : α → β → Prop} {a b : α} {a' b' : β} (h : R a a') (k : R b b') :
    R2 R ⟨a, b⟩ ⟨a', b'⟩ := ⟨h, k⟩

theorem relO_some {α β : Type} {R : α → β → Prop} {a : α} {y : Option β} (h : RelO R (some a) y) :
    ∃ b, y = some b ∧ R a b := by
  cases h with
  | some h => exact ⟨_, rfl, h⟩

/-! ## Scalar multiplication -/

section
variable {α β : Type} {F : FpOps α} {G : FpOps β} {RO RW : α → β → Prop} (W : WkSim F G RO RW)
include W

theorem ws_mulLoop {e e3 : List W32} {f f3 : List W64} (he : NS e f) (he3 : NS e3 f3) {P N : EcA α} {P' N' : EcA β}
    (hP : RelA RW P P') (hN : RelA RW N N') : ∀ (i : Nat), i < 256 → ∀ (T : EcJ α) (T' : EcJ β), RelJ RO T T' →
      RelO (RelJ RO) (mulALoop0 F e e3 P N i T) (X64.Sm9.mulALoop0 G f f3 P' N' i T')
  | 0, _, T, T', hT => .some hT
  | i + 1, hi, T, T', hT => by
    unfold mulALoop0 X64.Sm9.mulALoop0 mulAStep0 X64.Sm9.mulAStep0
    have hd := ws_dbl W hT
    revert hd
    generalize ecJDbl0 F T = t
    generalize ecJDbl0 G T' = t'
    intro hd
    cases hd with
    | none => exact .none
    | some hd =>
      rw [ns_bitTest he hi, ns_bitTest he3 hi]
      have ih := ws_mulLoop he he3 hP hN i (by omega)
      have h1 := ws_addA W hd hP
      have h2 := ws_addA W hd hN
      generalize X64.u256BitTest f (i + 1) = b1
      generalize X64.u256BitTest f3 (i + 1) = b2
      cases b1 with
      | none => exact .none
      | some b1 =>
        cases b2 with
        | none => exact .none
        | some b2 =>
          dsimp only
          by_cases c1 : b2 = true ∧ b1 = false
          · simp only [if_pos c1]
            exact ih _ _ h1
          · by_cases c2 : b2 = false ∧ b1 = true
            · simp only [if_neg c1, if_pos c2]
              exact ih _ _ h2
            · simp only [if_neg c1, if_neg c2]
              exact ih _ _ hd

theorem ws_mulA {n : List W32} {n' : List W64} (hn : NS n n') {k : List Byte} (hk : k.length = 32) {A : EcA α} {A' : EcA β}
    (hA : RelA RO A A') : RelO (RelJ RO) (ecJMulA0 F n k A) (X64.Sm9.ecJMulA0 G n' k A') := by
  have h0 := ns_fromBytes hk
  have hAw := relA_wk W hA
  have hneg := ws_neg W hAw
  unfold ecJMulA0 X64.Sm9.ecJMulA0
  have h1 : NS (if u256Cmp (u256FromBytes k) n ≥ 0 then (u256SubBorrow (u256FromBytes k) n).1
      else u256FromBytes k) (if X64.u256Cmp (X64.u256FromBytes k) n' ≥ 0 then
        (X64.u256SubBorrow (X64.u256FromBytes k) n').1 else X64.u256FromBytes k) := by
    rw [ns_cmp h0 hn]
    split
    · exact ns_sub h0 hn
    · exact h0
  dsimp only
  revert h1
  generalize (if u256Cmp (u256FromBytes k) n ≥ 0 then (u256SubBorrow (u256FromBytes k) n).1
      else u256FromBytes k) = e
  generalize (if X64.u256Cmp (X64.u256FromBytes k) n' ≥ 0 then
        (X64.u256SubBorrow (X64.u256FromBytes k) n').1 else X64.u256FromBytes k) = f
  intro h1
  rw [ns_equalZero h1]
  obtain ⟨h3, hc⟩ := ns_tpl h1
  rw [hc]
  have hT := ws_fromA W hA
  by_cases hz : X64.u256EqualZero f = true
  · simp only [if_pos hz]
    exact .some (ws_inf W)
  · simp only [if_neg hz]
    by_cases c1 : (X64.u256TplCarry f).2 = 1
    · rw [if_pos c1, if_pos c1]
      exact ws_mulLoop W h1 h3 hAw hneg 255 (by omega) _ _ hT
    · rw [if_neg c1, if_neg c1]
      by_cases c2 : (X64.u256TplCarry f).2 = 2
      · rw [if_pos c2, if_pos c2]
        have hd := ws_dbl W hT
        revert hd
        generalize ecJDbl0 F _ = t
        generalize ecJDbl0 G _ = t'
        intro hd
        cases hd with
        | none => exact .none
        | some hd => exact ws_mulLoop W h1 h3 hAw hneg 255 (by omega) _ _ hd
      · rw [if_neg c2, if_neg c2, ← topBit_sim h3 255 (by omega)]
        cases ht : topBit (u256TplCarry e).1 255 with
        | none => exact .none
        | some t =>
          have := topBit_le 255 t ht
          exact ws_mulLoop W h1 h3 hAw hneg (t - 1) (by omega) _ _ hT

end

/-! ## Octets and the constants -/

theorem s9n_ns : NS Sm9.nLimbs X64.Sm9.nLimbs := ⟨by decide +kernel, by decide +kernel, by decide +kernel⟩
theorem s9nSub1_ns : NS Sm9.nSub1 X64.Sm9.nSub1 := ⟨by decide +kernel, by decide +kernel, by decide +kernel⟩

theorem rtb {a : List W32} {b : List W64} (h : RO a b) : Sm9.fpToBytes a = X64.Sm9.fpToBytes b :=
  rs_toBytes Sm9.fpCtx_wf X64.sm9FpCtx_wf (ro_rs h)
theorem r2tb {a : Sm9.F2} {b : X64.Sm9.F2} (h : R2 RO a b) : Sm9.fp2ToBytes a = X64.Sm9.fp2ToBytes b := by
  unfold Sm9.fp2ToBytes X64.Sm9.fp2ToBytes
  rw [rtb h.c0, rtb h.c1]
theorem r4tb {a : Sm9.F4} {b : X64.Sm9.F4} (h : R4 RO a b) : Sm9.fp4ToBytes a = X64.Sm9.fp4ToBytes b := by
  unfold Sm9.fp4ToBytes X64.Sm9.fp4ToBytes
  rw [r2tb h.c0, r2tb h.c1]
theorem r12tb {a : Sm9.F12} {b : X64.Sm9.F12} (h : R12 RO a b) : Sm9.fp12ToBytes a = X64.Sm9.fp12ToBytes b := by
  unfold Sm9.fp12ToBytes X64.Sm9.fp12ToBytes
  rw [r4tb h.c0, r4tb h.c1, r4tb h.c2]

theorem r2fb {bs : List Byte} (h : bs.length = 64) : R2 RO (Sm9.fp2FromBytes bs) (X64.Sm9.fp2FromBytes bs) := by
  have h1 : ((bs.drop 32).take 32).length = 32 := by rw [List.length_take, List.length_drop]; omega
  have h2 : (bs.take 32).length = 32 := by rw [List.length_take]; omega
  exact r2_mk (rfb h1) (rfb h2)

theorem s9gx_len : Sm9.sm9CurveGx.length = 32 := by decide +kernel
theorem s9gy_len : Sm9.sm9CurveGy.length = 32 := by decide +kernel
theorem s9b_len : Sm9.sm9CurveB.length = 32 := by decide +kernel
theorem s9n_len : Sm9.sm9CurveN.length = 32 := by decide +kernel
theorem s9gx2_len : Sm9.sm9Curve2Gx.length = 64 := by decide +kernel
theorem s9gy2_len : Sm9.sm9Curve2Gy.length = 64 := by decide +kernel
theorem c1835_len : Sm9.cL1835.length = 32 := by decide +kernel
theorem c1850_len : Sm9.cL1850.length = 32 := by decide +kernel

theorem p1_sim : RelA RO Sm9.p1 X64.Sm9.p1 := relA_mk (rfb s9gx_len) (rfb s9gy_len)
theorem p2_sim : RelA (R2 RO) Sm9.p2 X64.Sm9.p2 := relA_mk (r2fb s9gx2_len) (r2fb s9gy2_len)

theorem s9MulA_sim {k : List Byte} (hk : k.length = 32) {A : Sm9.A} {A' : X64.Sm9.A} (hA : RelA RO A A') :
    RelO (RelJ RO) (Sm9.jMulA k A) (X64.Sm9.jMulA k A') := ws_mulA sm9_ws s9n_ns hk hA
theorem s9Mul2A_sim {k : List Byte} (hk : k.length = 32) {A : Sm9.A2} {A' : X64.Sm9.A2} (hA : RelA (R2 RO) A A') :
    RelO (RelJ (R2 RO)) (Sm9.j2MulA k A) (X64.Sm9.j2MulA k A') := ws_mulA sm9_ws.two s9n_ns hk hA
theorem s9MulG_sim {k : List Byte} (hk : k.length = 32) : RelO (RelJ RO) (Sm9.jMulG k) (X64.Sm9.jMulG k) :=
  s9MulA_sim hk p1_sim
theorem s9Mul2G_sim {k : List Byte} (hk : k.length = 32) : RelO (RelJ (R2 RO)) (Sm9.j2MulG k) (X64.Sm9.j2MulG k) :=
  s9Mul2A_sim hk p2_sim

/-! ## The Miller loop -/

section
open Sm9 (fp fp2)

theorem sparse_sim {a b c : Sm9.F2} {a' b' c' : X64.Sm9.F2} (ha : R2 RO a a') (hb : R2 RW b b') (hc : R2 RO c c') :
    R12 RW (Sm9.sparse a b c) (X64.Sm9.sparse a' b' c') := by
  have z := sm9_ws.wk2 sm9_ws.two.zero
  exact ⟨⟨sm9_ws.wk2 ha, hb⟩, ⟨z, z⟩, ⟨sm9_ws.wk2 hc, z⟩⟩

theorem tangent_sim {T : Sm9.J2} {T' : X64.Sm9.J2} (hT : RelJ (R2 RO) T T') {P : Sm9.A} {P' : X64.Sm9.A}
    (hP : RelA RW P P') : RelO (R12 RW) (Sm9.gTangent T P) (X64.Sm9.gTangent T' P') := by
  have W := sm9_ws.two
  have t0 := W.sqrO hT.z
  have b1 := W.dbl (W.mulO (W.mulO t0 hT.z) hT.y)
  have a1 := W.neg (W.wk (ws2_mulFp sm9_ws (W.wk b1) hP.y))
  have t1 := W.sqrO hT.x
  have a4 := W.tpl (ws2_mulFp sm9_ws (W.wk (W.mulO t0 t1)) hP.x)
  have t1' := W.tpl (W.mulO t1 hT.x)
  have y2 := W.dbl (W.sqrO hT.y)
  unfold Sm9.gTangent X64.Sm9.gTangent
  dsimp only
  revert a4 t1'
  generalize Sm9.fp2.tpl (fp2MulFp Sm9.fp _ _) = x4
  generalize X64.Sm9.fp2.tpl (fp2MulFp X64.Sm9.fp _ _) = x4'
  generalize Sm9.fp2.tpl (Sm9.fp2.mul _ _) = x5
  generalize X64.Sm9.fp2.tpl (X64.Sm9.fp2.mul _ _) = x5'
  intro a4 t1'
  cases a4 with
  | none => exact .none
  | some a4 =>
    cases t1' with
    | none => exact .none
    | some t1' => exact .some (sparse_sim (W.sub y2 t1') a1 a4)

theorem lineJ_sim {T Q : Sm9.J2} {T' Q' : X64.Sm9.J2} (hT : RelJ (R2 RO) T T') (qx : R2 RW Q.x Q'.x) (qy : R2 RW Q.y Q'.y)
    (qz : R2 RO Q.z Q'.z) {P : Sm9.A} {P' : X64.Sm9.A} (hP : RelA RW P P') :
    R12 RW (Sm9.gLineJ T Q P) (X64.Sm9.gLineJ T' Q' P') := by
  have W := sm9_ws.two
  have t0 := W.sqrO qz
  have t1 := W.mulO t0 hT.x
  have t0 := W.mulO t0 qz
  have t2 := W.sqrO hT.z
  have t3 := W.mul (W.wk t2) qx
  have t2 := W.mulO t2 hT.z
  have t2 := W.mul (W.wk t2) qy
  have t1 := W.mulO (W.mulO (W.sub t1 t3) hT.z) qz
  have b1 := W.mulO t1 t0
  have t1 := W.mul (W.wk t1) qy
  have t3 := W.sub (W.mulO t0 hT.y) t2
  have a4 := ws2_mulFp sm9_ws (W.wk (W.mulO t0 t3)) hP.x
  have t3 := W.mulO (W.mul (W.wk t3) qx) qz
  exact sparse_sim (W.sub t1 t3) (W.neg (W.wk (ws2_mulFp sm9_ws (W.wk b1) hP.y))) a4

theorem lineA_sim {T : Sm9.J2} {T' : X64.Sm9.J2} {Q : Sm9.A2} {Q' : X64.Sm9.A2} (hT : RelJ (R2 RO) T T')
    (hQ : RelA (R2 RW) Q Q') {P : Sm9.A} {P' : X64.Sm9.A} (hP : RelA RW P P') :
    R12 RW (Sm9.gLineA T Q P) (X64.Sm9.gLineA T' Q' P') := by
  have W := sm9_ws.two
  have t2 := W.sqrO hT.z
  have t3 := W.mul (W.wk t2) hQ.x
  have t2 := W.mul (W.wk (W.mulO t2 hT.z)) hQ.y
  have b1 := W.mulO (W.sub hT.x t3) hT.z
  have t1 := W.mul (W.wk b1) hQ.y
  have t3 := W.sub hT.y t2
  have a4 := ws2_mulFp sm9_ws (W.wk t3) hP.x
  have t3 := W.mul (W.wk t3) hQ.x
  exact sparse_sim (W.sub t1 t3) (W.neg (W.wk (ws2_mulFp sm9_ws (W.wk b1) hP.y))) a4

/-- The two accumulators of the loop. -/
structure RelM (a : Sm9.F12 × Sm9.J2) (b : X64.Sm9.F12 × X64.Sm9.J2) : Prop where
  f : R12 RO a.1 b.1
  T : RelJ (R2 RO) a.2 b.2

variable {P : Sm9.A} {P' : X64.Sm9.A} (hP : RelA RW P P') {Q N : Sm9.A2} {Q' N' : X64.Sm9.A2} (hQ : RelA (R2 RW) Q Q')
  (hN : RelA (R2 RW) N N')
include hP hQ hN

theorem step_sim (c : Char) {f : Sm9.F12} {f' : X64.Sm9.F12} (hf : R12 RO f f') {T : Sm9.J2} {T' : X64.Sm9.J2}
    (hT : RelJ (R2 RO) T T') : RelO RelM (Sm9.millerStep P Q N c f T) (X64.Sm9.millerStep P' Q' N' c f' T') := by
  have W := sm9_ws.two
  have hs := ws12_sqr sm9_ws (sm9_ws.wk12 hf)
  have ht := tangent_sim hT hP
  have hd : RelO (RelJ (R2 RO)) (Sm9.j2Dbl T) (X64.Sm9.j2Dbl T') := ws_dbl W hT
  unfold Sm9.millerStep X64.Sm9.millerStep
  revert ht hd
  generalize Sm9.gTangent T P = x
  generalize X64.Sm9.gTangent T' P' = x'
  generalize Sm9.j2Dbl T = y
  generalize X64.Sm9.j2Dbl T' = y'
  intro ht hd
  cases ht with
  | none => exact .none
  | some ht =>
    cases hd with
    | none => exact .none
    | some hd =>
      have hm := ws12_mul sm9_ws (sm9_ws.wk12 hs) ht
      dsimp only [Option.bind_eq_bind, Option.bind_some]
      split
      · exact .some ⟨ws12_mul sm9_ws (sm9_ws.wk12 hm) (lineA_sim hd hQ hP), ws_addA W hd hQ⟩
      · split
        · exact .some ⟨ws12_mul sm9_ws (sm9_ws.wk12 hm) (lineA_sim hd hN hP), ws_addA W hd hN⟩
        · exact .some ⟨hm, hd⟩

theorem loop_sim : ∀ (cs : List Char) {f : Sm9.F12} {f' : X64.Sm9.F12} (_ : R12 RO f f') {T : Sm9.J2} {T' : X64.Sm9.J2}
    (_ : RelJ (R2 RO) T T'), RelO RelM (Sm9.millerLoop P Q N cs f T) (X64.Sm9.millerLoop P' Q' N' cs f' T')
  | [], _, _, hf, _, _, hT => .some ⟨hf, hT⟩
  | c :: cs, f, f', hf, T, T', hT => by
    unfold Sm9.millerLoop X64.Sm9.millerLoop
    have hs := step_sim hP hQ hN c hf hT
    revert hs
    generalize Sm9.millerStep P Q N c f T = x
    generalize X64.Sm9.millerStep P' Q' N' c f' T' = x'
    intro hs
    cases hs with
    | none => exact .none
    | some hs => exact loop_sim cs hs.f hs.T

end

theorem miller_sim {P : Sm9.A} {P' : X64.Sm9.A} (hP : RelA RO P P') {Q : Sm9.A2} {Q' : X64.Sm9.A2}
    (hQ : RelA (R2 RO) Q Q') : RelO (R12 RO) (Sm9.miller P Q) (X64.Sm9.miller P' Q') := by
  have W := sm9_ws.two
  have hPw := relA_wk sm9_ws hP
  have hQw := relA_wk W hQ
  have hN := ws_neg W hQw
  have hl := loop_sim hPw hQw hN Sm9.nafA (ws12_one sm9_ws) (ws_fromA W hQ)
  unfold Sm9.miller X64.Sm9.miller
  dsimp only
  revert hl
  generalize Sm9.millerLoop _ _ _ _ _ _ = x
  generalize X64.Sm9.millerLoop _ _ _ _ _ _ = x'
  intro hl
  cases hl with
  | none => exact .none
  | @some a b hl =>
    obtain ⟨f, T⟩ := a
    obtain ⟨f', T'⟩ := b
    obtain ⟨hf, hT⟩ := hl
    dsimp only [Option.bind_eq_bind, Option.bind_some] at hf hT ⊢
    have z1 : R2 RO (Sm9.j2FrobA Q).z (X64.Sm9.j2FrobA Q').z := r2_mk (rfb c1835_len) sm9_ws.zero
    have z2 : R2 RO (Sm9.j2Frob2A Q).z (X64.Sm9.j2Frob2A Q').z := r2_mk (rfb c1850_len) sm9_ws.zero
    have x1 : R2 RW (Sm9.j2FrobA Q).x (X64.Sm9.j2FrobA Q').x := r2Conj hQw.x
    have y1 : R2 RW (Sm9.j2FrobA Q).y (X64.Sm9.j2FrobA Q').y := r2Conj hQw.y
    have hm := ws12_mul sm9_ws (sm9_ws.wk12 hf) (lineJ_sim hT x1 y1 z1 hPw)
    have ha : RelO (RelJ (R2 RO)) (Sm9.j2Add T (Sm9.j2FrobA Q)) (X64.Sm9.j2Add T' (X64.Sm9.j2FrobA Q')) :=
      ws_add W hT x1 y1 z1
    revert ha
    generalize Sm9.j2Add T _ = y
    generalize X64.Sm9.j2Add T' _ = y'
    intro ha
    cases ha with
    | none => exact .none
    | some ha =>
      have y2 : R2 RW (ecJNeg Sm9.fp2 (Sm9.j2Frob2A Q)).y (ecJNeg X64.Sm9.fp2 (X64.Sm9.j2Frob2A Q')).y := W.neg hQw.y
      have hl := lineJ_sim (Q := ecJNeg Sm9.fp2 (Sm9.j2Frob2A Q)) (Q' := ecJNeg X64.Sm9.fp2 (X64.Sm9.j2Frob2A Q'))
        ha hQw.x y2 z2 hPw
      exact .some (ws12_mul sm9_ws (sm9_ws.wk12 hm) hl)

/-! ## The pairing -/

theorem x_affine {P : Sm9.A} {P' : X64.Sm9.A} (h : RelA RO P P') {Q : Sm9Point} : Sm9IsAffine P Q ↔ X64.Sm9IsAffine P' Q := by
  unfold Sm9IsAffine X64.Sm9IsAffine IsAffineOf
  rw [h.x.eq, h.y.eq]
  exact and_congr (iff_of_true h.x.l h.x.r) (and_congr (iff_of_true h.y.l h.y.r) Iff.rfl)

def loA (P : X64.Sm9.A) : Sm9.A := ⟨lo P.x, lo P.y⟩
def loA2 (P : X64.Sm9.A2) : Sm9.A2 := ⟨lo2 P.x, lo2 P.y⟩

theorem loA_sim {P : X64.Sm9.A} (hx : X64.Reduced sm9p P.x) (hy : X64.Reduced sm9p P.y) : RelA RO (loA P) P :=
  ⟨lo_ro hx, lo_ro hy⟩
theorem loA2_sim {P : X64.Sm9.A2} (hx : All2 (X64.Reduced sm9p) P.x) (hy : All2 (X64.Reduced sm9p) P.y) :
    RelA (R2 RO) (loA2 P) P := ⟨lo2_ro hx, lo2_ro hy⟩


section
variable {K : Type} [Field K] [Algebra (ZMod sm9p) K] [DecidableEq K] {w : K} (hw : w ^ 12 = -2)
include hw

/-- For all reduced coordinates the pairing function returns the final power of the value of the Miller loop. -/
theorem x12Pairing {P : Sm9.A} {P' : X64.Sm9.A} (hP : RelA RO P P') {Q : Sm9.A2} {Q' : X64.Sm9.A2}
    (hQ : RelA (R2 RO) Q Q') : ∃ f, Sm9.miller P Q = some f ∧ All12 (Reduced sm9p) f ∧
      X64.PairsTo w P' Q' (fp12Den w f ^ ((sm9p ^ 12 - 1) / sm9n)) := by
  obtain ⟨f, f1, f2⟩ := miller_total hw hP.x.l hP.y.l (r2_l hQ.x) (r2_l hQ.y)
  refine ⟨f, f1, f2, ?_⟩
  have hm := miller_sim hP hQ
  rw [f1] at hm
  obtain ⟨f', e, hm⟩ := relO_some hm
  obtain ⟨r, r1, r2⟩ := x12Final hw (x12_of hm (is_rfl f2))
  refine ⟨r, ?_, r2.1, r2.2⟩
  unfold X64.Sm9.pairing
  rw [e]
  dsimp only [Option.bind_eq_bind, Option.bind_some]
  exact r1

omit hw in
theorem x_affine2 {P : Sm9.A2} {P' : X64.Sm9.A2} (h : RelA (R2 RO) P P') {Q : Sm9Point2 w} :
    Sm9IsAffine2 w P Q ↔ X64.Sm9IsAffine2 w P' Q := by
  unfold Sm9IsAffine2 X64.Sm9IsAffine2 IsAffineOf
  rw [r2_den h.x, r2_den h.y]
  exact and_congr (iff_of_true (r2_l h.x) (r2_r h.x)) (and_congr (iff_of_true (r2_l h.y) (r2_r h.y)) Iff.rfl)

/-- **The pairing.** -/
theorem x_pair_gen {P : X64.Sm9.A} {A : X64.Sm9.A2} {a b : Nat} (a1 : 1 ≤ a) (a2 : a < sm9n)
    (hP : X64.Sm9IsAffine P (a • sm9G)) (hA : X64.Sm9IsAffine2 w A (b • sm9G2 hw)) :
    X64.PairsTo w P A (sm9g hw ^ (a * b)) := by
  have sP := loA_sim hP.1 hP.2.1
  have sA := loA2_sim hA.1 hA.2.1
  have hP' : IsAffineOf (Reduced sm9p) (montVal sm9p) (loA P) (a • gen1) := (x_affine sP).mpr hP
  have hA' : IsAffineOf (All2 (Reduced sm9p)) (fp2Den w) (loA2 A) (b • gen2 hw) := (x_affine2 sA).mpr hA
  obtain ⟨f, f1, f2, f3⟩ := miller_gen hw (b := b) a1 a2 hP' hA'
  obtain ⟨f', g1, g2, g3⟩ := x12Pairing hw sP sA
  rw [f1] at g1
  rw [← Option.some.inj g1] at g3
  rw [← f3]
  exact g3

end
end Verif
