import Verif.Proofs.NumberX64
import Verif.Spec.FieldProg
/-! Helper lemmas for C70: running field programs with either build. -/
namespace Verif
open Spec

theorem two_ne_zero_zmod {p : Nat} (hodd : p % 2 = 1) (hgt : 2 < p) : (2 : ZMod p) ≠ 0 := by
  have h : ((2 : Nat) : ZMod p) ≠ 0 := by
    rw [Ne, ZMod.natCast_eq_zero_iff]
    intro hd
    have := Nat.le_of_dvd (by omega) hd
    omega
  simpa using h

theorem eq_half {p : Nat} [Fact p.Prime] (h2 : (2 : ZMod p) ≠ 0) {x y : ZMod p} (h : 2 * x = y) :
    x = y * 2⁻¹ := by
  rw [← h, mul_comm (2 : ZMod p) x, mul_assoc, mul_inv_cancel₀ h2, mul_one]

theorem runCommon_spec {ctx : Mont256CTX} {p : Nat} [Fact p.Prime] (hbig : 2 ^ 255 < p) (h : IsMontCtx ctx p) (env : Nat → List Byte)
    (henv : ∀ i, (env i).length = 32) (e : FieldProg) (hneg : e.NegNonzero p env) :
    ∃ r, e.runCommon ctx env = some r ∧ Reduced p r ∧ montVal p r = e.denote p env := by
  have hpe := h.P.2
  subst hpe
  have h2 := two_ne_zero_zmod h.odd h.gt_two
  have hi : ∀ r, Canon ctx r ↔ Reduced (val ctx.P) r := canon_iff h
  simp only [← hi]
  induction e with
  | input i =>
    obtain ⟨l, v⟩ := u256FromBytes_spec (env i) (henv i)
    refine ⟨_, rfl, canon_toMont h.ok l, ?_⟩
    have hv := montVal_toMont h.ok l
    rw [v] at hv
    exact hv
  | one => exact ⟨_, rfl, canon_R h.ok, montVal_one h.ok⟩
  | add a b iha ihb =>
    obtain ⟨x, x1, x2, x3⟩ := iha hneg.1
    obtain ⟨y, y1, y2, y3⟩ := ihb hneg.2
    refine ⟨_, by simp only [FieldProg.runCommon, x1, y1]; rfl, (mont256Add_spec h.ok x2 y2).1, ?_⟩
    rw [montVal_add h.ok x2 y2, x3, y3]; rfl
  | sub a b iha ihb =>
    obtain ⟨x, x1, x2, x3⟩ := iha hneg.1
    obtain ⟨y, y1, y2, y3⟩ := ihb hneg.2
    refine ⟨_, by simp only [FieldProg.runCommon, x1, y1]; rfl, (mont256Sub_spec h.ok x2 y2).1, ?_⟩
    rw [montVal_sub h.ok x2 y2, x3, y3]; rfl
  | mul a b iha ihb =>
    obtain ⟨x, x1, x2, x3⟩ := iha hneg.1
    obtain ⟨y, y1, y2, y3⟩ := ihb hneg.2
    refine ⟨_, by simp only [FieldProg.runCommon, x1, y1]; rfl, (mont256Mul_canon h.ok x2.1 y2).1, ?_⟩
    rw [montVal_mul h.ok x2.1 y2, x3, y3]; rfl
  | sqr a iha =>
    obtain ⟨x, x1, x2, x3⟩ := iha hneg
    refine ⟨_, by simp only [FieldProg.runCommon, x1]; rfl, (montVal_sqr h.ok x2).1, ?_⟩
    rw [(montVal_sqr h.ok x2).2, x3]; rfl
  | dbl a iha =>
    obtain ⟨x, x1, x2, x3⟩ := iha hneg
    refine ⟨_, by simp only [FieldProg.runCommon, x1]; rfl, (mont256Dbl_spec h.ok x2).1, ?_⟩
    rw [montVal_dbl h.ok x2, x3]; rfl
  | tpl a iha =>
    obtain ⟨x, x1, x2, x3⟩ := iha hneg
    obtain ⟨y, y1, y2, y3⟩ := mont256Tpl_spec h.ok hbig x2
    refine ⟨y, by simp only [FieldProg.runCommon, x1]; exact y1, y2, ?_⟩
    show _ = 3 * FieldProg.denote _ env a
    rw [← x3]
    unfold montVal
    rw [y3, ZMod.natCast_mod, Nat.cast_mul, mul_assoc]; rfl
  | div2 a iha =>
    obtain ⟨x, x1, x2, x3⟩ := iha hneg
    refine ⟨_, by simp only [FieldProg.runCommon, x1]; rfl, (mont256Div2_spec h.ok x2).1, ?_⟩
    show _ = FieldProg.denote _ env a * 2⁻¹
    rw [← x3]
    exact eq_half h2 (montVal_div2 h.ok x2)
  | inv a iha =>
    obtain ⟨x, x1, x2, x3⟩ := iha hneg
    obtain ⟨y, y1, y2, y3⟩ := mont256Inv_spec h.ok (Fact.out : (val ctx.P).Prime) x2
    refine ⟨y, by simp only [FieldProg.runCommon, x1]; exact y1, y2, ?_⟩
    rw [y3, x3]; rfl
  | neg a iha =>
    obtain ⟨x, x1, x2, x3⟩ := iha hneg.1
    obtain ⟨n1, n2⟩ := mont256Neg_val h.ok x2
    have hx : val x ≠ 0 := by
      intro hz
      rw [← montVal_eq_zero h.ok x2, x3] at hz
      exact hneg.2 hz
    refine ⟨_, by simp only [FieldProg.runCommon, x1]; rfl, ⟨n1, by rw [n2]; have := x2.2; omega⟩, ?_⟩
    rw [montVal_neg h.ok x2, x3]; rfl

theorem runX64_spec {ctx : X64.Mont256CTX} {p : Nat} [Fact p.Prime] (h : Spec.X64.IsMontCtx ctx p) (env : Nat → List Byte)
    (henv : ∀ i, (env i).length = 32) (e : FieldProg) :
    ∃ r, e.runX64 ctx env = some r ∧ Spec.X64.Reduced p r ∧ montVal p r = e.denote p env := by
  have hpe := h.P.2
  subst hpe
  have h2 := two_ne_zero_zmod h.odd h.gt_two
  have hi : ∀ r, X64.Canon ctx r ↔ Spec.X64.Reduced (val ctx.P) r := X64.canon_iff h
  simp only [← hi]
  induction e with
  | input i =>
    obtain ⟨l, v⟩ := X64.u256FromBytes_spec (env i) (henv i)
    refine ⟨_, rfl, X64.canon_toMont h.ok l, ?_⟩
    have hv := X64.montVal_toMont h.ok l
    rw [v] at hv
    exact hv
  | one => exact ⟨_, rfl, X64.canon_R h.ok, X64.montVal_one h.ok⟩
  | add a b iha ihb =>
    obtain ⟨x, x1, x2, x3⟩ := iha
    obtain ⟨y, y1, y2, y3⟩ := ihb
    refine ⟨_, by simp only [FieldProg.runX64, x1, y1]; rfl, (X64.mont256Add_spec h.ok x2 y2).1, ?_⟩
    rw [X64.montVal_add h.ok x2 y2, x3, y3]; rfl
  | sub a b iha ihb =>
    obtain ⟨x, x1, x2, x3⟩ := iha
    obtain ⟨y, y1, y2, y3⟩ := ihb
    refine ⟨_, by simp only [FieldProg.runX64, x1, y1]; rfl, (X64.mont256Sub_spec h.ok x2 y2).1, ?_⟩
    rw [X64.montVal_sub h.ok x2 y2, x3, y3]; rfl
  | mul a b iha ihb =>
    obtain ⟨x, x1, x2, x3⟩ := iha
    obtain ⟨y, y1, y2, y3⟩ := ihb
    refine ⟨_, by simp only [FieldProg.runX64, x1, y1]; rfl, (X64.mont256Mul_canon h.ok x2.1 y2).1, ?_⟩
    rw [X64.montVal_mul h.ok x2.1 y2, x3, y3]; rfl
  | sqr a iha =>
    obtain ⟨x, x1, x2, x3⟩ := iha
    refine ⟨_, by simp only [FieldProg.runX64, x1]; rfl, (X64.montVal_sqr h.ok x2).1, ?_⟩
    rw [(X64.montVal_sqr h.ok x2).2, x3]; rfl
  | dbl a iha =>
    obtain ⟨x, x1, x2, x3⟩ := iha
    refine ⟨_, by simp only [FieldProg.runX64, x1]; rfl, (X64.mont256Dbl_spec h.ok x2).1, ?_⟩
    rw [X64.montVal_dbl h.ok x2, x3]; rfl
  | tpl a iha =>
    obtain ⟨x, x1, x2, x3⟩ := iha
    obtain ⟨y2, y3⟩ := X64.mont256Tpl_spec h.ok x2
    refine ⟨_, by simp only [FieldProg.runX64, x1]; rfl, y2, ?_⟩
    show _ = 3 * FieldProg.denote _ env a
    rw [← x3]
    unfold montVal
    rw [y3, ZMod.natCast_mod, Nat.cast_mul, mul_assoc]; rfl
  | div2 a iha =>
    obtain ⟨x, x1, x2, x3⟩ := iha
    refine ⟨_, by simp only [FieldProg.runX64, x1]; rfl, (X64.mont256Div2_spec h.ok x2).1, ?_⟩
    show _ = FieldProg.denote _ env a * 2⁻¹
    rw [← x3]
    exact eq_half h2 (X64.montVal_div2 h.ok x2)
  | inv a iha =>
    obtain ⟨x, x1, x2, x3⟩ := iha
    obtain ⟨y, y1, y2, y3⟩ := X64.mont256Inv_spec h.ok (Fact.out : (val ctx.P).Prime) x2
    refine ⟨y, by simp only [FieldProg.runX64, x1]; exact y1, y2, ?_⟩
    rw [y3, x3]; rfl
  | neg a iha =>
    obtain ⟨x, x1, x2, x3⟩ := iha
    refine ⟨_, by simp only [FieldProg.runX64, x1]; rfl, (X64.mont256Neg_val h.ok x2).1, ?_⟩
    rw [X64.montVal_neg h.ok x2, x3]; rfl

end Verif
