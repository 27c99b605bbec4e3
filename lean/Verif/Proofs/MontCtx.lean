import Verif.Proofs.Number2
import Verif.Spec.MontCtx
import Verif.Model.Params
import Verif.Spec.Curves
/-! The library's contexts are well formed; `IsMontCtx` implies the helper invariant `MontOk`. -/
namespace Verif
open Spec

theorem beVal_snoc (bs : List Byte) (b : Byte) : beVal (bs ++ [b]) = beVal bs * 256 + b.toNat := by
  rw [beVal_append]; simp [beVal]

theorem beVal_cons (b : Byte) (bs : List Byte) : beVal (b :: bs) = b.toNat * 256 ^ bs.length + beVal bs := by
  have := beVal_append [b] bs
  simpa [beVal] using this

theorem beVal_inj : ∀ (a b : List Byte), a.length = b.length → beVal a = beVal b → a = b
  | [], [], _, _ => rfl
  | x :: xs, y :: ys, h, e => by
    have hl : xs.length = ys.length := by simpa using h
    rw [beVal_cons, beVal_cons, hl] at e
    have h1 := beVal_lt xs
    have h2 := beVal_lt ys
    rw [hl] at h1
    have hpos : 0 < 256 ^ ys.length := by positivity
    generalize 256 ^ ys.length = K at *
    have hx : x.toNat = y.toNat := by
      have e1 : (x.toNat * K + beVal xs) / K = x.toNat := by
        rw [Nat.mul_comm, Nat.mul_add_div hpos, Nat.div_eq_of_lt h1]; simp
      have e2 : (y.toNat * K + beVal ys) / K = y.toNat := by
        rw [Nat.mul_comm, Nat.mul_add_div hpos, Nat.div_eq_of_lt h2]; simp
      rw [← e1, e, e2]
    rw [hx] at e
    rw [BitVec.eq_of_toNat_eq hx, beVal_inj xs ys hl (by omega)]

theorem toBE_len (n x : Nat) : (toBE n x).length = n := by
  induction n generalizing x with
  | zero => rfl
  | succ n ih => simp [toBE, ih]

theorem beVal_toBE (n x : Nat) : beVal (toBE n x) = x % 256 ^ n := by
  induction n generalizing x with
  | zero => simp [toBE, beVal, Nat.mod_one]
  | succ n ih =>
    rw [toBE, beVal_snoc, ih, BitVec.toNat_ofNat, show 256 ^ (n + 1) = 256 * 256 ^ n by ring, Nat.mod_mul]
    omega

theorem toBE_beVal (bs : List Byte) : toBE bs.length (beVal bs) = bs := by
  apply beVal_inj _ _ (toBE_len _ _)
  rw [beVal_toBE, Nat.mod_eq_of_lt (beVal_lt bs)]

theorem u256ToBytes_eq {a : List W32} (ha : a.length = 8) : u256ToBytes a = toBE 32 (val a) := by
  have h1 := toBE_beVal (u256ToBytes a)
  rw [u256ToBytes_spec, u256ToBytes_len, ha] at h1
  exact h1.symm

theorem _root_.Verif.Spec.IsMontCtx.ok {ctx : Mont256CTX} {p : Nat} (h : IsMontCtx ctx p) : MontOk ctx where
  P_len := h.P.1
  N_ok := by
    match hp : ctx.P, h.P.1 with
    | P0 :: rest, _ =>
      have hn := h.N_
      rw [hp] at hn
      have hv := h.P.2
      rw [hp, val_cons] at hv
      have hodd : P0.toNat % 2 = 1 := by have := h.odd; omega
      obtain ⟨N, n1, n2⟩ := montComputeN_spec P0 hodd
      simp only [List.head?_cons, Option.bind_some] at hn
      rw [n1] at hn
      rw [← Option.some.inj hn]
      exact nok_of_mul P0 rest N n2
  P_gt := by rw [h.P.2]; exact h.gt_two
  R_len := h.R.1
  R_val := by rw [h.P.2]; exact h.R.2
  RPow2_len := h.RPow2.1
  RPow2_val := by rw [h.P.2]; exact h.RPow2.2
  PSub2_len := h.PSub2.1
  PSub2_val := by rw [h.P.2]; exact h.PSub2.2

theorem canon_iff {ctx : Mont256CTX} {p : Nat} (h : IsMontCtx ctx p) (a : List W32) :
    Canon ctx a ↔ Reduced p a := by
  unfold Canon Reduced
  rw [h.P.2]

theorem Sm2.fpCtx_wf : IsMontCtx Sm2.fpCtx sm2p := by
  constructor <;> decide +kernel
theorem Sm2.fnCtx_wf : IsMontCtx Sm2.fnCtx sm2n := by
  constructor <;> decide +kernel
theorem Sm9.fpCtx_wf : IsMontCtx Sm9.fpCtx sm9p := by
  constructor <;> decide +kernel
theorem Sm9.fnCtx_wf : IsMontCtx Sm9.fnCtx sm9n := by
  constructor <;> decide +kernel

end Verif
