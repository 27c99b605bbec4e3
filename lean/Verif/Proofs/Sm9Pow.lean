import Verif.Proofs.Sm9Frob
/-! # `sm9_fp12_pow` and the final exponentiation -/
namespace Verif
open Spec

section
variable {K : Type} [Field K] [Algebra (ZMod sm9p) K] {w : K} (hw : w ^ 12 = -2)

local notation "ok" => All12 (Reduced sm9p)

include hw

theorem f12Table {a : Sm9.F12} {s : K} (ha : Is ok (fp12Den w) a s) :
    ∀ (n j : Nat) (prev : Sm9.F12), Is ok (fp12Den w) prev (s ^ j) →
    ∀ i, i < n → ∃ e, (fp12Table Sm9.fp a n prev)[i]? = some e ∧ Is ok (fp12Den w) e (s ^ (j + i))
  | 0, _, _, _, i, hi => absurd hi (by omega)
  | n + 1, j, prev, hp, i, hi => by
    unfold fp12Table
    cases i with
    | zero => exact ⟨prev, by simp, hp⟩
    | succ i =>
      obtain ⟨e, e1, e2⟩ := f12Table ha n (j + 1) (fp12Mul Sm9.fp prev a)
        ((f12Mul hw (f12w hw hp) (f12w hw ha)).val (pow_succ s j).symm) i (by omega)
      exact ⟨e, by simpa using e1, e2.val (by congr 1; omega)⟩

theorem f12Sel {a : Sm9.F12} {s : K} (ha : Is ok (fp12Den w) a s) (idx : Nat) (h1 : 1 ≤ idx) (h2 : idx < 16) :
    ∃ e, fp12Sel (fp12Table Sm9.fp a 14 (fp12Sqr Sm9.fp a)) a idx = some e ∧ Is ok (fp12Den w) e (s ^ idx) := by
  unfold fp12Sel
  split
  next e1 => exact ⟨a, rfl, ha.val (by rw [e1, pow_one])⟩
  next e1 =>
    rw [if_neg (by omega)]
    obtain ⟨e, a1, a2⟩ := f12Table hw ha 14 2 _ (f12Sqr hw (f12w hw ha)) (idx - 2) (by omega)
    exact ⟨e, a1, a2.val (by congr 1; omega)⟩

theorem f12MulSel {a t : Sm9.F12} {s v : K} (ha : Is ok (fp12Den w) a s) (ht : Is ok (fp12Den w) t v)
    (idx : Nat) (h2 : idx < 16) :
    ∃ e, fp12MulSel Sm9.fp (fp12Table Sm9.fp a 14 (fp12Sqr Sm9.fp a)) a t idx = some e ∧
      Is ok (fp12Den w) e (v * s ^ idx) := by
  unfold fp12MulSel
  split
  next hne =>
    obtain ⟨e, a1, a2⟩ := f12Sel hw ha idx (by omega) h2
    exact ⟨fp12Mul Sm9.fp t e, by rw [a1]; rfl, f12Mul hw (f12w hw ht) (f12w hw a2)⟩
  next hz =>
    have : idx = 0 := by simpa using hz
    exact ⟨t, rfl, ht.val (by rw [this]; simp)⟩

theorem f12Sqr4 {t : Sm9.F12} {v : K} (ht : Is ok (fp12Den w) t v) :
    Is ok (fp12Den w) (fp12Sqr4 Sm9.fp t) (v ^ 16) := by
  have s := fun {x : Sm9.F12} {y : K} (h : Is ok (fp12Den w) x y) => f12Sqr hw (f12w hw h)
  refine (s (s (s (s ht)))).val ?_
  ring

theorem f12PowLoop {a : Sm9.F12} {s : K} (ha : Is ok (fp12Den w) a s) :
    ∀ (es : List Byte) (t : Sm9.F12) (E : Nat), Is ok (fp12Den w) t (s ^ E) →
    ∃ r, fp12PowLoop Sm9.fp (fp12Table Sm9.fp a 14 (fp12Sqr Sm9.fp a)) a es t = some r ∧
      Is ok (fp12Den w) r (s ^ (E * 256 ^ es.length + beVal es))
  | [], t, E, ht => ⟨t, rfl, ht.val (by simp [beVal])⟩
  | e :: es, t, E, ht => by
    obtain ⟨n1, n2, n3, _⟩ := nibbles e
    obtain ⟨t1, a1, a2⟩ := f12MulSel hw ha (f12Sqr4 hw ht) _ n1
    obtain ⟨t2, b1, b2⟩ := f12MulSel hw ha (f12Sqr4 hw a2) _ n2
    obtain ⟨r, r1, r2⟩ := f12PowLoop ha es t2 (E * 256 + e.toNat) (b2.val (by
      rw [← n3]
      generalize ((e >>> 4) &&& 0xF#8).toNat = p
      generalize (e &&& 0xF#8).toNat = q
      rw [mul_pow, ← pow_mul, ← pow_mul, ← pow_mul, ← pow_add, ← pow_add]
      rw [show E * (16 * 16) + p * 16 + q = E * 256 + (p * 16 + q) by ring]))
    refine ⟨r, ?_, r2.val ?_⟩
    · unfold fp12PowLoop
      rw [a1]
      simp only [Option.bind_eq_bind, Option.bind_some]
      rw [b1]
      simpa using r1
    · congr 1
      have : beVal (e :: es) = e.toNat * 256^es.length + beVal es := by
        have := beVal_append [e] es
        simpa [beVal] using this
      rw [this, List.length_cons, pow_succ]; ring

theorem f12PowFirst {a : Sm9.F12} {s : K} (ha : Is ok (fp12Den w) a s) (x : Byte) (hx0 : x ≠ 0) :
    ∃ t, (if x > 0xF#8 then do
            let t ← fp12Sel (fp12Table Sm9.fp a 14 (fp12Sqr Sm9.fp a)) a (((x >>> 4) &&& 0xF#8).toNat)
            fp12MulSel Sm9.fp (fp12Table Sm9.fp a 14 (fp12Sqr Sm9.fp a)) a (fp12Sqr4 Sm9.fp t) ((x &&& 0xF#8).toNat)
          else fp12Sel (fp12Table Sm9.fp a 14 (fp12Sqr Sm9.fp a)) a ((x &&& 0xF#8).toNat)) = some t ∧
          Is ok (fp12Den w) t (s ^ x.toNat) := by
  obtain ⟨n1, n2, n3, n4⟩ := nibbles x
  have hx0 : x.toNat ≠ 0 := fun h => hx0 (BitVec.eq_of_toNat_eq (by simpa using h))
  split
  next hgt =>
    have hg : 15 < x.toNat := by simpa [BitVec.lt_def] using hgt
    obtain ⟨t, a1, a2⟩ := f12Sel hw ha _ (by omega : 1 ≤ ((x >>> 4) &&& 0xF#8).toNat) n1
    obtain ⟨t2, b1, b2⟩ := f12MulSel hw ha (f12Sqr4 hw a2) _ n2
    refine ⟨t2, by rw [a1]; simpa using b1, b2.val ?_⟩
    rw [← n3, ← pow_mul, ← pow_add]
  next hgt =>
    have hg : ¬ 15 < x.toNat := by simpa [BitVec.lt_def] using hgt
    obtain ⟨t, a1, a2⟩ := f12Sel hw ha _ (by omega : 1 ≤ (x &&& 0xF#8).toNat) n2
    exact ⟨t, a1, a2.val (by congr 1; omega)⟩

/-- The shape of an exponent: zeros, then a non-zero octet. -/
theorem f12Pow_shape {a : Sm9.F12} {s : K} (ha : Is ok (fp12Den w) a s) (hs : s ≠ 0) (i : Nat) (x : Byte)
    (tl : List Byte) (hx0 : x ≠ 0) :
    ∃ r, fp12Pow Sm9.fp a (List.replicate i 0 ++ x :: tl) = some r ∧
      Is ok (fp12Den w) r (s ^ (x.toNat * 256 ^ (tl.take (31 - i)).length + beVal (tl.take (31 - i)))) := by
  obtain ⟨t, f1, f2⟩ := f12PowFirst hw ha x hx0
  obtain ⟨r, r1, r2⟩ := f12PowLoop hw ha (tl.take (31 - i)) t x.toNat f2
  refine ⟨r, ?_, r2⟩
  unfold fp12Pow
  rw [if_neg (by rw [f12IsZero hw ha.1, ha.2]; exact hs)]
  have htw : ((List.replicate i (0 : Byte) ++ x :: tl).takeWhile (· == 0)).length = i := by
    rw [List.takeWhile_append_of_pos (by intro b hb; simpa using (List.eq_of_mem_replicate hb)),
      List.takeWhile_cons_of_neg (by simpa using hx0)]
    simp
  have hget : (List.replicate i (0 : Byte) ++ x :: tl)[i]? = some x := by
    rw [List.getElem?_append_right (by simp)]; simp
  have htl : ((List.replicate i (0 : Byte) ++ x :: tl).take 32).drop (i + 1) = tl.take (31 - i) := by
    rw [List.drop_take, List.drop_append]
    simp
  simp only [htw, hget, htl]
  simp only [Option.bind_eq_bind] at f1 ⊢
  split at f1
  next hgt =>
    obtain ⟨u, u1, u2⟩ := Option.bind_eq_some_iff.mp f1
    rw [if_pos hgt, u1, Option.bind_some, u2, Option.bind_some]
    exact r1
  next hgt =>
    rw [if_neg hgt, f1, Option.bind_some]
    exact r1

omit hw in
theorem zeros_shape : ∀ (e : List Byte), (∃ n, e = List.replicate n 0) ∨
    ∃ i x tl, x ≠ 0 ∧ e = List.replicate i 0 ++ x :: tl
  | [] => Or.inl ⟨0, rfl⟩
  | b :: bs => by
    by_cases hb : b = 0
    · subst hb
      rcases zeros_shape bs with ⟨n, rfl⟩ | ⟨i, x, tl, h1, rfl⟩
      · exact Or.inl ⟨n + 1, rfl⟩
      · exact Or.inr ⟨i + 1, x, tl, h1, rfl⟩
    · exact Or.inr ⟨0, b, bs, hb, rfl⟩

omit hw in
theorem beVal_zeros_app (n : Nat) (l : List Byte) : beVal (List.replicate n 0 ++ l) = beVal l := by
  induction n with
  | zero => rfl
  | succ n ih =>
    rw [List.replicate_succ, List.cons_append, ← List.singleton_append, beVal_append, ih,
      show beVal [(0 : Byte)] = 0 from rfl, Nat.zero_mul, Nat.zero_add]

theorem f12Pow {a : Sm9.F12} {s : K} (ha : Is ok (fp12Den w) a s) (e : List Byte) (he : beVal (e.take 32) ≠ 0) :
    ∃ r, fp12Pow Sm9.fp a e = some r ∧ Is ok (fp12Den w) r (s ^ beVal (e.take 32)) := by
  by_cases hs : s = 0
  · refine ⟨fp12Zero Sm9.fp, ?_, (f12Zero hw).val (by rw [hs, zero_pow he])⟩
    unfold fp12Pow
    rw [if_pos ((f12IsZero hw ha.1).mpr (by rw [ha.2, hs]))]
  · rcases zeros_shape e with ⟨n, rfl⟩ | ⟨i, x, tl, h1, rfl⟩
    · exfalso
      apply he
      rw [List.take_replicate]
      have := beVal_zeros_app (min 32 n) []
      simpa [beVal] using this
    · have hi : i < 32 := by
        by_contra hc
        apply he
        rw [List.take_append_of_le_length (by simp; omega), List.take_replicate]
        have := beVal_zeros_app (min 32 i) []
        simpa [beVal] using this
      obtain ⟨r, r1, r2⟩ := f12Pow_shape hw ha hs i x tl h1
      refine ⟨r, r1, r2.val ?_⟩
      congr 1
      rw [List.take_append, List.take_of_length_le (l := List.replicate i (0 : Byte)) (by simp; omega), beVal_zeros_app, List.length_replicate,
        show 32 - i = (31 - i) + 1 by omega, List.take_succ_cons]
      have := beVal_append [x] (tl.take (31 - i))
      simpa [beVal] using this.symm

theorem f12Pow_oob {a : Sm9.F12} {s : K} (ha : Is ok (fp12Den w) a s) (hs : s ≠ 0) (n : Nat) :
    fp12Pow Sm9.fp a (List.replicate n 0) = none := by
  unfold fp12Pow
  rw [if_neg (by rw [f12IsZero hw ha.1, ha.2]; exact hs)]
  simp

end
end Verif
