import Verif.Model.Mont
import Verif.Proofs.Limbs
/-! Helper lemmas for the Montgomery arithmetic. -/
namespace Verif
open Spec

theorem propCarry_spec : ∀ (l : List W32) (c : CInt), c.toNat ≤ 1 →
    val (propCarry l c).1 + 2^(32 * l.length) * (propCarry l c).2.toNat = val l + c.toNat ∧
    (propCarry l c).2.toNat ≤ 1 ∧ (propCarry l c).1.length = l.length
  | [], c, hc => by simp [propCarry, hc]
  | x :: xs, c, hc => by
    unfold propCarry
    split
    next h => subst h; simp
    next h =>
      obtain ⟨h1, h2⟩ := addCarry_spec x 0 c hc
      obtain ⟨h3, h4, h5⟩ := propCarry_spec xs (addCarry x 0 c).2 h2
      rw [w32_zero_toNat] at h1
      simp only [val_cons, List.length_cons]
      refine ⟨?_, h4, by rw [h5]⟩
      rw [Nat.mul_succ, pow_add]
      nlinarith

/-- The Montgomery constant: `N_ * P[0] = -1 mod 2^32`. -/
def NOk (P : List W32) (N_ : W32) : Prop := (N_.toNat * val P + 1) % 2^32 = 0

theorem redcRound_spec (P : List W32) (N_ : W32) (hP : P.length = 8) (hN : NOk P N_)
    (s : List W32) (hs : 9 ≤ s.length) :
    ∃ m, m < 2^32 ∧
    val s + m * val P = 2^32 * val (redcRound P N_ s).1 + 2^(32 * s.length) * (redcRound P N_ s).2.toNat ∧
    (redcRound P N_ s).2.toNat ≤ 1 ∧ (redcRound P N_ s).1.length + 1 = s.length := by
  match s, hs with
  | t0 :: rest, hs =>
    have hsplit : (t0 :: rest) = (t0 :: rest).take 8 ++ (t0 :: rest).drop 8 := (List.take_append_drop _ _).symm
    unfold redcRound
    simp only
    have hlow : ((t0 :: rest).take 8).length = 8 := by simp at hs ⊢; omega
    have hhead : ((t0 :: rest).take 8) = t0 :: rest.take 7 := by simp
    generalize hlo : (t0 :: rest).take 8 = lo at *
    generalize hhi : (t0 :: rest).drop 8 = hi at *
    have hll : (t0 :: rest).length = 8 + hi.length := by rw [hsplit]; simp [hlow]
    match hi, hhi with
    | [], _ => simp at hll hs; omega
    | t8 :: hi, hhi =>
      have hrow := addMulRow_spec lo P (t0 * N_) 0 (by omega)
      have hrl := addMulRow_len lo P (t0 * N_) 0 (by omega)
      rw [w32_zero_toNat, Nat.add_zero] at hrow
      simp only
      generalize addMulRow lo P (t0 * N_) 0 = rc at *
      obtain ⟨row, carry⟩ := rc
      simp only at hrow hrl ⊢
      match row, hrl with
      | r0 :: rt, hrl =>
        have hrt : rt.length = 7 := by simp at hrl; omega
        obtain ⟨a1, a2⟩ := addCarry_spec t8 carry 0 (by decide)
        obtain ⟨p1, p2, p3⟩ := propCarry_spec hi (addCarry t8 carry 0).2 a2
        simp only [List.tail_cons]
        refine ⟨(t0 * N_).toNat, (t0 * N_).isLt, ?_, p2, ?_⟩
        · have hr0 : r0.toNat = 0 := by
            have h1 : (val lo + val P * (t0 * N_).toNat) % 2^32 = 0 := by
              rw [hhead, val_cons, BitVec.toNat_mul]
              unfold NOk at hN
              have e : (t0.toNat + 2^32 * val (rest.take 7) + val P * ((t0.toNat * N_.toNat) % 2^32)) % 2^32
                  = (t0.toNat * (N_.toNat * val P + 1)) % 2^32 := by
                rw [Nat.add_right_comm, Nat.add_mul_mod_self_left]
                have : (t0.toNat + val P * (t0.toNat * N_.toNat % 2^32)) % 2^32
                    = (t0.toNat + val P * (t0.toNat * N_.toNat)) % 2^32 := by
                  exact Nat.ModEq.add_left _ (Nat.ModEq.mul_left _ (Nat.mod_modEq _ _))
                rw [this]
                congr 1; ring
              rw [e, Nat.mul_mod, hN]; simp
            rw [← hrow, val_cons] at h1
            have h2 : (2:Nat)^(32 * P.length) = 2^32 * 2^224 := by rw [hP]; norm_num
            rw [h2] at h1
            have := r0.isLt
            rw [Nat.mul_assoc] at h1
            omega
          rw [hsplit, val_append, hlow, val_cons, val_append, val_cons, hrt]
          rw [val_cons, hr0, hP] at hrow
          rw [w32_zero_toNat, Nat.add_zero] at a1
          have hlen : (lo ++ t8 :: hi).length = 9 + hi.length := by simp [hlow]; omega
          rw [hlen, show 32 * (9 + hi.length) = 288 + 32 * hi.length by ring, pow_add]
          rw [Nat.mul_assoc]
          rw [Nat.mul_comm (val P)] at hrow
          generalize 2^(32 * hi.length) * (propCarry hi (addCarry t8 carry 0).2).2.toNat = X at *
          generalize (t0 * N_).toNat * val P = Y at *
          norm_num at hrow ⊢
          omega
        · simp only [List.length_append, List.length_cons, hrt, p3]; simp only [List.length_cons] at hll; omega
      | [], hrl => simp at hrl; omega

theorem redcLoop_spec (P : List W32) (N_ : W32) (hP : P.length = 8) (hN : NOk P N_) :
    ∀ (n : Nat) (s : List W32) (t16 : W32), s.length = n + 8 → t16.toNat + n < 2^32 →
    ∃ M, M < 2^(32*n) ∧ (redcLoop P N_ n s t16).1.length = 8 ∧
    val s + M * val P + 2^(32 * s.length) * t16.toNat
      = 2^(32*n) * (val (redcLoop P N_ n s t16).1 + 2^256 * (redcLoop P N_ n s t16).2.toNat)
  | 0, s, t16, hs, ht => ⟨0, by simp, by simp [redcLoop]; omega, by simp [redcLoop, hs]⟩
  | n + 1, s, t16, hs, ht => by
    obtain ⟨m, hm, h1, h2, h3⟩ := redcRound_spec P N_ hP hN s (by omega)
    have hadd : (t16 + (redcRound P N_ s).2).toNat = t16.toNat + (redcRound P N_ s).2.toNat := by
      rw [BitVec.toNat_add, Nat.mod_eq_of_lt]; omega
    obtain ⟨M, hM, i1, i2⟩ := redcLoop_spec P N_ hP hN n (redcRound P N_ s).1
      (t16 + (redcRound P N_ s).2) (by omega) (by omega)
    refine ⟨m + 2^32 * M, ?_, i1, ?_⟩
    · rw [Nat.mul_succ, pow_add]
      have : 2^32 * (M + 1) ≤ 2^32 * 2^(32*n) := Nat.mul_le_mul_left _ hM
      rw [Nat.mul_add] at this
      rw [Nat.mul_comm (2^(32*n))]
      omega
    · show _ = 2^(32*(n+1)) * (val (redcLoop P N_ n (redcRound P N_ s).1 (t16 + (redcRound P N_ s).2)).1 + _ *
        (redcLoop P N_ n (redcRound P N_ s).1 (t16 + (redcRound P N_ s).2)).2.toNat)
      rw [Nat.mul_succ, pow_add, Nat.mul_comm (2^(32*n)) (2^32), Nat.mul_assoc, ← i2, hadd]
      have hl : (redcRound P N_ s).1.length = n + 8 := by omega
      rw [hl]
      rw [hs] at h1 ⊢
      have hp : (2:Nat)^(32 * (n+1+8)) = 2^32 * 2^(32*(n+8)) := by
        rw [show 32 * (n+1+8) = 32 + 32 * (n+8) by ring, pow_add]
      rw [hp] at h1 ⊢
      nlinarith

theorem mont256Redc_spec (ctx : Mont256CTX) (hP : ctx.P.length = 8) (hN : NOk ctx.P ctx.N_)
    (t : List W32) (ht : t.length = 16) (hv : val t < 2^256 * val ctx.P) :
    (mont256Redc ctx t).length = 8 ∧ val (mont256Redc ctx t) < val ctx.P ∧
    (val (mont256Redc ctx t) * 2^256) % val ctx.P = val t % val ctx.P := by
  have hz0 : (0 : W32).toNat + 8 < 2^32 := by rw [w32_zero_toNat]; norm_num
  obtain ⟨M, hM, h1, h2⟩ := redcLoop_spec ctx.P ctx.N_ hP hN 8 t 0 ht hz0
  rw [w32_zero_toNat, Nat.mul_zero, Nat.add_zero] at h2
  have hPl := val_lt ctx.P
  rw [hP] at hPl
  have hrl := val_lt (redcLoop ctx.P ctx.N_ 8 t 0).1
  rw [h1] at hrl
  have hs := subBorrowLoop_spec (redcLoop ctx.P ctx.N_ 8 t 0).1 ctx.P 0 (by omega) isBorrow_zero
  have hsl := subBorrowLoop_len (redcLoop ctx.P ctx.N_ 8 t 0).1 ctx.P 0 (by omega)
  have hsv := val_lt (subBorrowLoop (redcLoop ctx.P ctx.N_ 8 t 0).1 ctx.P 0).1
  have hbb := borrowBit_le (subBorrowLoop (redcLoop ctx.P ctx.N_ 8 t 0).1 ctx.P 0).2
  rw [hsl] at hsv
  rw [h1] at hs hsv hsl
  rw [borrowBit_0] at hs
  unfold mont256Redc u256SubBorrow
  simp only [toNat_ne_zero_iff, u256Cmp_ge (show (redcLoop ctx.P ctx.N_ 8 t 0).1.length = ctx.P.length by omega)]
  generalize hr : redcLoop ctx.P ctx.N_ 8 t 0 = rr at *
  obtain ⟨r, t16⟩ := rr
  simp only at *
  have hMP : M * val ctx.P ≤ (2^256 - 1) * val ctx.P := Nat.mul_le_mul_right _ (by norm_num at hM ⊢; omega)
  have hV : val r + 2^256 * t16.toNat < 2 * val ctx.P := by
    norm_num at *
    omega
  generalize hS : subBorrowLoop r ctx.P 0 = sb at *
  obtain ⟨d, bo⟩ := sb
  simp only at *
  have key : ∀ x : Nat, (x = val r + 2^256 * t16.toNat ∨ x + val ctx.P = val r + 2^256 * t16.toNat) →
      (x * 2^256) % val ctx.P = val t % val ctx.P := by
    intro x hx
    have e : (val t + M * val ctx.P) % val ctx.P = val t % val ctx.P := Nat.add_mul_mod_self_right _ _ _
    rw [← e, h2]
    rcases hx with hx | hx
    · rw [hx, Nat.mul_comm]
    · rw [← hx, Nat.mul_comm, Nat.mul_add]
      rw [Nat.add_mul_mod_self_right]
  split
  next hc =>
    have hd : val d + val ctx.P = val r + 2^256 * t16.toNat ∧ val d < val ctx.P := by
      have : borrowBit bo = 0 ∨ borrowBit bo = 1 := by omega
      rcases this with hb | hb <;> rw [hb] at hs <;> norm_num at * <;> omega
    exact ⟨hsl, hd.2, key _ (Or.inr hd.1)⟩
  next hc =>
    have hz : t16.toNat = 0 := by by_contra h; exact hc (Or.inl h)
    have hlt : val r < val ctx.P := by by_contra h; exact hc (Or.inr (by omega))
    exact ⟨h1, hlt, key _ (Or.inl (by rw [hz]; rfl))⟩

/-- What a Montgomery context must satisfy for the arithmetic to be meaningful. -/
structure MontOk (ctx : Mont256CTX) : Prop where
  P_len : ctx.P.length = 8
  N_ok : NOk ctx.P ctx.N_
  P_gt : 2 < val ctx.P
  R_len : ctx.R.length = 8
  R_val : val ctx.R = 2^256 % val ctx.P
  RPow2_len : ctx.RPow2.length = 8
  RPow2_val : val ctx.RPow2 = 2^512 % val ctx.P
  PSub2_len : ctx.PSub2.length = 8
  PSub2_val : val ctx.PSub2 = val ctx.P - 2

theorem MontOk.P_odd {ctx} (h : MontOk ctx) : val ctx.P % 2 = 1 := by
  have := h.N_ok
  unfold NOk at this
  by_contra hc
  have he : val ctx.P % 2 = 0 := by omega
  obtain ⟨k, hk⟩ := Nat.dvd_of_mod_eq_zero he
  rw [hk] at this
  have h2 : ctx.N_.toNat * (2 * k) = 2 * (ctx.N_.toNat * k) := by ring
  rw [h2] at this
  omega

theorem MontOk.P_lt {ctx} (h : MontOk ctx) : val ctx.P < 2^256 := by
  have := val_lt ctx.P
  rw [h.P_len] at this
  exact this

/-- A reduced element. -/
def Canon (ctx : Mont256CTX) (a : List W32) : Prop := a.length = 8 ∧ val a < val ctx.P

theorem mont256Mul_spec {ctx} (h : MontOk ctx) (a b : List W32) (ha : a.length = 8) (hb : b.length = 8)
    (hab : val a * val b < 2^256 * val ctx.P) :
    Canon ctx (mont256Mul ctx a b) ∧
    (val (mont256Mul ctx a b) * 2^256) % val ctx.P = (val a * val b) % val ctx.P := by
  obtain ⟨m1, m2⟩ := u256Mul_spec a b (by intro e; rw [e] at ha; simp at ha) (by intro e; rw [e] at hb; simp at hb)
  have := mont256Redc_spec ctx h.P_len h.N_ok (u256Mul a b) (by omega) (by rw [m1]; exact hab)
  rw [m1] at this
  exact ⟨⟨this.1, this.2.1⟩, this.2.2⟩

theorem len8_lt {a : List W32} (ha : a.length = 8) : val a < 2^256 := by
  have := val_lt a
  rw [ha] at this
  exact this

theorem mul_lt_RP {ctx} (h : MontOk ctx) {a b : List W32} (ha : a.length = 8) (hb : val b < val ctx.P) :
    val a * val b < 2^256 * val ctx.P := by
  have h1 := len8_lt ha
  have h2 := h.P_gt
  calc val a * val b ≤ val a * val ctx.P := Nat.mul_le_mul_left _ hb.le
    _ < 2^256 * val ctx.P := Nat.mul_lt_mul_of_pos_right h1 (by omega)

theorem mont256Mul_canon {ctx} (h : MontOk ctx) {a b : List W32} (ha : a.length = 8) (hb : Canon ctx b) :
    Canon ctx (mont256Mul ctx a b) ∧
    (val (mont256Mul ctx a b) * 2^256) % val ctx.P = (val a * val b) % val ctx.P :=
  mont256Mul_spec h a b ha hb.1 (mul_lt_RP h ha hb.2)

theorem mont256Sqr_eq (ctx : Mont256CTX) (a : List W32) : mont256Sqr ctx a = mont256Mul ctx a a := rfl

theorem mont256Add_spec {ctx} (h : MontOk ctx) {a b : List W32} (ha : Canon ctx a) (hb : Canon ctx b) :
    Canon ctx (mont256Add ctx a b) ∧ val (mont256Add ctx a b) = (val a + val b) % val ctx.P := by
  have hs := u256ModAdd_spec a b ctx.P (by rw [ha.1, h.P_len]) (by rw [hb.1, h.P_len]) ha.2.le hb.2.le
  have hl := u256ModAdd_len a b ctx.P (by rw [ha.1, h.P_len]) (by rw [hb.1, h.P_len])
  have h1 := ha.2
  have h2 := hb.2
  unfold mont256Add
  have hv : val (u256ModAdd a b ctx.P) = (val a + val b) % val ctx.P := by
    rw [hs]; split
    · rw [Nat.mod_eq_sub_mod (by omega), Nat.mod_eq_of_lt (by omega)]
    · rw [Nat.mod_eq_of_lt (by omega)]
  exact ⟨⟨by rw [hl, h.P_len], by rw [hv]; exact Nat.mod_lt _ (by omega)⟩, hv⟩

theorem mont256Sub_spec {ctx} (h : MontOk ctx) {a b : List W32} (ha : Canon ctx a) (hb : Canon ctx b) :
    Canon ctx (mont256Sub ctx a b) ∧
    val (mont256Sub ctx a b) = (val a + (val ctx.P - val b)) % val ctx.P := by
  have hs := u256ModSub_spec a b ctx.P (by rw [ha.1, h.P_len]) (by rw [hb.1, h.P_len]) ha.2 hb.2.le
  have hl := u256ModSub_len a b ctx.P (by rw [ha.1, h.P_len]) (by rw [hb.1, h.P_len])
  have h1 := ha.2
  have h2 := hb.2
  unfold mont256Sub
  have hv : val (u256ModSub a b ctx.P) = (val a + (val ctx.P - val b)) % val ctx.P := by
    rw [hs]; split
    · rw [Nat.mod_eq_sub_mod (by omega), Nat.mod_eq_of_lt (by omega)]; omega
    · rw [Nat.mod_eq_of_lt (by omega)]; omega
  exact ⟨⟨by rw [hl, h.P_len], by rw [hv]; exact Nat.mod_lt _ (by omega)⟩, hv⟩

theorem dblCarryLoop_eq : ∀ (a : List W32) (c : CInt), dblCarryLoop a c = addCarryLoop a a c
  | [], c => rfl
  | x :: xs, c => by
    simp only [dblCarryLoop, addCarryLoop, dblCarryLoop_eq xs]
    rfl

theorem mont256Dbl_eq (ctx : Mont256CTX) (a : List W32) : mont256Dbl ctx a = mont256Add ctx a a := by
  unfold mont256Dbl mont256Add u256ModAdd u256DblCarry u256AddCarry
  rw [dblCarryLoop_eq]

theorem mont256Dbl_spec {ctx} (h : MontOk ctx) {a : List W32} (ha : Canon ctx a) :
    Canon ctx (mont256Dbl ctx a) ∧ val (mont256Dbl ctx a) = (2 * val a) % val ctx.P := by
  rw [mont256Dbl_eq]
  have := mont256Add_spec h ha ha
  rw [← Nat.two_mul] at this
  exact this

theorem tplCarryLoop_spec : ∀ (a : List W32) (c : CInt), c.toNat ≤ 2 →
    val (tplCarryLoop a c).1 + 2^(32 * a.length) * (tplCarryLoop a c).2.toNat = 3 * val a + c.toNat ∧
    (tplCarryLoop a c).2.toNat ≤ 2 ∧ (tplCarryLoop a c).1.length = a.length
  | [], c, hc => by simp [tplCarryLoop, hc]
  | x :: xs, c, hc => by
    obtain ⟨h1, h2⟩ := tplCarry_spec x c hc
    obtain ⟨h3, h4, h5⟩ := tplCarryLoop_spec xs (tplCarry x c).2 h2
    simp only [tplCarryLoop, val_cons, List.length_cons]
    refine ⟨?_, h4, by rw [h5]⟩
    rw [Nat.mul_succ, pow_add]
    nlinarith

theorem u256Sub_spec (a b : List W32) (h : a.length = 8) (hb : b.length = 8) :
    ((u256SubBorrow a b).1.length = 8) ∧
    (val b ≤ val a → val (u256SubBorrow a b).1 = val a - val b ∧ (u256SubBorrow a b).2 = 0) ∧
    (val a < val b → val (u256SubBorrow a b).1 = 2^256 + val a - val b ∧ (u256SubBorrow a b).2 = -1) := by
  have hs := subBorrowLoop_spec a b 0 (by omega) isBorrow_zero
  have hl := subBorrowLoop_len a b 0 (by omega)
  have hv := val_lt (subBorrowLoop a b 0).1
  have h1 := len8_lt h
  have h2 := len8_lt hb
  rw [hl, h] at hv
  rw [h, borrowBit_0] at hs
  unfold u256SubBorrow
  refine ⟨by omega, ?_, ?_⟩ <;> intro hle
  · rcases hs.2 with hb2 | hb2
    · rw [hb2, borrowBit_0] at hs; exact ⟨by omega, hb2⟩
    · rw [hb2, borrowBit_neg1] at hs; norm_num at *; omega
  · rcases hs.2 with hb2 | hb2
    · rw [hb2, borrowBit_0] at hs; norm_num at *; omega
    · rw [hb2, borrowBit_neg1] at hs; refine ⟨?_, hb2⟩; norm_num at *; omega

theorem tplSubLoop_spec (P : List W32) (hP : P.length = 8) (hpos : 0 < val P) :
    ∀ (fuel : Nat) (t : List W32) (c : CInt), t.length = 8 → c.toNat ≤ 2 →
    val t + 2^256 * c.toNat < fuel →
    ∃ r k, tplSubLoop P fuel t c = some r ∧ r.length = 8 ∧
      val r + k * val P = val t + 2^256 * c.toNat ∧ (k = 0 ∨ 2^256 ≤ val r + val P)
  | 0, _, _, _, _, h => absurd h (by omega)
  | fuel + 1, t, c, ht, hc, h => by
    unfold tplSubLoop
    split
    next hne =>
      rw [toNat_ne_zero_iff] at hne
      have hPl := len8_lt hP
      obtain ⟨s1, s2, s3⟩ := u256Sub_spec t P ht hP
      have htl := len8_lt ht
      have hsl := len8_lt s1
      simp only
      have hstep : val (u256SubBorrow t P).1 + 2^256 * (c + (u256SubBorrow t P).2).toNat + val P
          = val t + 2^256 * c.toNat ∧ (c + (u256SubBorrow t P).2).toNat ≤ 2 := by
        by_cases hle : val P ≤ val t
        · obtain ⟨e1, e2⟩ := s2 hle
          rw [e2, e1, show c + (0 : CInt) = c from BitVec.add_zero c]
          omega
        · obtain ⟨e1, e2⟩ := s3 (by omega)
          rw [e2, e1, BitVec.toNat_add, neg1_toNat]
          have hcc := c.isLt
          norm_num at *
          omega
      obtain ⟨r, k, r1, r2, r3, r4⟩ := tplSubLoop_spec P hP hpos fuel (u256SubBorrow t P).1
        (c + (u256SubBorrow t P).2) s1 hstep.2 (by omega)
      refine ⟨r, k + 1, r1, r2, by rw [Nat.add_mul, Nat.one_mul]; omega, Or.inr ?_⟩
      rcases r4 with r4 | r4
      · subst r4
        have := hstep.1
        norm_num at *
        omega
      · exact r4
    next hz =>
      have : c = 0 := by simpa using hz
      subst this
      exact ⟨t, 0, rfl, ht, by simp, Or.inl rfl⟩

theorem mont256Tpl_spec {ctx} (h : MontOk ctx) (hbig : 2^255 < val ctx.P) {a : List W32} (ha : Canon ctx a) :
    ∃ r, mont256Tpl ctx a = some r ∧ Canon ctx r ∧ val r = (3 * val a) % val ctx.P := by
  obtain ⟨t1, t2, t3⟩ := tplCarryLoop_spec a 0 (by decide)
  rw [w32_zero_toNat, ha.1] at t1
  rw [ha.1] at t3
  have hPl := h.P_lt
  have hav := ha.2
  obtain ⟨r, k, r1, r2, r3, r4⟩ := tplSubLoop_spec ctx.P h.P_len (by omega) (2^258)
    (tplCarryLoop a 0).1 (tplCarryLoop a 0).2 t3 t2 (by norm_num at *; omega)
  have hrl := len8_lt r2
  unfold mont256Tpl u256TplCarry
  simp only [r1]
  obtain ⟨s1, s2, s3⟩ := u256Sub_spec r ctx.P r2 h.P_len
  have e3 : val r + k * val ctx.P = 3 * val a := by
    rw [r3]
    norm_num at t1 ⊢
    omega
  have hk : val r < 2 * val ctx.P := by
    rcases r4 with r4 | r4
    · norm_num at *; omega
    · norm_num at *; omega
  have hmod : (3 * val a) % val ctx.P = val r % val ctx.P := by
    rw [← e3, Nat.add_mul_mod_self_right]
  refine ⟨_, rfl, ?_⟩
  simp only [u256Cmp_ge (show r.length = ctx.P.length by rw [r2, h.P_len])]
  split
  next hge =>
    obtain ⟨e1, _⟩ := s2 hge
    have hv : val (u256SubBorrow r ctx.P).1 = (3 * val a) % val ctx.P := by
      rw [e1, hmod, Nat.mod_eq_sub_mod hge, Nat.mod_eq_of_lt (by omega)]
    exact ⟨⟨s1, by rw [hv]; exact Nat.mod_lt _ (by omega)⟩, hv⟩
  next hlt =>
    have hv : val r = (3 * val a) % val ctx.P := by rw [hmod, Nat.mod_eq_of_lt (by omega)]
    exact ⟨⟨r2, by omega⟩, hv⟩

theorem mont256Neg_val {ctx} (h : MontOk ctx) {a : List W32} (ha : Canon ctx a) :
    (mont256Neg ctx a).length = 8 ∧ val (mont256Neg ctx a) = val ctx.P - val a := by
  unfold mont256Neg
  simp only
  split
  next hz =>
    rw [u256EqualZero_iff] at hz
    have hz2 : val u256Zero = 0 := val_replicate_zero 8
    obtain ⟨s1, s2, _⟩ := u256Sub_spec ctx.P u256Zero h.P_len (by simp [u256Zero])
    exact ⟨s1, by rw [(s2 (by omega)).1]; omega⟩
  next hz =>
    obtain ⟨s1, s2, _⟩ := u256Sub_spec ctx.P a h.P_len ha.1
    exact ⟨s1, (s2 ha.2.le).1⟩

end Verif
