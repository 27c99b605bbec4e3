import Verif.Model.Sm2Mem
import Verif.Proofs.Modes
import Verif.Proofs.Asn1b
import Verif.Props.Sm2
/-!
# SM2 encryption and decryption on the caller's buffers
-/
namespace Verif
open Spec Props

variable {S : Type} {C : HashClass S} {H : List Byte → List Byte}

/-- `m'` has the size of `m` and agrees with it outside `[o, o + n)`. -/
def SameOutside (m m' : Mem) (o n : Nat) : Prop :=
  m'.length = m.length ∧ ∀ k, k < o ∨ o + n ≤ k → m'[k]? = m[k]?

theorem SameOutside.refl (m : Mem) (o n : Nat) : SameOutside m m o n := ⟨rfl, fun _ _ => rfl⟩

theorem SameOutside.trans {m m' m'' : Mem} {o n : Nat} (h : SameOutside m m' o n) (h' : SameOutside m' m'' o n) :
    SameOutside m m'' o n := ⟨h'.1.trans h.1, fun k hk => (h'.2 k hk).trans (h.2 k hk)⟩

theorem SameOutside.mono {m m' : Mem} {o n o' n' : Nat} (h : SameOutside m m' o n) (h1 : o' ≤ o)
    (h2 : o + n ≤ o' + n') : SameOutside m m' o' n' :=
  ⟨h.1, fun k hk => h.2 k (by omega)⟩

theorem sameOutside_wrm {m : Mem} {o : Nat} {bs : List Byte} (h : o + bs.length ≤ m.length) :
    SameOutside m (wrm m o bs) o bs.length := by
  refine ⟨wrm_len h, fun k hk => ?_⟩
  rw [wrm_get h]
  by_cases h1 : k < o
  · rw [if_pos h1]
  · rw [if_neg h1, if_neg (by omega)]

/-- Two adjacent stores, the later range first. -/
theorem wrm_wrm' {m : Mem} {o : Nat} {a b : List Byte} (h : o + a.length + b.length ≤ m.length) :
    wrm (wrm m (o + a.length) b) o a = wrm m o (a ++ b) := by
  apply List.ext_getElem?; intro k
  have h1 := wrm_len (m := m) (o := o + a.length) (bs := b) (by omega)
  rw [wrm_get (by omega), wrm_get (by omega), wrm_get (by rw [List.length_append]; omega), List.length_append]
  by_cases k1 : k < o
  · rw [if_pos k1, if_pos k1, if_pos (by omega)]
  · rw [if_neg k1, if_neg k1]
    by_cases k2 : k < o + a.length
    · rw [if_pos k2, if_pos (by omega), List.getElem?_append_left (by omega)]
    · rw [if_neg k2, if_neg k2]
      by_cases k3 : k < o + a.length + b.length
      · rw [if_pos k3, if_pos (by omega), List.getElem?_append_right (by omega)]
        congr 1
        omega
      · rw [if_neg k3, if_neg (by omega)]

theorem xorBytes_len (a b : List Byte) : (xorBytes a b).length = min a.length b.length := by
  unfold xorBytes; rw [List.length_zipWith]

/-! ## The key stream -/

theorem kdfLoopM_ok (hC : IsHash C H) (Z : List Byte) (hZ : 8 * (Z.length + 4) < 2 ^ 64) :
    ∀ (fuel c : Nat) (az : Bool) (m : Mem) (out inp n : Nat), n < fuel →
      c * C.DS + n < C.DS * (2 ^ 32 - 1) → out + n ≤ m.length → inp + n ≤ m.length →
      (out = inp ∨ out + n ≤ inp ∨ inp + n ≤ out) →
      Sm2.kdfLoopM C Z fuel (BitVec.ofNat 32 (c + 1)) az m out inp n =
        (wrm m out (xorBytes (rdm m inp n) (kdfFrom H C.DS Z c n)), .ok (az && allZ (kdfFrom H C.DS Z c n))) := by
  have hp := hC.pos
  intro fuel
  induction fuel with
  | zero => intro c az m out inp n h; omega
  | succ fuel ih =>
    intro c az m out inp n hf hc ho hi hd
    have hc1 : c + 1 < 2 ^ 32 := by
      by_contra hcon
      have : (2 ^ 32 - 1) * C.DS ≤ c * C.DS := Nat.mul_le_mul_right _ (by omega)
      rw [mul_comm (2 ^ 32 - 1)] at this
      omega
    have hs : C.stream [Z] (MemUtil.store32be (BitVec.ofNat 32 (c + 1))) = .ok (H (Z ++ toBE 4 (c + 1))) := by
      rw [hC.stream, store32be_eq _ hc1, if_pos]
      · simp
      · simp only [List.flatten_cons, List.flatten_nil, List.append_nil, List.length_append, toBE_len]
        omega
    have hl := hC.len (Z ++ toBE 4 (c + 1))
    unfold Sm2.kdfLoopM
    by_cases h : n ≥ C.DS
    · rw [if_pos h, hs]
      simp only
      rw [show BitVec.ofNat 32 (c + 1) + 1 = BitVec.ofNat 32 (c + 1 + 1) from (BitVec.ofNat_add ..).symm]
      have hb : (xorBytes (rdm m inp C.DS) (H (Z ++ toBE 4 (c + 1)))).length = C.DS := by
        rw [xorBytes_len, rdm_len (by omega), hl, Nat.min_self]
      have hw := wrm_len (m := m) (o := out) (bs := xorBytes (rdm m inp C.DS) (H (Z ++ toBE 4 (c + 1)))) (by omega)
      rw [ih (c + 1) _ _ _ _ (n - C.DS) (by omega) (by rw [Nat.add_mul]; omega) (by omega) (by omega) (by omega)]
      rw [rdm_wrm_disj (by omega) (by omega), kdfFrom_ge hC Z c n h, allZ_append]
      have e1 : (List.replicate C.DS 0 == (H (Z ++ toBE 4 (c + 1))).take C.DS) = allZ (H (Z ++ toBE 4 (c + 1))) := by
        rw [List.take_of_length_le (by rw [hl]), ← replicate_beq, hl]
      have hk := kdfFrom_len hC Z (n - C.DS) (c + 1)
      have e2 : xorBytes (rdm m inp n) (H (Z ++ toBE 4 (c + 1)) ++ kdfFrom H C.DS Z (c + 1) (n - C.DS)) =
          xorBytes (rdm m inp C.DS) (H (Z ++ toBE 4 (c + 1))) ++
            xorBytes (rdm m (inp + C.DS) (n - C.DS)) (kdfFrom H C.DS Z (c + 1) (n - C.DS)) := by
        conv_lhs => rw [show n = C.DS + (n - C.DS) by omega, rdm_append]
        unfold xorBytes
        rw [List.zipWith_append (by rw [hl, rdm_len (by omega)])]
        rw [show C.DS + (n - C.DS) - C.DS = n - C.DS by omega]
      rw [e1, e2, Bool.and_assoc]
      congr 1
      have := wrm_wrm (m := m) (o := out) (a := xorBytes (rdm m inp C.DS) (H (Z ++ toBE 4 (c + 1))))
        (b := xorBytes (rdm m (inp + C.DS) (n - C.DS)) (kdfFrom H C.DS Z (c + 1) (n - C.DS)))
        (by rw [hb, xorBytes_len, rdm_len (by omega), hk]; omega)
      rwa [hb] at this
    · rw [if_neg h]
      by_cases h0 : n ≠ 0
      · rw [if_pos h0, hs]
        simp only
        rw [kdfFrom_lt hC Z c n (by omega) (by omega), zipWith_comm_xor]
        have e1 : (List.replicate n 0 == (H (Z ++ toBE 4 (c + 1))).take n) =
            allZ ((H (Z ++ toBE 4 (c + 1))).take n) := by
          rw [← replicate_beq, List.length_take, hl, Nat.min_eq_left (by omega)]
        rw [e1]
      · rw [if_neg h0]
        push Not at h0
        subst h0
        simp [kdfFrom, allZ, xorBytes, rdm, wrm_nil]

theorem kdfXorM_ok (hC : IsHash C H) (Z : List Byte) (hZ : 8 * (Z.length + 4) < 2 ^ 64) (m : Mem) (out inp n : Nat)
    (ho : out + n ≤ m.length) (hi : inp + n ≤ m.length) (hd : out = inp ∨ out + n ≤ inp ∨ inp + n ≤ out) :
    Sm2.kdfXorM C m out inp n Z =
      if n ≥ C.DS * (2 ^ 32 - 1) then (m, .throw)
      else if n ≠ 0 ∧ (∀ b ∈ sm2Kdf H C.DS Z n, b = 0) then
        (wrm m out (xorBytes (rdm m inp n) (sm2Kdf H C.DS Z n)), .ok true)
      else (wrm m out (xorBytes (rdm m inp n) (sm2Kdf H C.DS Z n)), .ok false) := by
  have e0 : sm2Kdf H C.DS Z n = kdfFrom H C.DS Z 0 n := by
    unfold sm2Kdf kdfFrom; simp
  have hp := hC.pos
  have hs := hC.small
  unfold Sm2.kdfXorM
  rw [Nat.mod_eq_of_lt (by calc C.DS * (2 ^ 32 - 1) < 2 ^ 32 * (2 ^ 32 - 1) := Nat.mul_lt_mul_of_pos_right (by omega) (by decide)
      _ < 2 ^ 64 := by decide)]
  by_cases h : n ≥ C.DS * (2 ^ 32 - 1)
  · rw [if_pos h, if_pos h]
  · rw [if_neg h, if_neg h]
    by_cases h0 : n = 0
    · rw [if_pos h0, if_neg (fun h => h.1 h0)]
      subst h0
      simp [rdm, xorBytes, wrm_nil]
    · rw [if_neg h0]
      have := kdfLoopM_ok hC Z hZ (n + 1) 0 true m out inp n (by omega) (by omega) ho hi hd
      rw [show (BitVec.ofNat 32 (0 + 1)) = 1 from rfl] at this
      rw [this, ← e0, Bool.true_and]
      by_cases hz : ∀ b ∈ sm2Kdf H C.DS Z n, b = 0
      · have ha : allZ (sm2Kdf H C.DS Z n) = true := by
          unfold allZ
          rw [List.all_eq_true]
          intro b hb
          rw [hz b hb]; rfl
        rw [ha, if_pos ⟨h0, hz⟩]
      · have ha : allZ (sm2Kdf H C.DS Z n) = false := by
          refine Bool.eq_false_iff.mpr fun h => hz ?_
          unfold allZ at h
          rw [List.all_eq_true] at h
          exact fun b hb => by simpa using h b hb
        rw [ha, if_neg (fun h => hz h.2)]

/-- Whatever overlaps: only `[out, out + n)` is written. -/
theorem kdfLoopM_frame (hlen : ∀ a b d, C.stream a b = .ok d → d.length = C.DS) (Z : List Byte) :
    ∀ (fuel : Nat) (ct : W32) (az : Bool) (m : Mem) (out inp n : Nat), out + n ≤ m.length → inp + n ≤ m.length →
      SameOutside m (Sm2.kdfLoopM C Z fuel ct az m out inp n).1 out n := by
  intro fuel
  induction fuel with
  | zero => intros; exact SameOutside.refl ..
  | succ fuel ih =>
    intro ct az m out inp n ho hi
    unfold Sm2.kdfLoopM
    by_cases h : n ≥ C.DS
    · rw [if_pos h]
      rcases hs : C.stream [Z] (MemUtil.store32be ct) with dk | _ | _
      · simp only
        have hb : (xorBytes (rdm m inp C.DS) dk).length = C.DS := by
          rw [xorBytes_len, rdm_len (by omega), hlen _ _ _ hs, Nat.min_self]
        have hw := sameOutside_wrm (m := m) (o := out) (bs := xorBytes (rdm m inp C.DS) dk) (by omega)
        refine (hw.mono le_rfl (by omega)).trans ((ih _ _ _ (out + C.DS) (inp + C.DS) (n - C.DS) ?_ ?_).mono
          (by omega) (by omega))
        · rw [hw.1]; omega
        · rw [hw.1]; omega
      · exact SameOutside.refl ..
      · exact SameOutside.refl ..
    · rw [if_neg h]
      by_cases h0 : n ≠ 0
      · rw [if_pos h0]
        rcases hs : C.stream [Z] (MemUtil.store32be ct) with dk | _ | _
        · simp only
          have hb : (xorBytes (dk.take n) (rdm m inp n)).length = n := by
            rw [xorBytes_len, rdm_len (by omega), List.length_take, hlen _ _ _ hs]; omega
          exact (sameOutside_wrm (m := m) (o := out) (bs := xorBytes (dk.take n) (rdm m inp n)) (by omega)).mono
            le_rfl (by omega)
        · exact SameOutside.refl ..
        · exact SameOutside.refl ..
      · rw [if_neg h0]
        exact SameOutside.refl ..

theorem kdfXorM_frame (hC : IsHash C H) (Z : List Byte) (m : Mem) (out inp n : Nat) (ho : out + n ≤ m.length)
    (hi : inp + n ≤ m.length) : SameOutside m (Sm2.kdfXorM C m out inp n Z).1 out n := by
  have hlen : ∀ a b d, C.stream a b = .ok d → d.length = C.DS := by
    intro a b d h
    rw [hC.stream] at h
    split_ifs at h
    rw [Outcome.ok.injEq] at h
    rw [← h, hC.len]
  unfold Sm2.kdfXorM
  split_ifs
  · exact SameOutside.refl ..
  · exact SameOutside.refl ..
  · exact kdfLoopM_frame hlen Z _ _ _ _ _ _ _ ho hi

/-! ## Encryption -/

theorem encForm_len (pc : Sm2.PC) (x y : ZMod sm2p) : (encForm pc x y).length = Sm2.c1Len pc := by
  cases pc <;> simp [encForm, encUncompressed, encCompressed, encMixed, fieldOctets_len, Sm2.c1Len]

theorem encPts_ok {pub : Sm2.Pub} {Q : Sm2Point} (hp : Sm2PubIs pub Q) (pc : Sm2.PC) {rnd : List Byte}
    (hr : rnd.length = 32) :
    ∃ x1 y1 h1 x2 y2 h2 a, (beVal rnd % (sm2n - 1) + 1) • sm2G = .some x1 y1 h1 ∧
      (beVal rnd % (sm2n - 1) + 1) • Q = .some x2 y2 h2 ∧ Sm2.encPoint pc a = encForm pc x1 y1 ∧
      Sm2.encPts pub rnd = .ok (a, fieldOctets x2 ++ fieldOctets y2) := by
  obtain ⟨k1, k2⟩ := nonce_range hr
  obtain ⟨R, a, r1, a1, a2⟩ := mulG_affine (nonce_len hr) k1 k2
  obtain ⟨R', a', r1', a1', a2'⟩ := mulA_affine (nonce_len hr) k1 k2 hp.2.2.1
  rw [nonce_val hr] at a2 a2'
  obtain ⟨_, _, h1, e1⟩ := id a2
  obtain ⟨_, _, h2, e2⟩ := id a2'
  rw [e1] at a2
  rw [e2] at a2'
  refine ⟨_, _, h1, _, _, h2, a, e1, e2, encPoint_eq pc a2, ?_⟩
  have t2 := toBytes04_eq a2'
  unfold Sm2.encPts
  simp only
  rw [r1, ofOption_some, o_bind, a1, ofOption_some, o_bind, r1', ofOption_some, o_bind, a1', ofOption_some, o_bind, t2]

open Classical in
theorem encStore_ok (hC : IsHash C H) (pc : Sm2.PC) {m : Mem} {ct pt n : Nat} {a : Sm2.A} {X Y : List Byte}
    (lx : X.length = 32) (ly : Y.length = 32)
    (hi : pt + n ≤ m.length) (ho : ct + Sm2.c1Len pc + C.DS + n ≤ m.length)
    (hd : ct + Sm2.c1Len pc + C.DS = pt ∨ ct + Sm2.c1Len pc + C.DS + n ≤ pt ∨ pt + n ≤ ct + Sm2.c1Len pc + C.DS) :
    Sm2.encStore C pc ct pt n m a (X ++ Y) =
      if n ≥ C.DS * (2 ^ 32 - 1) then (m, .throw)
      else
        let r := wrm m (ct + Sm2.c1Len pc + C.DS) (xorBytes (rdm m pt n) (sm2Kdf H C.DS (X ++ Y) n))
        if n ≠ 0 ∧ (∀ b ∈ sm2Kdf H C.DS (X ++ Y) n, b = 0) then (r, .ok none)
        else (wrm (wrm r (ct + Sm2.c1Len pc) (H (X ++ rdm r pt n ++ Y))) ct (Sm2.encPoint pc a),
          .ok (some (Sm2.c1Len pc + C.DS + n))) := by
  unfold Sm2.encStore
  rw [kdfXorM_ok hC _ (by rw [List.length_append, lx, ly]; decide) _ _ _ _ ho hi hd]
  have hk := sm2Kdf_len hC (X ++ Y) n
  generalize sm2Kdf H C.DS (X ++ Y) n = ks at *
  by_cases h0 : n ≥ C.DS * (2 ^ 32 - 1)
  · rw [if_pos h0, if_pos h0, Sm2.encTail]
  · rw [if_neg h0, if_neg h0]
    have hx : (xorBytes (rdm m pt n) ks).length = n := by
      rw [xorBytes_len, rdm_len hi, hk, Nat.min_self]
    have hw := wrm_len (m := m) (o := ct + Sm2.c1Len pc + C.DS) (bs := xorBytes (rdm m pt n) ks) (by omega)
    by_cases hz : n ≠ 0 ∧ (∀ b ∈ ks, b = 0)
    · rw [if_pos hz, if_pos hz, Sm2.encTail]
    · rw [if_neg hz, if_neg hz, Sm2.encTail]
      rw [List.take_left' lx, List.drop_left' lx, List.take_of_length_le (l := Y) (by rw [ly]),
        hash3_ok hC _ _ _ lx ly, rdm_len (by omega), if_pos (mul8_lt (by omega) hC.small)]
      simp only
      rw [List.take_of_length_le (by rw [hC.len])]

theorem encryptM_cons (pub : Sm2.Pub) (pc : Sm2.PC) (ct pt n : Nat) (m : Mem) (q : List Byte) (rest : List (List Byte)) :
    Sm2.encryptM C pub pc ct pt n m (q :: rest) =
      match Sm2.encryptStepM C pub pc ct pt n m q with
      | (m, .ok none) => Sm2.encryptM C pub pc ct pt n m rest
      | (m, .ok (some n)) => (m, .ok (some n))
      | (m, .throw) => (m, .throw)
      | (m, .ub) => (m, .ub) := by
  rw [Sm2.encryptM]
  generalize Sm2.encryptStepM C pub pc ct pt n m q = r
  obtain ⟨m1, (_ | k) | _ | _⟩ := r <;> rfl

open Classical in
/-- One pass on the caller's buffers; `r` is the memory after the key stream was applied. -/
theorem encryptM_step (hC : IsHash C H) {pub : Sm2.Pub} {Q : Sm2Point} (hp : Sm2PubIs pub Q) (pc : Sm2.PC) {m : Mem}
    {ct pt n : Nat} {rnd : List Byte} (hr : rnd.length = 32) (rest : List (List Byte))
    (hi : pt + n ≤ m.length) (ho : ct + Sm2.c1Len pc + C.DS + n ≤ m.length)
    (hd : ct + Sm2.c1Len pc + C.DS = pt ∨ ct + Sm2.c1Len pc + C.DS + n ≤ pt ∨ pt + n ≤ ct + Sm2.c1Len pc + C.DS) :
    ∃ x1 y1 h1 x2 y2 h2, (beVal rnd % (sm2n - 1) + 1) • sm2G = .some x1 y1 h1 ∧
      (beVal rnd % (sm2n - 1) + 1) • Q = .some x2 y2 h2 ∧
      Sm2.encryptM C pub pc ct pt n m (rnd :: rest) =
        if n ≥ C.DS * (2 ^ 32 - 1) then (m, .throw)
        else
          let r := wrm m (ct + Sm2.c1Len pc + C.DS)
            (xorBytes (rdm m pt n) (sm2Kdf H C.DS (fieldOctets x2 ++ fieldOctets y2) n))
          if n ≠ 0 ∧ (∀ b ∈ sm2Kdf H C.DS (fieldOctets x2 ++ fieldOctets y2) n, b = 0) then
            Sm2.encryptM C pub pc ct pt n r rest
          else (wrm (wrm r (ct + Sm2.c1Len pc) (H (fieldOctets x2 ++ rdm r pt n ++ fieldOctets y2))) ct
            (encForm pc x1 y1), .ok (some (Sm2.c1Len pc + C.DS + n))) := by
  obtain ⟨x1, y1, h1, x2, y2, h2, a, e1, e2, e3, e4⟩ := encPts_ok hp pc hr
  refine ⟨x1, y1, h1, x2, y2, h2, e1, e2, ?_⟩
  have hs : Sm2.encryptStepM C pub pc ct pt n m rnd =
      Sm2.encStore C pc ct pt n m a (fieldOctets x2 ++ fieldOctets y2) := by
    unfold Sm2.encryptStepM
    rw [e4]
  rw [encryptM_cons, hs, encStore_ok hC pc (fieldOctets_len x2) (fieldOctets_len y2) hi ho hd, e3]
  generalize sm2Kdf H C.DS (fieldOctets x2 ++ fieldOctets y2) n = ks
  generalize encForm pc x1 y1 = E
  generalize fieldOctets x2 = X
  generalize fieldOctets y2 = Y
  by_cases h0 : n ≥ C.DS * (2 ^ 32 - 1)
  · rw [if_pos h0, if_pos h0]
  · rw [if_neg h0, if_neg h0]
    simp only
    by_cases hz : n ≠ 0 ∧ (∀ b ∈ ks, b = 0)
    · rw [if_pos hz, if_pos hz]
    · rw [if_neg hz, if_neg hz]

/-- A range that is overwritten later does not matter. -/
theorem wrm_cover {m m' : Mem} {o n p : Nat} {bs : List Byte} (h : SameOutside m m' o n) (hb : p + bs.length ≤ m.length)
    (h1 : p ≤ o) (h2 : o + n ≤ p + bs.length) : wrm m' p bs = wrm m p bs := by
  apply List.ext_getElem?; intro k
  rw [wrm_get (by rw [h.1]; exact hb), wrm_get hb]
  by_cases k1 : k < p
  · rw [if_pos k1, if_pos k1]; exact h.2 k (by omega)
  · rw [if_neg k1, if_neg k1]
    by_cases k2 : k < p + bs.length
    · rw [if_pos k2, if_pos k2]
    · rw [if_neg k2, if_neg k2]; exact h.2 k (by omega)

theorem xor_zeros : ∀ (a b : List Byte), a.length = b.length → (∀ x ∈ b, x = 0) → xorBytes a b = a := by
  intro a
  induction a with
  | nil => intro b _ _; rfl
  | cons x a ih =>
    intro b hl hz
    cases b with
    | nil => simp at hl
    | cons y b =>
      have : y = 0 := hz y List.mem_cons_self
      subst this
      have := ih b (by simpa using hl) (fun z h => hz z (List.mem_cons_of_mem _ h))
      unfold xorBytes at *
      rw [List.zipWith_cons_cons, this]
      exact congrArg (· :: a) (BitVec.xor_zero)

/-- The buffers after encryption when the plaintext does not meet the place of `C2`. -/
theorem encryptM_ok (hC : IsHash C H) {pub : Sm2.Pub} {Q : Sm2Point} (hp : Sm2PubIs pub Q) (pc : Sm2.PC)
    {ct pt n : Nat} (hn : n < C.DS * (2 ^ 32 - 1)) :
    ∀ (rnds : List (List Byte)) (m : Mem), (∀ r ∈ rnds, r.length = 32) →
      pt + n ≤ m.length → ct + Sm2.c1Len pc + C.DS + n ≤ m.length →
      (ct + Sm2.c1Len pc + C.DS + n ≤ pt ∨ pt + n ≤ ct + Sm2.c1Len pc + C.DS) →
      (∀ c, Sm2.encrypt C pub (rdm m pt n) pc rnds = .ok (some c) →
        Sm2.encryptM C pub pc ct pt n m rnds = (wrm m ct c, .ok (some c.length))) ∧
      (Sm2.encrypt C pub (rdm m pt n) pc rnds = .ok none → rnds ≠ [] →
        Sm2.encryptM C pub pc ct pt n m rnds = (wrm m (ct + Sm2.c1Len pc + C.DS) (rdm m pt n), .ok none)) := by
  classical
  intro rnds
  induction rnds with
  | nil => exact fun m _ _ _ _ => ⟨fun c h => by unfold Sm2.encrypt at h; simp at h, fun _ h => absurd rfl h⟩
  | cons q rest ih =>
    intro m hr hi ho hd
    have hrl := rdm_len hi
    obtain ⟨x1, y1, h1, x2, y2, h2, e1, e2, e3⟩ := encryptStep_ok hC hp (rdm m pt n) pc (hr q (by simp))
    obtain ⟨x1', y1', h1', x2', y2', h2', e1', e2', e3'⟩ :=
      encryptM_step hC hp pc (hr q (by simp)) rest hi ho (Or.inr hd)
    rw [e1] at e1'
    rw [e2] at e2'
    obtain ⟨rfl, rfl⟩ := (WeierstrassCurve.Affine.Point.some.injEq ..).mp e1'
    obtain ⟨rfl, rfl⟩ := (WeierstrassCurve.Affine.Point.some.injEq ..).mp e2'
    rw [hrl, if_neg (by omega)] at e3
    rw [if_neg (by omega)] at e3'
    have hk := sm2Kdf_len hC (fieldOctets x2 ++ fieldOctets y2) n
    have hne : rdm m pt n ≠ [] ↔ n ≠ 0 := by rw [← List.length_pos_iff_ne_nil, hrl]; omega
    simp only at e3'
    generalize sm2Kdf H C.DS (fieldOctets x2 ++ fieldOctets y2) n = ks at *
    have hx : (xorBytes (rdm m pt n) ks).length = n := by rw [xorBytes_len, hrl, hk, Nat.min_self]
    have hso := sameOutside_wrm (m := m) (o := ct + Sm2.c1Len pc + C.DS) (bs := xorBytes (rdm m pt n) ks) (by omega)
    have hrd : rdm (wrm m (ct + Sm2.c1Len pc + C.DS) (xorBytes (rdm m pt n) ks)) pt n = rdm m pt n :=
      rdm_wrm_disj (by omega) (by omega)
    unfold Sm2.encrypt
    rw [e3, e3']
    by_cases hz : n ≠ 0 ∧ (∀ b ∈ ks, b = 0)
    · rw [if_pos ⟨hne.mpr hz.1, hz.2⟩, if_pos hz, o_bind]
      simp only
      have hxz := xor_zeros (rdm m pt n) ks (by rw [hrl, hk]) hz.2
      obtain ⟨i1, i2⟩ := ih (wrm m (ct + Sm2.c1Len pc + C.DS) (xorBytes (rdm m pt n) ks))
        (fun r h => hr r (by simp [h])) (by rw [hso.1]; omega) (by rw [hso.1]; omega) hd
      rw [hrd] at i1 i2
      constructor
      · intro c hc
        rw [i1 c hc]
        obtain ⟨hcl, -⟩ := C50_lengths hC pub Q hp (rdm m pt n) pc rest (fun r h => hr r (by simp [h])) c hc
        rw [hrl] at hcl
        change c.length = Sm2.c1Len pc + C.DS + n at hcl
        rw [wrm_cover hso (by omega) (by omega) (by omega)]
      · intro hc _
        by_cases hre : rest = []
        · subst hre
          unfold Sm2.encryptM
          rw [hxz]
        · rw [i2 hc hre, hxz]
          rw [hxz] at hso
          rw [wrm_cover hso (by omega) le_rfl (by omega)]
    · rw [if_neg (fun h => hz ⟨hne.mp h.1, h.2⟩), if_neg hz, o_bind]
      simp only
      refine ⟨fun c hc => ?_, fun hc => by cases hc⟩
      rw [Outcome.ok.injEq, Option.some.injEq] at hc
      rw [← hc, hrd]
      have hf := encForm_len pc x1 y1
      have hh := hC.len (fieldOctets x2 ++ rdm m pt n ++ fieldOctets y2)
      generalize encForm pc x1 y1 = C1 at *
      generalize H (fieldOctets x2 ++ rdm m pt n ++ fieldOctets y2) = C3 at *
      have e4 : List.zipWith (· ^^^ ·) (rdm m pt n) ks = xorBytes (rdm m pt n) ks := rfl
      rw [e4]
      generalize xorBytes (rdm m pt n) ks = C2 at *
      have w1 := wrm_wrm' (m := m) (o := ct + Sm2.c1Len pc) (a := C3) (b := C2) (by omega)
      rw [hh] at w1
      have w2 := wrm_wrm' (m := m) (o := ct) (a := C1) (b := C3 ++ C2) (by rw [List.length_append]; omega)
      rw [hf] at w2
      rw [w1, w2, List.append_assoc]
      simp only [List.length_append, hf, hh, hx]
      rw [Nat.add_assoc]

theorem stream_cases (hC : IsHash C H) (a : List (List Byte)) (b : List Byte) :
    (∃ D, D.length = C.DS ∧ C.stream a b = .ok D) ∨ C.stream a b = .throw := by
  rw [hC.stream]
  split_ifs
  · exact Or.inl ⟨_, hC.len _, rfl⟩
  · exact Or.inr rfl

theorem encTail_frame (hC : IsHash C H) (pc : Sm2.PC) {m : Mem} {ct pt n : Nat} {a : Sm2.A} (Z : List Byte)
    (ha : (Sm2.encPoint pc a).length = Sm2.c1Len pc) (ho : ct + Sm2.c1Len pc + C.DS + n ≤ m.length)
    (o : Outcome Bool) : SameOutside m (Sm2.encTail C pc ct pt n a Z (m, o)).1 ct (Sm2.c1Len pc + C.DS + n) := by
  rcases o with b | _ | _
  · cases b with
    | true => rw [Sm2.encTail]; exact SameOutside.refl ..
    | false =>
      rw [Sm2.encTail]
      rcases stream_cases hC [Z.take 32, rdm m pt n, (Z.drop 32).take 32] [] with ⟨D0, hd, e⟩ | e
      · rw [e]
        simp only
        have hd : (D0.take C.DS).length = C.DS := by rw [List.length_take, hd, Nat.min_self]
        generalize D0.take C.DS = D at *
        generalize Sm2.encPoint pc a = E at *
        have s1 := sameOutside_wrm (m := m) (o := ct + Sm2.c1Len pc) (bs := D) (by omega)
        have s2 := sameOutside_wrm (m := wrm m (ct + Sm2.c1Len pc) D) (o := ct) (bs := E) (by rw [s1.1]; omega)
        rw [ha] at s2
        exact (s1.mono (by omega) (by omega)).trans (s2.mono le_rfl (by omega))
      · rw [e]; exact SameOutside.refl ..
  · rw [Sm2.encTail]; exact SameOutside.refl ..
  · rw [Sm2.encTail]; exact SameOutside.refl ..

theorem encStore_frame (hC : IsHash C H) (pc : Sm2.PC) {m : Mem} {ct pt n : Nat} {a : Sm2.A} (Z : List Byte)
    (ha : (Sm2.encPoint pc a).length = Sm2.c1Len pc)
    (hi : pt + n ≤ m.length) (ho : ct + Sm2.c1Len pc + C.DS + n ≤ m.length) :
    SameOutside m (Sm2.encStore C pc ct pt n m a Z).1 ct (Sm2.c1Len pc + C.DS + n) := by
  unfold Sm2.encStore
  have hf := (kdfXorM_frame hC Z m (ct + Sm2.c1Len pc + C.DS) pt n ho hi).mono
    (o' := ct) (n' := Sm2.c1Len pc + C.DS + n) (by omega) (by omega)
  generalize Sm2.kdfXorM C m (ct + Sm2.c1Len pc + C.DS) pt n Z = r at *
  obtain ⟨m1, o⟩ := r
  exact hf.trans (encTail_frame hC pc Z ha (by rw [hf.1]; exact ho) o)

/-- Whatever overlaps: only the ciphertext's place is written. -/
theorem encryptM_frame (hC : IsHash C H) {pub : Sm2.Pub} {Q : Sm2Point} (hp : Sm2PubIs pub Q) (pc : Sm2.PC)
    {ct pt n : Nat} :
    ∀ (rnds : List (List Byte)) (m : Mem), (∀ r ∈ rnds, r.length = 32) → pt + n ≤ m.length →
      ct + Sm2.c1Len pc + C.DS + n ≤ m.length →
      SameOutside m (Sm2.encryptM C pub pc ct pt n m rnds).1 ct (Sm2.c1Len pc + C.DS + n) := by
  intro rnds
  induction rnds with
  | nil => intro m _ _ _; exact SameOutside.refl ..
  | cons q rest ih =>
    intro m hr hi ho
    obtain ⟨x1, y1, h1, x2, y2, h2, a, e1, e2, e3, e4⟩ := encPts_ok hp pc (hr q (by simp))
    have hs : Sm2.encryptStepM C pub pc ct pt n m q =
        Sm2.encStore C pc ct pt n m a (fieldOctets x2 ++ fieldOctets y2) := by
      unfold Sm2.encryptStepM
      rw [e4]
    have hf := encStore_frame hC pc (fieldOctets x2 ++ fieldOctets y2) (a := a) (by rw [e3, encForm_len]) hi ho
    rw [encryptM_cons, hs]
    generalize Sm2.encStore C pc ct pt n m a (fieldOctets x2 ++ fieldOctets y2) = r at hf
    obtain ⟨m1, (_ | k) | _ | _⟩ := r
    · exact hf.trans (ih m1 (fun r h => hr r (by simp [h])) (by rw [hf.1]; exact hi) (by rw [hf.1]; exact ho))
    · exact hf
    · exact hf
    · exact hf

/-! ## Decryption -/

/-- The places of `C1`, `C3` and `C2` in the memory. -/
theorem cut_places {m : Mem} {ct cLen : Nat} {C1 C3 C2 : List Byte} {v : Nat} (hc : Cut v (rdm m ct cLen) C1 C3 C2)
    (hb : ct + cLen ≤ m.length) : cLen = C1.length + v + C2.length ∧ rdm m ct C1.length = C1 ∧
      rdm m (ct + C1.length) v = C3 ∧ rdm m (ct + C1.length + v) C2.length = C2 := by
  obtain ⟨e, -, h3⟩ := hc
  have hl := rdm_len hb
  rw [e] at hl
  simp only [List.length_append] at hl
  have hcl : cLen = C1.length + v + C2.length := by omega
  rw [hcl, rdm_append, rdm_append] at e
  obtain ⟨e1, e2⟩ := List.append_inj e (by rw [List.length_append, List.length_append, rdm_len (by omega), rdm_len (by omega)]; omega)
  obtain ⟨e3, e4⟩ := List.append_inj e1 (by rw [rdm_len (by omega)])
  exact ⟨hcl, e3, e4, by rw [Nat.add_assoc]; exact e2⟩

theorem plaintextLen_cut {ct C1 C3 C2 : List Byte} (h : Cut C.DS ct C1 C3 C2) :
    Sm2.plaintextLen C ct = .ok C2.length := by
  obtain ⟨rfl, ⟨b, rest, rfl, hb⟩, h3⟩ := h
  unfold Sm2.plaintextLen
  simp only [List.cons_append]
  have hlen : (b :: (rest ++ C3 ++ C2)).length = rest.length + 1 + C.DS + C2.length := by
    simp [h3]; omega
  rw [hlen]
  rcases hb with ⟨hb, hl⟩ | ⟨hb, hl⟩
  · rw [if_neg (full_not_comp hb), if_pos hb, hl, o_bind, if_neg (by omega)]; congr 1; omega
  · rw [if_pos hb, hl, o_bind, if_neg (by omega)]; congr 1; omega

theorem plaintextLen_nocut {ct : List Byte} (h : ¬ ∃ C1 C3 C2, Cut C.DS ct C1 C3 C2) :
    Sm2.plaintextLen C ct = .throw := by
  unfold Sm2.plaintextLen
  cases ct with
  | nil => rfl
  | cons b rest =>
    simp only
    have fin : ∀ n, (C1Form ((b :: rest).take n) → n + C.DS ≤ (b :: rest).length → False) := by
      intro n hn hl
      apply h
      refine ⟨(b :: rest).take n, ((b :: rest).drop n).take C.DS, (b :: rest).drop (n + C.DS), ?_, hn, ?_⟩
      · rw [List.append_assoc, ← List.drop_drop, List.take_append_drop, List.take_append_drop]
      · rw [List.length_take, List.length_drop]; omega
    by_cases h1 : b = 0x02 ∨ b = 0x03
    · rw [if_pos h1, o_bind]
      by_cases hl : (b :: rest).length < 33 + C.DS
      · rw [if_pos hl]
      · exfalso
        refine fin 33 ⟨b, rest.take 32, rfl, Or.inr ⟨h1, ?_⟩⟩ (by omega)
        rw [List.length_cons] at hl
        rw [List.length_take]; omega
    · rw [if_neg h1]
      by_cases h2 : b = 0x04 ∨ b = 0x06 ∨ b = 0x07
      · rw [if_pos h2, o_bind]
        by_cases hl : (b :: rest).length < 65 + C.DS
        · rw [if_pos hl]
        · exfalso
          refine fin 65 ⟨b, rest.take 64, rfl, Or.inl ⟨h2, ?_⟩⟩ (by omega)
          rw [List.length_cons] at hl
          rw [List.length_take]; omega
      · rw [if_neg h2, t_bind]

theorem decPt_ok {K : Sm2.Priv} {d : Nat} (hK : Sm2PrivIs sm2G K d) {C1 : List Byte} (hf : C1Form C1) {P : Sm2Point}
    (hP : Sm2Decodes C1 P) :
    ∃ x2 y2 h2, d • P = .some x2 y2 h2 ∧ Sm2.decPt K C1 = .ok (fieldOctets x2 ++ fieldOctets y2) := by
  obtain ⟨kp, d1, d2, -⟩ := hK
  have kl : K.priv.length = 32 := by rw [kp, toBE_len]
  have kv : beVal K.priv = d := by
    rw [kp, beVal_toBE, Nat.mod_eq_of_lt]; exact d2.trans (by decide +kernel)
  rcases decode_ok hf with ⟨a, P', e1, e2, e3⟩ | ⟨e1, e2⟩
  swap
  · exact absurd hP (e2 P)
  have := decodes_unique e3 hP
  subst this
  obtain ⟨R, a', r1, a1, a2⟩ := mulA_affine kl (by rw [kv]; exact d1) (by rw [kv]; exact d2) e2
  rw [kv] at a2
  obtain ⟨_, _, hs, eP⟩ := id a2
  rw [eP] at a2
  have t2 := toBytes04_eq a2
  refine ⟨_, _, hs, eP, ?_⟩
  unfold Sm2.decPt
  rw [e1]
  simp only
  rw [if_neg (by simp), r1, ofOption_some, o_bind, a1, ofOption_some, o_bind, t2]

theorem decPt_throw {K : Sm2.Priv} {C1 : List Byte} (hf : C1Form C1) (hP : ∀ P, ¬ Sm2Decodes C1 P) :
    Sm2.decPt K C1 = .throw := by
  rcases decode_ok hf with ⟨a, P', e1, e2, e3⟩ | ⟨e1, e2⟩
  · exact absurd e3 (hP P')
  · unfold Sm2.decPt
    rw [e1]

theorem decryptM_cut {K : Sm2.Priv} {m : Mem} {pt ct cLen : Nat} {C1 C3 C2 : List Byte}
    (hc : Cut C.DS (rdm m ct cLen) C1 C3 C2) (hb : ct + cLen ≤ m.length) :
    Sm2.decryptM C K m pt ct cLen =
      match Sm2.decPt K C1 with
      | .throw => ⟨m, none, .throw⟩
      | .ub => ⟨m, none, .ub⟩
      | .ok x2y2 => Sm2.decStore C m pt (ct + C1.length) (ct + C1.length + C.DS) C2.length x2y2 := by
  obtain ⟨p1, p2, -⟩ := cut_places hc hb
  unfold Sm2.decryptM
  rw [plaintextLen_cut hc]
  simp only
  rw [show cLen - C2.length - C.DS = C1.length by omega, p2]
  generalize Sm2.decPt K C1 = o
  rcases o with _ | _ | _ <;> rfl

/-- Before the key stream is applied nothing is written. -/
theorem decryptM_early {K : Sm2.Priv} {m : Mem} {pt ct cLen : Nat} (hb : ct + cLen ≤ m.length)
    (h : ∀ C1 C3 C2 P, Cut C.DS (rdm m ct cLen) C1 C3 C2 → ¬ Sm2Decodes C1 P) :
    Sm2.decryptM C K m pt ct cLen = ⟨m, none, .throw⟩ := by
  by_cases hc : ∃ C1 C3 C2, Cut C.DS (rdm m ct cLen) C1 C3 C2
  · obtain ⟨C1, C3, C2, hc⟩ := hc
    rw [decryptM_cut hc hb, decPt_throw hc.2.1 (fun P => h C1 C3 C2 P hc)]
  · unfold Sm2.decryptM
    rw [plaintextLen_nocut hc]

open Classical in
theorem decStore_ok (hC : IsHash C H) {m : Mem} {pt C3 C2 n : Nat} {X Y : List Byte} (lx : X.length = 32)
    (ly : Y.length = 32) (ho : pt + n ≤ m.length) (hi : C2 + n ≤ m.length)
    (hd : pt = C2 ∨ pt + n ≤ C2 ∨ C2 + n ≤ pt) :
    Sm2.decStore C m pt C3 C2 n (X ++ Y) =
      if n ≥ C.DS * (2 ^ 32 - 1) then ⟨m, none, .throw⟩
      else
        let p := xorBytes (rdm m C2 n) (sm2Kdf H C.DS (X ++ Y) n)
        if n ≠ 0 ∧ (∀ b ∈ sm2Kdf H C.DS (X ++ Y) n, b = 0) then ⟨wrm m pt p, none, .throw⟩
        else if H (X ++ p ++ Y) ≠ rdm (wrm m pt p) C3 C.DS then ⟨wrm m pt p, some n, .throw⟩
        else ⟨wrm m pt p, some n, .ok ()⟩ := by
  unfold Sm2.decStore
  rw [kdfXorM_ok hC _ (by rw [List.length_append, lx, ly]; decide) _ _ _ _ ho hi hd]
  by_cases h0 : n ≥ C.DS * (2 ^ 32 - 1)
  · rw [if_pos h0, if_pos h0, Sm2.decTail]
  · rw [if_neg h0, if_neg h0]
    have hk := sm2Kdf_len hC (X ++ Y) n
    generalize sm2Kdf H C.DS (X ++ Y) n = ks at *
    by_cases hz : n ≠ 0 ∧ (∀ b ∈ ks, b = 0)
    · rw [if_pos hz, if_pos hz, Sm2.decTail]
    · rw [if_neg hz, if_neg hz, Sm2.decTail]
      have hx : (xorBytes (rdm m C2 n) ks).length = n := by rw [xorBytes_len, rdm_len hi, hk, Nat.min_self]
      have hrd : rdm (wrm m pt (xorBytes (rdm m C2 n) ks)) pt n = xorBytes (rdm m C2 n) ks := by
        have := rdm_wrm_same (m := m) (o := pt) (bs := xorBytes (rdm m C2 n) ks) (by omega)
        rwa [hx] at this
      rw [hrd, List.take_left' lx, List.drop_left' lx, List.take_of_length_le (l := Y) (by rw [ly]),
        hash3_ok hC _ _ _ lx ly, hx, if_pos (mul8_lt (by omega) hC.small)]
      simp only
      rw [List.take_of_length_le (by rw [hC.len])]

open Classical in
/-- The call when the point decodes. -/
theorem decryptM_late (hC : IsHash C H) {K : Sm2.Priv} {d : Nat} (hK : Sm2PrivIs sm2G K d) {m : Mem} {pt ct cLen : Nat}
    (hb : ct + cLen ≤ m.length) {C1 C3 C2 : List Byte} {P : Sm2Point} (hc : Cut C.DS (rdm m ct cLen) C1 C3 C2)
    (hP : Sm2Decodes C1 P) (ho : pt + C2.length ≤ m.length)
    (hd : pt = ct + C1.length + C.DS ∨ pt + C2.length ≤ ct + C1.length + C.DS ∨
      ct + C1.length + C.DS + C2.length ≤ pt) :
    ∃ x2 y2 h2, d • P = .some x2 y2 h2 ∧ Sm2.decryptM C K m pt ct cLen =
      if C2.length ≥ C.DS * (2 ^ 32 - 1) then ⟨m, none, .throw⟩
      else
        let p := xorBytes C2 (sm2Kdf H C.DS (fieldOctets x2 ++ fieldOctets y2) C2.length)
        if C2.length ≠ 0 ∧ (∀ b ∈ sm2Kdf H C.DS (fieldOctets x2 ++ fieldOctets y2) C2.length, b = 0) then
          ⟨wrm m pt p, none, .throw⟩
        else if H (fieldOctets x2 ++ p ++ fieldOctets y2) ≠ rdm (wrm m pt p) (ct + C1.length) C.DS then
          ⟨wrm m pt p, some C2.length, .throw⟩
        else ⟨wrm m pt p, some C2.length, .ok ()⟩ := by
  obtain ⟨p1, p2, p3, p4⟩ := cut_places hc hb
  obtain ⟨x2, y2, h2, eP, e⟩ := decPt_ok hK hc.2.1 hP
  refine ⟨x2, y2, h2, eP, ?_⟩
  rw [decryptM_cut hc hb, e]
  simp only
  rw [decStore_ok hC (fieldOctets_len x2) (fieldOctets_len y2) ho (by omega) hd, p4]

theorem decTail_mem (hC : IsHash C H) (pt C3 n : Nat) (Z : List Byte) (m : Mem) (o : Outcome Bool) :
    (Sm2.decTail C pt C3 n Z (m, o)).mem = m := by
  rcases o with b1 | _ | _
  · cases b1 with
    | true => rw [Sm2.decTail]
    | false =>
      rw [Sm2.decTail]
      rcases stream_cases hC [Z.take 32, rdm m pt n, (Z.drop 32).take 32] [] with ⟨D0, hd, e⟩ | e
      · rw [e]
        simp only
        split_ifs
        · rfl
        · rfl
      · rw [e]
  · rw [Sm2.decTail]
  · rw [Sm2.decTail]

theorem decStore_frame (hC : IsHash C H) (Z : List Byte) (m : Mem) (pt C3 C2 n : Nat) (ho : pt + n ≤ m.length)
    (hi : C2 + n ≤ m.length) : SameOutside m (Sm2.decStore C m pt C3 C2 n Z).mem pt n := by
  have hf := kdfXorM_frame hC Z m pt C2 n ho hi
  unfold Sm2.decStore
  generalize Sm2.kdfXorM C m pt C2 n Z = r at *
  obtain ⟨m1, o⟩ := r
  rw [decTail_mem hC]
  exact hf

theorem decRes_cases {m : Mem} {pt n : Nat} (o : Outcome (List Byte)) (f : List Byte → Sm2.DecRes)
    (hf : ∀ Z, SameOutside m (f Z).mem pt n) :
    SameOutside m (match o with
      | .throw => (⟨m, none, .throw⟩ : Sm2.DecRes)
      | .ub => ⟨m, none, .ub⟩
      | .ok x2y2 => f x2y2).mem pt n := by
  rcases o with Z | _ | _
  · exact hf Z
  · exact SameOutside.refl ..
  · exact SameOutside.refl ..

/-- Whatever overlaps: only the plaintext's place is written. -/
theorem decryptM_frame (hC : IsHash C H) (K : Sm2.Priv) (m : Mem) (pt ct cLen n : Nat) (hb : ct + cLen ≤ m.length)
    (hn : Sm2.plaintextLen C (rdm m ct cLen) = .ok n) (ho : pt + n ≤ m.length) :
    SameOutside m (Sm2.decryptM C K m pt ct cLen).mem pt n := by
  have hc : ∃ C1 C3 C2, Cut C.DS (rdm m ct cLen) C1 C3 C2 := by
    by_contra h
    rw [plaintextLen_nocut h] at hn
    cases hn
  obtain ⟨C1, C3, C2, hc⟩ := hc
  obtain ⟨p1, -⟩ := cut_places hc hb
  rw [plaintextLen_cut hc, Outcome.ok.injEq] at hn
  rw [decryptM_cut hc hb, hn]
  exact decRes_cases _ _ (fun Z => decStore_frame hC Z m pt _ _ n ho (by omega))

end Verif
