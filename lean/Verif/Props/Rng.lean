import Verif.Model.Rng
import Verif.Proofs.Modes
import Verif.Props.EndianMovbe
import Verif.Props.Sm2
/-!
# Properties C76, C77: the generators
-/
namespace Verif.Props
open Verif.Rng Verif.Spec

/-! ## C76: gen fills the buffer or throws -/

/-- The octets of a number of `n` octets, least significant first. -/
def octetsLE (n v : Nat) : List Byte := (List.range n).map fun i => BitVec.ofNat 8 (v / 256 ^ i)

/-- The numbers the hardware delivered in requests `i`, ..., `j - 1`. -/
def delivered {w : Nat} (hw : Nat → Option (BitVec w)) (i j : Nat) : List (BitVec w) :=
  (List.range' i (j - i)).filterMap hw

namespace RngProof
variable {w : Nat} {hw : Nat → Option (BitVec w)}

theorem delivered_append {i j k : Nat} (h1 : i ≤ j) (h2 : j ≤ k) :
    delivered hw i k = delivered hw i j ++ delivered hw j k := by
  unfold delivered
  rw [← List.filterMap_append]
  congr 1
  have := List.range'_append_1 (s := i) (m := j - i) (n := k - j)
  rw [show i + (j - i) = j by omega, show j - i + (k - j) = k - i by omega] at this
  exact this.symm

theorem delivered_none {i j : Nat} (h : ∀ t, i ≤ t → t < j → hw t = none) : delivered hw i j = [] := by
  unfold delivered
  rw [List.filterMap_eq_nil_iff]
  intro a ha
  rw [List.mem_range'_1] at ha
  exact h a ha.1 (by omega)

theorem delivered_one {i : Nat} {v : BitVec w} (h : hw i = some v) : delivered hw i (i + 1) = [v] := by
  unfold delivered
  rw [show i + 1 - i = 1 by omega]
  simp [List.range', h]

theorem delivered_self (i : Nat) : delivered hw i i = [] := delivered_none fun t h1 h2 => by omega

theorem retryLoop_some : ∀ {r i : Nat} {v : BitVec w} {j : Nat}, retryLoop hw r i = (some v, j) →
    i < j ∧ j ≤ i + r ∧ hw (j - 1) = some v ∧ ∀ t, i ≤ t → t < j - 1 → hw t = none
  | 0, i, v, j, h => by cases h
  | r + 1, i, v, j, h => by
    unfold retryLoop at h
    cases e : hw i with
    | some u =>
      rw [e] at h
      simp only [Prod.mk.injEq, Option.some.injEq] at h
      obtain ⟨rfl, rfl⟩ := h
      exact ⟨by omega, by omega, e, fun t h1 h2 => by omega⟩
    | none =>
      rw [e] at h
      obtain ⟨h1, h2, h3, h4⟩ := retryLoop_some (r := r) h
      refine ⟨by omega, by omega, h3, fun t t1 t2 => ?_⟩
      by_cases ht : t = i
      · rw [ht]; exact e
      · exact h4 t (by omega) t2

theorem retryLoop_none : ∀ {r i j : Nat}, retryLoop hw r i = (none, j) →
    j = i + r ∧ ∀ t, i ≤ t → t < j → hw t = none
  | 0, i, j, h => by
    unfold retryLoop at h
    simp only [Prod.mk.injEq, true_and] at h
    exact ⟨by omega, fun t h1 h2 => by omega⟩
  | r + 1, i, j, h => by
    unfold retryLoop at h
    cases e : hw i with
    | some u => rw [e] at h; cases h
    | none =>
      rw [e] at h
      obtain ⟨h1, h2⟩ := retryLoop_none (r := r) h
      refine ⟨by omega, fun t t1 t2 => ?_⟩
      by_cases ht : t = i
      · rw [ht]; exact e
      · exact h2 t (by omega) t2

theorem retry_some {r i : Nat} {v : BitVec w} {j : Nat} (h : retry hw r i = (some v, j)) :
    i < j ∧ j ≤ i + r + 1 ∧ hw (j - 1) = some v ∧ ∀ t, i ≤ t → t < j - 1 → hw t = none := by
  unfold retry at h
  cases e : hw i with
  | some u =>
    rw [e] at h
    simp only [Prod.mk.injEq, Option.some.injEq] at h
    obtain ⟨rfl, rfl⟩ := h
    exact ⟨by omega, by omega, e, fun t h1 h2 => by omega⟩
  | none =>
    rw [e] at h
    obtain ⟨h1, h2, h3, h4⟩ := retryLoop_some h
    refine ⟨by omega, by omega, h3, fun t t1 t2 => ?_⟩
    by_cases ht : t = i
    · rw [ht]; exact e
    · exact h4 t (by omega) t2

theorem retry_none {r i j : Nat} (h : retry hw r i = (none, j)) :
    j = i + r + 1 ∧ ∀ t, i ≤ t → t < j → hw t = none := by
  unfold retry at h
  cases e : hw i with
  | some u => rw [e] at h; cases h
  | none =>
    rw [e] at h
    obtain ⟨h1, h2⟩ := retryLoop_none h
    refine ⟨by omega, fun t t1 t2 => ?_⟩
    by_cases ht : t = i
    · rw [ht]; exact e
    · exact h2 t (by omega) t2

theorem retry_delivered {r i : Nat} {v : BitVec w} {j : Nat} (h : retry hw r i = (some v, j)) :
    delivered hw i j = [v] := by
  obtain ⟨h1, h2, h3, h4⟩ := retry_some h
  have e : j = j - 1 + 1 := by omega
  rw [delivered_append (j := j - 1) (by omega) (by omega), delivered_none (fun t a b => h4 t a b), List.nil_append]
  conv_lhs => rw [e]
  rw [show j - 1 + 1 - 1 = j - 1 by omega]
  exact delivered_one h3

theorem wordBytes_eq (v : BitVec w) : wordBytes v = octetsLE (w / 8) v.toNat := by
  unfold wordBytes octetsLE
  apply List.map_congr_left
  intro i _
  apply BitVec.eq_of_toNat_eq
  rw [Movbe.byte_val, BitVec.toNat_ofNat]

theorem octetsLE_take {n k v : Nat} (h : n ≤ k) : (octetsLE k v).take n = octetsLE n v := by
  unfold octetsLE
  rw [← List.map_take, List.take_range, Nat.min_eq_left h]

theorem octetsLE_succ (n v : Nat) : octetsLE (n + 1) v = BitVec.ofNat 8 v :: octetsLE n (v / 256) := by
  unfold octetsLE
  rw [List.range_succ_eq_map, List.map_cons, List.map_map, Nat.pow_zero, Nat.div_one]
  congr 1
  apply List.map_congr_left
  intro i _
  simp only [Function.comp, Nat.succ_eq_add_one]
  rw [show 256 ^ (i + 1) = 256 * 256 ^ i from Nat.pow_succ', Nat.div_div_eq_div_mul]

theorem tailBytes_eq (hB : 8 ≤ w) : ∀ (n : Nat) (v : BitVec w), tailBytes n v = octetsLE n v.toNat
  | 0, v => rfl
  | n + 1, v => by
    rw [octetsLE_succ]
    unfold tailBytes
    rw [tailBytes_eq hB n, BitVec.toNat_ushiftRight, Nat.shiftRight_eq_div_pow]
    congr 1
    apply BitVec.eq_of_toNat_eq
    have h255 : 0xFF < 2 ^ w := lt_of_lt_of_le (by decide : 0xFF < 2 ^ 8) (Nat.pow_le_pow_right (by omega) hB)
    rw [BitVec.toNat_setWidth, BitVec.toNat_and, BitVec.toNat_ofNat, BitVec.toNat_ofNat, Nat.mod_eq_of_lt h255,
      show 0xFF = 2 ^ 8 - 1 from rfl, Nat.and_two_pow_sub_one_eq_mod, Nat.mod_mod]

theorem ceil_step {B len : Nat} (hB : 0 < B) (h : B ≤ len) :
    (len + B - 1) / B = (len - B + B - 1) / B + 1 := by
  rw [show len + B - 1 = (len - B + B - 1) + B by omega, Nat.add_div_right _ hB]

theorem ceil_one {B len : Nat} (h0 : 0 < len) (h : len < B) : (len + B - 1) / B = 1 := by
  rw [show len + B - 1 = (len - 1) + B by omega, Nat.add_div_right _ (by omega), Nat.div_eq_of_lt (by omega)]

theorem octetsLE_len (n v : Nat) : (octetsLE n v).length = n := by unfold octetsLE; simp

end RngProof

open RngProof

section
variable {w : Nat} (hw : Nat → Option (BitVec w))

/-- C76 (hardware generators): when `gen` returns, it has written exactly the requested bytes, namely the first `len`
octets of the numbers the hardware delivered in the requests made, each number used once and none left out, exactly as
many numbers as needed; and there was no run of `retries + 1` failures. -/
theorem C76_hardware_fills (hB : 0 < w / 8) (retries : Nat) (m : Mem) (p len i : Nat) (hm : p + len ≤ m.length)
    (m' : Mem) (j : Nat) (h : gen hw hB retries m p len i = .ok m' j) :
    m' = wrm m p (((delivered hw i j).flatMap fun v => octetsLE (w / 8) v.toNat).take len) ∧
    (delivered hw i j).length = (len + w / 8 - 1) / (w / 8) ∧ i ≤ j ∧
    ((delivered hw i j).flatMap fun v => octetsLE (w / 8) v.toNat).length < len + w / 8 ∧
    len ≤ ((delivered hw i j).flatMap fun v => octetsLE (w / 8) v.toNat).length ∧
    ∀ q, i ≤ q → q + retries < j → ∃ t, q ≤ t ∧ t ≤ q + retries ∧ (hw t).isSome := by
  induction hn : len using Nat.strong_induction_on generalizing m p i len with
  | _ n ih =>
    subst hn
    rw [gen] at h
    by_cases hlen : w / 8 ≤ len
    · rw [dif_pos hlen] at h
      rcases e : retry hw retries i with ⟨o, k⟩
      rw [e] at h
      cases o with
      | none => cases h
      | some v =>
        dsimp only at h
        have hwl : (wordBytes v).length = w / 8 := by rw [wordBytes_eq, octetsLE_len]
        obtain ⟨i1, i2, i3, i4, i5, i6⟩ := ih (len - w / 8) (by omega) (wrm m p (wordBytes v)) (p + w / 8)
          (len - w / 8) k (by rw [wrm_len (by omega)]; omega) h rfl
        obtain ⟨r1, r2, r3, r4⟩ := retry_some e
        have hd : delivered hw i j = v :: delivered hw k j := by
          rw [delivered_append (j := k) (by omega) i3, retry_delivered e]; rfl
        rw [hd, List.flatMap_cons, List.length_append, octetsLE_len, List.length_cons]
        refine ⟨?_, ?_, by omega, by omega, by omega, ?_⟩
        · rw [i1, wordBytes_eq, List.take_append, octetsLE_len,
            List.take_of_length_le (l := octetsLE (w / 8) v.toNat) (by rw [octetsLE_len]; omega)]
          have := wrm_wrm (m := m) (o := p) (a := octetsLE (w / 8) v.toNat)
            (b := ((delivered hw k j).flatMap fun v => octetsLE (w / 8) v.toNat).take (len - w / 8))
            (by rw [octetsLE_len, List.length_take]; omega)
          rw [octetsLE_len] at this
          exact this
        · rw [i2, ceil_step hB hlen]
        · intro q q1 q2
          by_cases hq : k ≤ q
          · exact i6 q hq q2
          · by_cases hq2 : k - 1 ≤ q + retries
            · exact ⟨k - 1, by omega, hq2, by rw [r3]; rfl⟩
            · omega
    · rw [dif_neg hlen] at h
      by_cases h0 : len = 0
      · subst h0
        simp only [ne_eq, not_true, if_false, Res.ok.injEq] at h
        obtain ⟨rfl, rfl⟩ := h
        rw [delivered_self]
        refine ⟨by rw [List.take_zero, wrm_nil], ?_, le_refl _, by simpa using hB, le_refl _, fun q h1 h2 => by omega⟩
        rw [Nat.zero_add, Nat.div_eq_of_lt (by omega)]; rfl
      · rw [if_pos h0] at h
        rcases e : retry hw retries i with ⟨o, k⟩
        rw [e] at h
        cases o with
        | none => cases h
        | some v =>
          simp only [Res.ok.injEq] at h
          obtain ⟨rfl, rfl⟩ := h
          obtain ⟨r1, r2, r3, r4⟩ := retry_some e
          rw [retry_delivered e, List.flatMap_cons, List.flatMap_nil, List.append_nil, octetsLE_len]
          refine ⟨by rw [tailBytes_eq (by omega), octetsLE_take (by omega)], ?_, by omega, by omega, by omega, ?_⟩
          · rw [ceil_one (by omega) (by omega)]; rfl
          · intro q q1 q2
            exact ⟨k - 1, by omega, by omega, by rw [r3]; rfl⟩

/-- C76 (hardware generators): `gen` throws only when `retries + 1` requests in a row failed before enough numbers had
been delivered, and then it has not touched any byte outside the buffer. -/
theorem C76_hardware_throws (hB : 0 < w / 8) (retries : Nat) (m : Mem) (p len i : Nat) (hm : p + len ≤ m.length)
    (m' : Mem) (j : Nat) (h : gen hw hB retries m p len i = .throw m' j) :
    i + retries + 1 ≤ j ∧ (∀ t, j - (retries + 1) ≤ t → t < j → hw t = none) ∧
    (delivered hw i j).length < (len + w / 8 - 1) / (w / 8) ∧
    m'.length = m.length ∧ ∀ k, k < p ∨ p + len ≤ k → m'[k]? = m[k]? := by
  induction hn : len using Nat.strong_induction_on generalizing m p i len with
  | _ n ih =>
    subst hn
    rw [gen] at h
    by_cases hlen : w / 8 ≤ len
    · rw [dif_pos hlen] at h
      rcases e : retry hw retries i with ⟨o, k⟩
      rw [e] at h
      cases o with
      | none =>
        simp only [Res.throw.injEq] at h
        obtain ⟨rfl, rfl⟩ := h
        obtain ⟨r1, r2⟩ := retry_none e
        refine ⟨by omega, fun t h1 h2 => r2 t (by omega) h2, ?_, ?_, ?_⟩
        · rw [delivered_none r2]
          refine Nat.div_pos ?_ hB
          omega
        · rw [wrm_len (by rw [List.length_replicate]; omega)]
        · intro q hq
          rw [wrm_get (by rw [List.length_replicate]; omega), List.length_replicate]
          split
          · rfl
          · rw [if_neg (by omega)]
      | some v =>
        dsimp only at h
        have hwl : (wordBytes v).length = w / 8 := by rw [wordBytes_eq, octetsLE_len]
        obtain ⟨i1, i2, i3, i4, i5⟩ := ih (len - w / 8) (by omega) (wrm m p (wordBytes v)) (p + w / 8)
          (len - w / 8) k (by rw [wrm_len (by omega)]; omega) h rfl
        obtain ⟨r1, r2, r3, r4⟩ := retry_some e
        have hd : delivered hw i j = v :: delivered hw k j := by
          rw [delivered_append (j := k) (by omega) (by omega), retry_delivered e]; rfl
        refine ⟨by omega, i2, ?_, ?_, ?_⟩
        · rw [hd, List.length_cons]
          rw [ceil_step hB hlen]
          omega
        · rw [i4, wrm_len (by omega)]
        · intro q hq
          rw [i5 q (by omega), wrm_get (by omega), hwl]
          split
          · rfl
          · rw [if_neg (by omega)]
    · rw [dif_neg hlen] at h
      by_cases h0 : len = 0
      · rw [if_neg (by omega)] at h; cases h
      · rw [if_pos h0] at h
        rcases e : retry hw retries i with ⟨o, k⟩
        rw [e] at h
        cases o with
        | some v => cases h
        | none =>
          simp only [Res.throw.injEq] at h
          obtain ⟨rfl, rfl⟩ := h
          obtain ⟨r1, r2⟩ := retry_none e
          refine ⟨by omega, fun t h1 h2 => r2 t (by omega) h2, ?_, rfl, fun _ _ => rfl⟩
          rw [delivered_none r2]
          refine Nat.div_pos ?_ hB
          omega

end

/-- Twelve bytes from a 64-bit source that fails once: two numbers are used, the second one in part. -/
example : gen (w := 64) (fun i => if i = 1 then none else some (BitVec.ofNat 64 (0x0807060504030201 + i))) (by decide) 10
    (List.replicate 14 0xee) 1 12 0 =
    .ok [0xee, 1, 2, 3, 4, 5, 6, 7, 8, 3, 2, 3, 4, 0xee] 3 := by
  rw [gen, dif_pos (by decide)]
  have e1 : retry (w := 64) (fun i => if i = 1 then none else some (BitVec.ofNat 64 (0x0807060504030201 + i))) 10 0 =
    (some 0x0807060504030201#64, 1) := by decide
  have e2 : retry (w := 64) (fun i => if i = 1 then none else some (BitVec.ofNat 64 (0x0807060504030201 + i))) 10 1 =
    (some 0x0807060504030203#64, 3) := by decide
  rw [e1]
  dsimp only
  rw [gen, dif_neg (by decide), e2]
  decide

/-- A source that never delivers makes `gen` throw. -/
example : gen (w := 32) (fun _ => none) (by decide) 10 [0xee, 0xee, 0xee] 0 3 0 = .throw [0xee, 0xee, 0xee] 11 := by
  rw [gen, dif_neg (by decide)]
  decide

/-- C76 (operating system generators): with a system call that delivers what it is asked for or reports failure, `gen`
either returns with the buffer filled by the concatenated answers to consecutive calls, or throws because the last call
made reported failure. -/
theorem C76_os_fills (os : Nat → Nat → Option (List Byte)) (hos : ∀ i n bs, os i n = some bs → bs.length = n)
    (maxCall : Nat) (hM : 0 < maxCall) (m : Mem) (p len i : Nat) (hm : p + len ≤ m.length) :
    (∃ chunks : List (List Byte), chunks.flatten.length = len ∧ (∀ c ∈ chunks, 0 < c.length ∧ c.length ≤ maxCall) ∧
      (∀ k (h : k < chunks.length), os (i + k) chunks[k].length = some chunks[k]) ∧
      osGen os maxCall hM m p len i = .ok (wrm m p chunks.flatten) (i + chunks.length)) ∨
    (∃ (m' : Mem) (j n : Nat), osGen os maxCall hM m p len i = .throw m' (j + 1) ∧ i ≤ j ∧ os j n = none ∧
      n ≤ maxCall ∧ m'.length = m.length ∧ ∀ k, k < p ∨ p + len ≤ k → m'[k]? = m[k]?) := by
  induction hn : len using Nat.strong_induction_on generalizing m p i len with
  | _ n ih =>
    subst hn
    rw [osGen]
    by_cases hlen : maxCall ≤ len
    · rw [dif_pos hlen]
      cases e : os i maxCall with
      | none => exact Or.inr ⟨m, i, maxCall, rfl, le_refl _, e, le_refl _, rfl, fun _ _ => rfl⟩
      | some bs =>
        have hb := hos _ _ _ e
        dsimp only
        rcases ih (len - maxCall) (by omega) (wrm m p bs) (p + maxCall) (len - maxCall) (i + 1)
          (by rw [wrm_len (by omega)]; omega) rfl with ⟨cs, c1, c2, c3, c4⟩ | ⟨m', j, n, t1, t2, t3, t4, t5, t6⟩
        · left
          refine ⟨bs :: cs, ?_, ?_, ?_, ?_⟩
          · rw [List.flatten_cons, List.length_append, c1]; omega
          · intro c hc
            rcases List.mem_cons.mp hc with rfl | hc
            · omega
            · exact c2 c hc
          · intro k hk
            cases k with
            | zero => rw [List.getElem_cons_zero, hb]; exact e
            | succ k =>
              rw [List.getElem_cons_succ, show i + (k + 1) = i + 1 + k by omega]
              exact c3 k (by rw [List.length_cons] at hk; omega)
          · rw [c4, List.flatten_cons, List.length_cons]
            have := wrm_wrm (m := m) (o := p) (a := bs) (b := cs.flatten) (by omega)
            rw [hb] at this
            rw [this, show i + 1 + cs.length = i + (cs.length + 1) by omega]
        · right
          refine ⟨m', j, n, t1, by omega, t3, t4, by rw [t5, wrm_len (by omega)], fun k hk => ?_⟩
          rw [t6 k (by omega), wrm_get (by omega), hb]
          split
          · rfl
          · rw [if_neg (by omega)]
    · rw [dif_neg hlen]
      by_cases h0 : len = 0
      · left
        refine ⟨[], by simp [h0], by simp, by simp, ?_⟩
        rw [if_neg (by omega), List.flatten_nil, wrm_nil]; rfl
      · rw [if_pos h0]
        cases e : os i len with
        | none => exact Or.inr ⟨m, i, len, rfl, le_refl _, e, by omega, rfl, fun _ _ => rfl⟩
        | some bs =>
          have hb := hos _ _ _ e
          left
          refine ⟨[bs], by simp [hb], ?_, ?_, ?_⟩
          · intro c hc
            rw [List.mem_singleton] at hc; subst hc; omega
          · intro k hk
            have : k = 0 := by simpa using hk
            subst this
            rw [List.getElem_cons_zero, hb]; exact e
          · simp

/-- Seven bytes with calls of at most three: three calls. -/
example : osGen (fun i n => some (List.replicate n (BitVec.ofNat 8 (i + 1)))) 3 (by decide) (List.replicate 9 0) 1 7 0 =
    .ok [0, 1, 1, 1, 2, 2, 2, 3, 0] 3 := by
  rw [osGen, dif_pos (by decide)]
  dsimp only
  rw [osGen, dif_pos (by decide)]
  dsimp only
  rw [osGen, dif_neg (by decide)]
  decide

/-- C76 (`std::random_device`): `gen` returns with one value of the device per byte, or throws because the device
did. -/
theorem C76_std_fills (dev : Nat → Option (BitVec 32)) (m : Mem) (p len i : Nat) (hm : p + len ≤ m.length) :
    (∃ vs : List (BitVec 32), vs.length = len ∧ (∀ k (h : k < vs.length), dev (i + k) = some vs[k]) ∧
      stdGen dev m p len i = .ok (wrm m p (vs.map fun v => BitVec.ofNat 8 v.toNat)) (i + len)) ∨
    (∃ (m' : Mem) (j : Nat), stdGen dev m p len i = .throw m' (j + 1) ∧ i ≤ j ∧ j < i + len ∧ dev j = none) := by
  induction len generalizing m p i with
  | zero => left; exact ⟨[], rfl, fun k h => by simp at h, by simp [stdGen, wrm_nil]⟩
  | succ len ih =>
    unfold stdGen
    cases e : dev i with
    | none => right; exact ⟨m, i, rfl, le_refl _, by omega, e⟩
    | some v =>
      dsimp only
      rcases ih (wrm m p [v.setWidth 8]) (p + 1) (i + 1) (by rw [wrm_len (by simp; omega)]; omega) with
        ⟨vs, v1, v2, v3⟩ | ⟨m', j, t1, t2, t3, t4⟩
      · left
        refine ⟨v :: vs, by simp [v1], ?_, ?_⟩
        · intro k hk
          cases k with
          | zero => exact e
          | succ k =>
            rw [List.getElem_cons_succ, show i + (k + 1) = i + 1 + k by omega]
            exact v2 k (by rw [List.length_cons] at hk; omega)
        · rw [v3, show i + 1 + len = i + (len + 1) by omega, List.map_cons]
          have hv : v.setWidth 8 = BitVec.ofNat 8 v.toNat := by
            apply BitVec.eq_of_toNat_eq; rw [BitVec.toNat_setWidth, BitVec.toNat_ofNat]
          have := wrm_wrm (m := m) (o := p) (a := [v.setWidth 8]) (b := vs.map fun v => BitVec.ofNat 8 v.toNat)
            (by simp [v1]; omega)
          rw [List.length_singleton] at this
          rw [this, hv]; rfl
      · right
        exact ⟨m', j, t1, by omega, by omega, t4⟩

/-! ## C77: generators do not repeat each other -/

/-- C77 fails for `CstdRng`: whatever the C library, a generator constructed within the same second as an earlier one
repeats it, whatever happened in between (the states are arbitrary), in any number of calls of any size. -/
theorem C77_cstd_repeats_violated (L : LibC) (t : BitVec 64) (s₁ s₂ : L.State) (n k : Nat) :
    cstdCalls L n k (cstdNew L t s₁) = cstdCalls L n k (cstdNew L t s₂) := rfl

/-- C77 fails for `CstdRng`: the seconds are taken modulo `2^32`, so at most `2^32` streams exist. -/
theorem C77_cstd_seed_violated (L : LibC) (t₁ t₂ : BitVec 64) (s₁ s₂ : L.State) (h : t₁.toNat % 2 ^ 32 = t₂.toNat % 2 ^ 32)
    (n k : Nat) : cstdCalls L n k (cstdNew L t₁ s₁) = cstdCalls L n k (cstdNew L t₂ s₂) := by
  have : t₁.setWidth 32 = t₂.setWidth 32 := by
    apply BitVec.eq_of_toNat_eq; rw [BitVec.toNat_setWidth, BitVec.toNat_setWidth, h]
  unfold cstdNew; rw [this]

/-- Two SM2 signatures with the same nonce on different digests give the private key. -/
theorem sm2_same_nonce {d e₁ e₂ k r₁ s₁ r₂ s₂ : Nat} (h1 : IsSm2Sig sm2G d e₁ k r₁ s₁) (h2 : IsSm2Sig sm2G d e₂ k r₂ s₂)
    (he : e₁ % sm2n ≠ e₂ % sm2n) :
    (d : ZMod sm2n) = ((s₂ : ZMod sm2n) - s₁) / ((s₁ : ZMod sm2n) + r₁ - s₂ - r₂) := by
  have : Fact sm2n.Prime := ⟨sm2n_prime⟩
  obtain ⟨⟨x1, y1, hp1, a1, b1⟩, -, -, -, -, c1⟩ := h1
  obtain ⟨⟨x2, y2, hp2, a2, b2⟩, -, -, -, -, c2⟩ := h2
  rw [a1] at a2
  have hx : x1 = x2 := by
    injection a2
  have E1 : (s₁ : ZMod sm2n) * (1 + d) + r₁ * d = k := by
    have := (ZMod.natCast_eq_natCast_iff _ _ sm2n).mpr c1
    push_cast at this; exact this
  have E2 : (s₂ : ZMod sm2n) * (1 + d) + r₂ * d = k := by
    have := (ZMod.natCast_eq_natCast_iff _ _ sm2n).mpr c2
    push_cast at this; exact this
  have R1 : (r₁ : ZMod sm2n) = e₁ + (x1.val : ZMod sm2n) := by
    rw [b1, ZMod.natCast_mod]; push_cast; rfl
  have R2 : (r₂ : ZMod sm2n) = e₂ + (x1.val : ZMod sm2n) := by
    rw [b2, ZMod.natCast_mod, ← hx]; push_cast; rfl
  have hr : (r₁ : ZMod sm2n) ≠ r₂ := by
    intro h
    rw [R1, R2, add_left_inj] at h
    exact he ((ZMod.natCast_eq_natCast_iff _ _ sm2n).mp h)
  have hden : (s₁ : ZMod sm2n) + r₁ - s₂ - r₂ ≠ 0 := by
    intro h0
    have hs : (s₁ : ZMod sm2n) = s₂ := by linear_combination E1 - E2 - (d : ZMod sm2n) * h0
    exact hr (by linear_combination h0 - hs)
  rw [eq_div_iff hden]
  linear_combination E1 - E2

/-- C77, consequence: sign two messages with different digests under one SM2 key with `CstdRng` objects constructed
within the same second, and (when the first number drawn serves for both, as all but a `2^-255` fraction does) the
private key can be read off the two signatures. -/
theorem C77_cstd_key_violated {S : Type} {C : HashClass S} {H : List Byte → List Byte} (hC : IsHash C H) (L : LibC)
    (t : BitVec 64) (σ₁ σ₂ : L.State) (K : Sm2.Priv) (d : Nat) (hK : Sm2PrivIs sm2G K d) (hd : d ≤ sm2n - 2)
    (msg₁ msg₂ id : List Byte) (hid : 8 * id.length ≤ 65535) (h1 : 8 * (C.DS + msg₁.length) < 2 ^ 64)
    (h2 : 8 * (C.DS + msg₂.length) < 2 ^ 64)
    (he : sm2E H id K.pub.x K.pub.y msg₁ % sm2n ≠ sm2E H id K.pub.x K.pub.y msg₂ % sm2n) (r₁ s₁ r₂ s₂ : Nat)
    (b1 : r₁ < sm2n ∧ s₁ < sm2n) (b2 : r₂ < sm2n ∧ s₂ < sm2n)
    (g1 : Sm2.sign C K msg₁ (cstdCalls L 32 1 (cstdNew L t σ₁)) id = .ok (some (toBE 32 r₁ ++ toBE 32 s₁)))
    (g2 : Sm2.sign C K msg₂ (cstdCalls L 32 1 (cstdNew L t σ₂)) id = .ok (some (toBE 32 r₂ ++ toBE 32 s₂))) :
    (d : ZMod sm2n) = ((s₂ : ZMod sm2n) - s₁) / ((s₁ : ZMod sm2n) + r₁ - s₂ - r₂) := by
  have hlen : ∀ (n : Nat) (s : L.State), (cstdGen L n s).1.length = n := by
    intro n
    induction n with
    | zero => intro s; rfl
    | succ n ih => intro s; unfold cstdGen; simp [ih]
  have hb : sm2n < 256 ^ 32 := by decide +kernel
  have inj : ∀ {a b a' b' : Nat}, a < sm2n ∧ b < sm2n → a' < 2 ^ 256 ∧ b' < 2 ^ 256 →
      toBE 32 a ++ toBE 32 b = toBE 32 a' ++ toBE 32 b' → a = a' ∧ b = b' := by
    intro a b a' b' h h' e
    obtain ⟨e1, e2⟩ := List.append_inj e (by rw [toBE_len, toBE_len])
    have h256 : (2 : Nat) ^ 256 = 256 ^ 32 := by decide
    constructor
    · have := congrArg beVal e1
      rwa [beVal_toBE, beVal_toBE, Nat.mod_eq_of_lt (by omega), Nat.mod_eq_of_lt (by omega)] at this
    · have := congrArg beVal e2
      rwa [beVal_toBE, beVal_toBE, Nat.mod_eq_of_lt (by omega), Nat.mod_eq_of_lt (by omega)] at this
  have key : ∀ (msg : List Byte) (σ : L.State) (r s : Nat), 8 * (C.DS + msg.length) < 2 ^ 64 → r < sm2n ∧ s < sm2n →
      Sm2.sign C K msg (cstdCalls L 32 1 (cstdNew L t σ)) id = .ok (some (toBE 32 r ++ toBE 32 s)) →
      IsSm2Sig sm2G d (sm2E H id K.pub.x K.pub.y msg)
        (beVal (cstdGen L 32 (L.srand (t.setWidth 32))).1 % (sm2n - 1) + 1) r s := by
    intro msg σ r s hm hb' g
    obtain ⟨-, hs⟩ := C44_sign hC K d hK hd msg id (cstdCalls L 32 1 (cstdNew L t σ)) (by
      intro q hq
      unfold cstdCalls cstdCalls at hq
      rw [List.mem_singleton] at hq
      rw [hq, hlen])
    obtain ⟨pre, rnd, post, r', s', e, -, hsig, hrs⟩ := ((hs ⟨hid, hm⟩).1 _).mp g
    unfold cstdCalls cstdCalls at e
    have hpre : pre = [] := by
      cases pre with
      | nil => rfl
      | cons a pre => simp at e
    subst hpre
    simp only [List.nil_append, List.cons.injEq] at e
    rw [← e.1] at hsig
    obtain ⟨⟨x, y, hh, -, q1⟩, -, -, q2, -⟩ := (show _ from hsig)
    have hn0 : 0 < sm2n := by decide +kernel
    have hr' : r' < sm2n := by rw [q1]; exact Nat.mod_lt _ hn0
    have h256 : (2 : Nat) ^ 256 = 256 ^ 32 := by decide
    obtain ⟨rfl, rfl⟩ := inj hb' ⟨by omega, by omega⟩ hrs
    exact hsig
  exact sm2_same_nonce (key msg₁ σ₁ r₁ s₁ h1 b1 g1) (key msg₂ σ₂ r₂ s₂ h2 b2 g2) he

/-- A C library for the example below: `rand` counts in steps of 256. -/
def exLibC : LibC := ⟨Nat, fun t => t.toNat, fun s => (BitVec.ofNat 32 (256 * s), s + 1)⟩

theorem sm2E_eq {S : Type} {C : HashClass S} {H : List Byte → List Byte} (hC : IsHash C H) {id x y msg Z e : List Byte}
    (hx : x.length = 32) (hy : y.length = 32) (hi : 8 * id.length ≤ 65535) (hm : 8 * (C.DS + msg.length) < 2 ^ 64)
    (hz : Sm2.computeZ C id x y = .ok Z) (he : C.stream [Z.take C.DS, msg] [] = .ok e) :
    sm2E H id x y msg = beVal e := by
  rw [computeZ_ok hC _ _ _ hx hy, if_pos hi, Outcome.ok.injEq] at hz
  subst hz
  rw [digest_ok hC (sm2Z H id x y) _ (hC.len _), if_pos hm, Outcome.ok.injEq] at he
  subst he
  rfl

theorem ex_cstd_draw (t : BitVec 64) (σ : exLibC.State) : cstdCalls exLibC 32 1 (cstdNew exLibC t σ) = [toBE 32 0] := by
  have : ∀ (n : Nat) (s : Nat), (cstdGen exLibC n s).1 = List.replicate n 0 := by
    intro n
    induction n with
    | zero => intro s; rfl
    | succ n ih =>
      intro s
      have e : (BitVec.ofNat 32 (256 * s)).setWidth 8 = 0#8 := by
        apply BitVec.eq_of_toNat_eq
        simp only [BitVec.toNat_setWidth, BitVec.toNat_ofNat]
        omega
      show (BitVec.ofNat 32 (256 * s)).setWidth 8 :: (cstdGen exLibC n (s + 1 : Nat)).1 = _
      rw [ih, e]; rfl
  unfold cstdCalls cstdCalls
  rw [show (cstdGen exLibC 32 (cstdNew exLibC t σ)).1 = List.replicate 32 0 from this 32 _]
  decide +kernel

theorem ex_cstd_sign (t : BitVec 64) (σ : exLibC.State) (msg : List Byte) (e r s : Nat)
    (h : 8 * (Sm3.cls.DS + msg.length) < 2 ^ 64)
    (he : Sm3.cls.stream [(toBE 32 0x94d0fce4e1b1ba1cbf168b926587b6678b3bdb8d0c594725ee73b79355fad911).take Sm3.cls.DS, msg] []
      = .ok (toBE 32 e)) (hb : beVal (toBE 32 e) = e) (hs : IsSm2Sig sm2G 1 e 1 r s) :
    sm2E Spec.SM3.hash [0x31] gPub.x gPub.y msg = e ∧
    Sm2.sign Sm3.cls ⟨toBE 32 1, gPub⟩ msg (cstdCalls exLibC 32 1 (cstdNew exLibC t σ)) [0x31]
      = .ok (some (toBE 32 r ++ toBE 32 s)) := by
  have e1 := sm2E_eq sm3_isHash (id := [0x31]) (x := gPub.x) (y := gPub.y) (msg := msg)
    (Z := toBE 32 0x94d0fce4e1b1ba1cbf168b926587b6678b3bdb8d0c594725ee73b79355fad911) (e := toBE 32 e)
    (by decide) (by decide) (by decide) h (by decide +kernel) he
  rw [hb] at e1
  refine ⟨e1, ?_⟩
  rw [ex_cstd_draw]
  refine (((C44_sign sm3_isHash ⟨toBE 32 1, gPub⟩ 1
    ⟨rfl, by decide, by decide +kernel, by rw [one_nsmul]; exact gPub_is⟩ (by decide +kernel) msg [0x31] [toBE 32 0]
    (by simp [toBE_len])).2 ⟨by decide, h⟩).1 _).mpr ⟨[], toBE 32 0, [], r, s, rfl, by simp, ?_, rfl⟩
  have hz : beVal (toBE 32 0) % (sm2n - 1) + 1 = 1 := by decide +kernel
  dsimp only
  rw [e1, hz]
  exact hs

/-- The hypotheses of C77_cstd_key_violated: key 1, messages `abc` and `abd`, id `1`; the formula gives back 1. -/
example (t : BitVec 64) (σ₁ σ₂ : exLibC.State) :
    ∃ r₁ s₁ r₂ s₂ : Nat, (r₁ < sm2n ∧ s₁ < sm2n) ∧ (r₂ < sm2n ∧ s₂ < sm2n) ∧
      sm2E Spec.SM3.hash [0x31] gPub.x gPub.y [0x61, 0x62, 0x63] % sm2n ≠
        sm2E Spec.SM3.hash [0x31] gPub.x gPub.y [0x61, 0x62, 0x64] % sm2n ∧
      Sm2.sign Sm3.cls ⟨toBE 32 1, gPub⟩ [0x61, 0x62, 0x63] (cstdCalls exLibC 32 1 (cstdNew exLibC t σ₁)) [0x31]
        = .ok (some (toBE 32 r₁ ++ toBE 32 s₁)) ∧
      Sm2.sign Sm3.cls ⟨toBE 32 1, gPub⟩ [0x61, 0x62, 0x64] (cstdCalls exLibC 32 1 (cstdNew exLibC t σ₂)) [0x31]
        = .ok (some (toBE 32 r₂ ++ toBE 32 s₂)) := by
  have a := ex_cstd_sign t σ₁ [0x61, 0x62, 0x63] 0x72b404da1d3bbbc9d3fa429ce10c4d4193694d1f104e9118a7c02e541731aec3
    0xa578b3063c553ce3339346e34b4616d6234c58df02b49cfa191a73dd4a7e238a
    0x2d43a67c61d5618e66365c8e5a5cf494a75bc3460f88b4189d50c015f7ab8ecd
    (by decide) (by decide +kernel) (by decide +kernel) (by
      refine ⟨⟨_, _, _, one_nsmul _, ?_⟩, by decide +kernel, by decide +kernel, by decide +kernel, by decide +kernel,
        by decide +kernel⟩
      rw [ZMod.val_natCast]
      decide +kernel)
  have b := ex_cstd_sign t σ₂ [0x61, 0x62, 0x64] 0xae611630b247d93731a4656de1d60d0ace538d7c50613fb70df64acb39f2a1a4
    0xe125c45cd1615a50913d69b44c0fd69f5e36993c42c74b987f5090546d3f166b
    0x8f6d1dd0974f52d7b7614b25d9f814afc2e892cd00625f5f1413abdf0335b5ee
    (by decide) (by decide +kernel) (by decide +kernel) (by
      refine ⟨⟨_, _, _, one_nsmul _, ?_⟩, by decide +kernel, by decide +kernel, by decide +kernel, by decide +kernel,
        by decide +kernel⟩
      rw [ZMod.val_natCast]
      decide +kernel)
  refine ⟨_, _, _, _, ⟨?_, ?_⟩, ⟨?_, ?_⟩, ?_, a.2, b.2⟩
  · decide +kernel
  · decide +kernel
  · decide +kernel
  · decide +kernel
  · rw [a.1, b.1]; decide +kernel

end Verif.Props
