import Verif.Proofs.PairMemLimbs
import Verif.Model.PairMemX64
import Verif.Proofs.AliasX64
import Verif.Proofs.NumMemX64
/-! Helper lemmas for C101: powers, square roots and point multiplication with 64-bit limbs. -/
namespace Verif.X64.PairMem
open Verif.Alias hiding sm2Fp sm9Fp sm9Fp2 sm9Fp4 sm9Fp12 rdFp2 rdFp4 rdFp12 rdEcA rdEcJ rdEc2A rdEc2J memDiv2
open Verif.PairMem hiding memFromBytes memPow memPowAt memInvP sm9Sqrt sm2Sqrt mulA const_safe
open Verif Verif.Spec.Alias Verif.X64.Alias

theorem pow64_get (ctx : Mont256CTX) (a : List W64) (j : Nat) : (powTable ctx a 14 (mont256Sqr ctx a))[j]? =
    if j < 14 then some (tab (mont256Mul ctx) (mont256Sqr ctx) a j) else none := by
  have := tab_get (mul := mont256Mul ctx) (sqr := mont256Sqr ctx) a (powTable ctx a) (fun _ => rfl) (fun _ _ => rfl) 14 j 0
  rw [Nat.zero_add] at this
  exact this

theorem pow64_mulSel (ctx : Mont256CTX) (a t : List W64) (index : Nat) :
    powMulSel ctx (powTable ctx a 14 (mont256Sqr ctx a)) a t index =
      mulSelV (mont256Mul ctx) (mont256Sqr ctx) a t index := by
  unfold powMulSel mulSelV powSel
  rw [sel_eq a _ (pow64_get ctx a)]

theorem pow64_sqr4 (ctx : Mont256CTX) : sqr4 ctx = sqr4V (mont256Sqr ctx) := by
  funext t
  unfold sqr4 sqr4V
  generalize mont256Sqr ctx = f
  rfl

theorem pow64_loop (ctx : Mont256CTX) (a : List W64) : ∀ (es : List Byte) (t : List W64),
    powLoop ctx (powTable ctx a 14 (mont256Sqr ctx a)) a es t = powLoopV (mont256Mul ctx) (mont256Sqr ctx) a es t
  | [], _ => rfl
  | e :: es, t => by
    unfold powLoop powLoopV
    simp only [pow64_mulSel, pow64_loop ctx a es, pow64_sqr4]

theorem pow64_eq (ctx : Mont256CTX) (a x : List W64) : mont256Pow ctx a x = if u256EqualZero a then some u256Zero else
    if u256EqualZero x then some u256One else
      match (u256ToBytes x).dropWhile (· == 0) with
      | [] => none
      | c :: es => tailV (mont256Mul ctx) (mont256Sqr ctx) a c es := by
  unfold mont256Pow
  by_cases c1 : u256EqualZero a = true
  · rw [if_pos c1, if_pos c1]
  · rw [if_neg c1, if_neg c1]
    by_cases c2 : u256EqualZero x = true
    · rw [if_pos c2, if_pos c2]
    · rw [if_neg c2, if_neg c2]
      dsimp only
      cases (u256ToBytes x).dropWhile (· == 0) with
      | nil => rfl
      | cons c es =>
        dsimp only
        unfold tailV headV powSel
        simp only [sel_eq a _ (pow64_get ctx a), pow64_mulSel, pow64_loop, pow64_sqr4]
        by_cases hb : c > 0xF#8
        · simp only [if_pos hb]
          generalize mont256Sqr ctx = sq
          generalize mont256Mul ctx = mu
          cases selV mu sq a _ <;> rfl
        · simp only [if_neg hb]

/-- A function that writes four words. -/
theorem const_safe {f : MemOp W64} {v : List W64} (h : ∀ L r a b m, ∃ m', f L r a b m = some m' ∧ W4 m r v m') :
    InPlaceSafe 4 4 4 rdW (fun _ _ _ => some v) f := by
  intro L r a b m _ _ _ _ _ _
  obtain ⟨m', e1, e2⟩ := h L r a b m
  exact ⟨m', e1, e2.1, fun x _ hx => e2.2.2 x hx⟩

section
variable {ctx : Mont256CTX} (hP : ctx.P.length = 4) (hR : ctx.R.length = 4)
include hP hR

theorem pow64_at (x : Mem64 → List W64) {L r a b : Nat} {m : Mem64}
    (hx : ∀ m1, rdW m1 b = rdW m b → x m1 = x m)
    (hra : SameOrApart r 4 a 4) (hrb : SameOrApart r 4 b 4) (hab : SameOrApart a 4 b 4)
    (hr : r + 4 ≤ L) (ha : a + 4 ≤ L) (hb : b + 4 ≤ L) :
    RunOk 4 L r rdW m (mont256Pow ctx (rdW m a) (x m)) (memPow ctx x L r a b m) := by
  rw [pow64_eq]
  have h := RunOk.of (powOn_safe (level_fp hP hR) (powFn_fnF (montOps ctx) fun _ => none) (zeroV := u256Zero)
    (oneV := u256One) (fun _ _ => rfl)
    (set1 := fun _ r _ _ m => some (memCpy r (.const u256One) m))
    (const_safe fun L r a b m => ⟨_, rfl, mem_cpy (show SrcOk' r (.const u256One) from rfl) m⟩)
    (fun m => u256EqualZero (x m)) (fun m => u256ToBytes (x m)) (fun m1 h => by rw [hx m1 h]) hra hrb hab hr ha hb)
  refine cast ?_ h
  congr 1

theorem pow64_const (e : List W64) :
    InPlaceSafe 4 4 4 rdW (fun m a _ => mont256Pow ctx (rdW m a) e) (memPow ctx fun _ => e) :=
  RunOk.safe fun _ _ _ _ _ hra hrb hab hr ha hb => pow64_at hP hR (fun _ => e) (fun _ _ => rfl) hra hrb hab hr ha hb

theorem pow64_mem :
    InPlaceSafe 4 4 4 rdW (fun m a b => mont256Pow ctx (rdW m a) (rdW m b)) (memPowAt ctx) :=
  RunOk.safe fun _ _ _ b _ hra hrb hab hr ha hb => pow64_at hP hR (fun m => rdW m b) (fun _ h => h) hra hrb hab hr ha hb

theorem inv64 : InPlaceSafe 4 4 4 rdW (fun m a _ => mont256Inv ctx (rdW m a)) (memInvP ctx) :=
  pow64_const hP hR ctx.PSub2

omit hR in
theorem fromBytes64 (h2 : ctx.RPow2.length = 4) (bs : List Byte) (hl : bs.length = 32) :
    InPlaceSafe 4 4 4 rdW (fun _ _ _ => some (mont256FromBytes ctx bs)) (memFromBytes ctx bs) := by
  refine const_safe fun L r a b m => ⟨_, rfl, ?_⟩
  have hb := (u256FromBytes_spec bs hl).1
  have h1 := mem_cpy (show SrcOk' r (.const (u256FromBytes bs)) from hb) m
  have e : rdW (memCpy r (.const (u256FromBytes bs)) m) r = u256FromBytes bs := h1.1
  show W4 m r (mont256FromBytes ctx bs) (memRedc ctx r (u256Mul (rdW (memCpy r (.const (u256FromBytes bs)) m) r) ctx.RPow2)
    (memCpy r (.const (u256FromBytes bs)) m))
  rw [e]
  exact h1.trans (redc_limb hP (u256Mul_length hb h2) _)
end

section
variable {β α : Type} {I : Impl β} {rd : Verif.Alias.Mem β → Nat → α} {F : FpOps α} {tw : α → Option α}

/-- The two bits of index `i`. -/
def bits64 (e e3 : List W64) (i : Nat) : Option (Bool × Bool) :=
  match u256BitTest e i, u256BitTest e3 i with
  | some x, some y => some (x, y)
  | _, _ => none

theorem step64 (e e3 : List W64) (P N : EcA α) (i : Nat) (T : EcJ α) :
    mulStepV F (ecJDbl F) (bits64 e e3) P N i T = Sm2.mulAStep F e e3 P N i T := by
  unfold mulStepV Sm2.mulAStep bits64
  cases ecJDbl F T with
  | none => rfl
  | some T =>
    dsimp only
    cases u256BitTest e i <;> cases u256BitTest e3 i <;> rfl
theorem step64' (e e3 : List W64) (P N : EcA α) (i : Nat) (T : EcJ α) :
    mulStepV F (ecJDbl0 F) (bits64 e e3) P N i T = Sm9.mulAStep0 F e e3 P N i T := by
  unfold mulStepV Sm9.mulAStep0 bits64
  cases ecJDbl0 F T with
  | none => rfl
  | some T =>
    dsimp only
    cases u256BitTest e i <;> cases u256BitTest e3 i <;> rfl

theorem loop64 (e e3 : List W64) (P N : EcA α) : ∀ (i : Nat) (T : EcJ α),
    mulLoopV F (ecJDbl F) (bits64 e e3) P N i T = Sm2.mulALoop F e e3 P N i T
  | 0, _ => rfl
  | i + 1, T => by
    unfold mulLoopV Sm2.mulALoop
    rw [step64]
    cases Sm2.mulAStep F e e3 P N (i + 1) T with
    | none => rfl
    | some T => exact loop64 e e3 P N i T
theorem loop64' (e e3 : List W64) (P N : EcA α) : ∀ (i : Nat) (T : EcJ α),
    mulLoopV F (ecJDbl0 F) (bits64 e e3) P N i T = Sm9.mulALoop0 F e e3 P N i T
  | 0, _ => rfl
  | i + 1, T => by
    unfold mulLoopV Sm9.mulALoop0
    rw [step64']
    cases Sm9.mulAStep0 F e e3 P N (i + 1) T with
    | none => rfl
    | some T => exact loop64' e e3 P N i T

/-- Point multiplication, given what the value-level function is. -/
theorem mulA64 (lv : Level I rd (fnF F tw) F.eq F.isZero) {dblP : List Ins} {nd : Nat} {dbl : EcJ α → Option (EcJ α)}
    (hd : Calc (fnF F tw) dblP outJ outJ outJ fun P _ => dbl P) (hdp : okP nd 3 3 3 dblP = true)
    {g : List W64 → List Byte → EcA α → Option (EcJ α)}
    (hg : ∀ n k P, g n k P =
      let e := u256FromBytes k
      let e := if u256Cmp e n ≥ 0 then (u256SubBorrow e n).1 else e
      if u256EqualZero e then some (ecJInf F)
      else mulBodyV F dbl (bits64 e (u256TplCarry e).1) (u256TplCarry e).2 (Sm2.topBit (u256TplCarry e).1 255) P)
    (n : List W64) (k : List Byte) :
    InPlaceSafe (3 * I.size) (2 * I.size) (2 * I.size) (rdJ I.size rd) (fun m p _ => g n k (rdA I.size rd m p))
      (mulA I dblP nd n k) := by
  intro L r p b m hrp hrb hpb hr hp hb
  dsimp only
  rw [hg]
  unfold mulA
  dsimp only
  generalize (if u256Cmp (u256FromBytes k) n ≥ 0 then (u256SubBorrow (u256FromBytes k) n).1 else u256FromBytes k) = e
  by_cases c : u256EqualZero e = true
  · rw [if_pos c, if_pos c]
    exact (cJ_inf F tw).safe lv 0 readsJ readsJ readsJ (by decide) L r r r m (Or.inl rfl) (Or.inl rfl) (Or.inl rfl) hr hr hr
  · rw [if_neg c, if_neg c]
    exact mulBody_safe lv hd hdp _ _ L r p b m hrp hrb hpb hr hp hb

theorem mulA64_sm2 (n : List W64) (k : List Byte) (P : EcA α) : Sm2.ecJMulA F n k P =
      let e := u256FromBytes k
      let e := if u256Cmp e n ≥ 0 then (u256SubBorrow e n).1 else e
      if u256EqualZero e then some (ecJInf F)
      else mulBodyV F (ecJDbl F) (bits64 e (u256TplCarry e).1) (u256TplCarry e).2 (Sm2.topBit (u256TplCarry e).1 255) P := by
  unfold Sm2.ecJMulA mulBodyV
  simp only [loop64]
  rfl
theorem mulA64_sm9 (n : List W64) (k : List Byte) (P : EcA α) : Sm9.ecJMulA0 F n k P =
      let e := u256FromBytes k
      let e := if u256Cmp e n ≥ 0 then (u256SubBorrow e n).1 else e
      if u256EqualZero e then some (ecJInf F)
      else mulBodyV F (ecJDbl0 F) (bits64 e (u256TplCarry e).1) (u256TplCarry e).2 (Sm2.topBit (u256TplCarry e).1 255) P := by
  unfold Sm9.ecJMulA0 mulBodyV
  simp only [loop64']
  rfl
end

/-- `sm2_fp_sqrt`, `sm9_fp_sqrt`. -/
theorem sqrt64_sm2 (lv : Level Verif.X64.Alias.sm2Fp rdW (fnF Sm2.fp fun _ => none) Sm2.fp.eq Sm2.fp.isZero) :
    SqrtSafe 4 rdW Sm2.fpSqrt sm2Sqrt := by
  have := sqrt2_safe lv (powFn_fnF Sm2.fp fun _ => none)
    (pow := fun e => memPow sm2FpCtx fun _ => u256FromBytes e) (P := fun e a => mont256Pow sm2FpCtx a (u256FromBytes e))
    (fun e => pow64_const (ctx := sm2FpCtx) (by decide) (by decide) (u256FromBytes e))
  have e : Sm2.fpSqrt = sqrt2V (fun e a => mont256Pow sm2FpCtx a (u256FromBytes e)) (mont256Sqr sm2FpCtx) (mont256Equal sm2FpCtx) := by
    funext a
    unfold Sm2.fpSqrt sqrt2V
    dsimp only
    cases mont256Pow sm2FpCtx a (u256FromBytes Verif.Sm2.pSub3Div4Add1) <;> rfl
  rw [e]
  exact this
theorem sqrt64_sm9 (lv : Level Verif.X64.Alias.sm9Fp rdW (fnF Sm9.fp fun _ => none) Sm9.fp.eq Sm9.fp.isZero) :
    SqrtSafe 4 rdW Sm9.fpSqrt sm9Sqrt := by
  have := sqrt9_safe lv (powFn_fnF Sm9.fp fun _ => none) (fun _ _ => rfl) (fun _ => rfl)
    (pow := fun e => memPow sm9FpCtx fun _ => u256FromBytes e) (P := fun e a => mont256Pow sm9FpCtx a (u256FromBytes e))
    (fun e => pow64_const (ctx := sm9FpCtx) (by decide) (by decide) (u256FromBytes e))
    (isOne := fun x m => u256Equal (rdW m x) sm9FpCtx.R) (isOneV := mont256EqualOne sm9FpCtx) (fun _ _ => rfl)
    (fromB := memFromBytes sm9FpCtx) (fb := mont256FromBytes sm9FpCtx)
    (fromBytes64 (ctx := sm9FpCtx) (by decide +kernel) (by decide +kernel) _ (by decide +kernel))
  have e : Sm9.fpSqrt = sqrt9V (fun e a => mont256Pow sm9FpCtx a (u256FromBytes e)) (mont256Mul sm9FpCtx) (mont256Equal sm9FpCtx)
      (mont256EqualOne sm9FpCtx) (mont256Neg sm9FpCtx (mont256SetOne sm9FpCtx)) (mont256FromBytes sm9FpCtx) := by
    funext a
    unfold Sm9.fpSqrt sqrt9V
    dsimp only
    cases mont256Pow sm9FpCtx a (u256FromBytes Sm9.uMul2Add1) with
    | none => rfl
    | some t =>
      dsimp only
      generalize (!mont256EqualOne sm9FpCtx t && !mont256Equal sm9FpCtx t (mont256Neg sm9FpCtx (mont256SetOne sm9FpCtx))) = q
      cases q with
      | true => rfl
      | false => cases mont256Pow sm9FpCtx a (u256FromBytes Sm9.uAdd1) <;> rfl
  rw [e]
  exact this

end Verif.X64.PairMem
