import Verif.Proofs.PairMem2
import Verif.Proofs.AliasLimbs
/-! Helper lemmas for C101: powers, square roots and point multiplication with 32-bit limbs. -/
namespace Verif.PairMem
open Verif Verif.Alias Verif.Spec.Alias

theorem powFn_fnF {α : Type} (F : FpOps α) (tw : α → Option α) : PowFn (fnF F tw) F.mul F.sqr :=
  ⟨fun _ _ => rfl, fun _ _ => rfl, fun _ _ => rfl⟩

theorem powFn_fn12 {α : Type} (F : FpOps α) : PowFn (fn12 F) (Verif.fp12Mul F) (Verif.fp12Sqr F) :=
  ⟨fun _ _ => rfl, fun _ _ => rfl, fun _ _ => rfl⟩

/-- A function that writes eight words. -/
theorem const_safe {f : MemOp W32} {v : List W32} (h : ∀ L r a b m, ∃ m', f L r a b m = some m' ∧ W8 m r v m') :
    InPlaceSafe 8 8 8 rd8 (fun _ _ _ => some v) f := by
  intro L r a b m _ _ _ _ _ _
  obtain ⟨m', e1, e2⟩ := h L r a b m
  exact ⟨m', e1, e2.1, fun x _ hx => e2.2.2 x hx⟩

section
variable {ctx : Mont256CTX} (hP : ctx.P.length = 8) (hR : ctx.R.length = 8)
include hP hR

theorem pow32_at (x : Mem W32 → List W32) {L r a b : Nat} {m : Mem W32}
    (hx : ∀ m1, rd8 m1 b = rd8 m b → x m1 = x m)
    (hra : SameOrApart r 8 a 8) (hrb : SameOrApart r 8 b 8) (hab : SameOrApart a 8 b 8)
    (hr : r + 8 ≤ L) (ha : a + 8 ≤ L) (hb : b + 8 ≤ L) :
    RunOk 8 L r rd8 m (mont256Pow ctx (rd8 m a) (x m)) (memPow ctx x L r a b m) := by
  rw [pow32_eq]
  have h := RunOk.of (powOn_safe (level_fp hP hR) (powFn_fnF (montOps ctx) fun _ => none) (zeroV := u256Zero)
    (oneV := u256One) (fun _ _ => rfl)
    (set1 := fun _ r _ _ m => some (memCpy r (.const u256One) m))
    (const_safe fun L r a b m => ⟨_, rfl, mem_cpy (show SrcOk' r (.const u256One) from rfl) m⟩)
    (fun m => u256EqualZero (x m)) (fun m => u256ToBytes (x m)) (fun m1 h => by rw [hx m1 h]) hra hrb hab hr ha hb)
  refine cast ?_ h
  congr 1

theorem pow32_const (e : List W32) :
    InPlaceSafe 8 8 8 rd8 (fun m a _ => mont256Pow ctx (rd8 m a) e) (memPow ctx fun _ => e) :=
  RunOk.safe fun _ _ _ _ _ hra hrb hab hr ha hb => pow32_at hP hR (fun _ => e) (fun _ _ => rfl) hra hrb hab hr ha hb

theorem pow32_mem :
    InPlaceSafe 8 8 8 rd8 (fun m a b => mont256Pow ctx (rd8 m a) (rd8 m b)) (memPowAt ctx) :=
  RunOk.safe fun _ _ _ b _ hra hrb hab hr ha hb => pow32_at hP hR (fun m => rd8 m b) (fun _ h => h) hra hrb hab hr ha hb

theorem inv32 : InPlaceSafe 8 8 8 rd8 (fun m a _ => mont256Inv ctx (rd8 m a)) (memInvP ctx) :=
  pow32_const hP hR ctx.PSub2

omit hR in
theorem fromBytes32 (h2 : ctx.RPow2.length = 8) (bs : List Byte) (hl : bs.length = 32) :
    InPlaceSafe 8 8 8 rd8 (fun _ _ _ => some (mont256FromBytes ctx bs)) (memFromBytes ctx bs) := by
  refine const_safe fun L r a b m => ⟨_, rfl, ?_⟩
  have hb := (u256FromBytes_spec bs hl).1
  have h1 := mem_cpy (show SrcOk' r (.const (u256FromBytes bs)) from hb) m
  have e : rd8 (memCpy r (.const (u256FromBytes bs)) m) r = u256FromBytes bs := h1.1
  show W8 m r (mont256FromBytes ctx bs) (memRedc ctx r (u256Mul (rd8 (memCpy r (.const (u256FromBytes bs)) m) r) ctx.RPow2)
    (memCpy r (.const (u256FromBytes bs)) m))
  rw [e]
  exact h1.trans (redc_limb hP (u256Mul_length hb h2) _)
end

section
variable {β α : Type} {I : Impl β} {rd : Mem β → Nat → α} {F : FpOps α} {tw : α → Option α}

/-- The two bits of index `i`. -/
def bits32 (e e3 : List W32) (i : Nat) : Option (Bool × Bool) :=
  match u256BitTest e i, u256BitTest e3 i with
  | some x, some y => some (x, y)
  | _, _ => none

theorem step32 (e e3 : List W32) (P N : EcA α) (i : Nat) (T : EcJ α) :
    mulStepV F (ecJDbl F) (bits32 e e3) P N i T = Verif.mulAStep F e e3 P N i T := by
  unfold mulStepV Verif.mulAStep bits32
  cases ecJDbl F T with
  | none => rfl
  | some T =>
    dsimp only
    cases u256BitTest e i <;> cases u256BitTest e3 i <;> rfl
theorem step32' (e e3 : List W32) (P N : EcA α) (i : Nat) (T : EcJ α) :
    mulStepV F (ecJDbl0 F) (bits32 e e3) P N i T = mulAStep0 F e e3 P N i T := by
  unfold mulStepV mulAStep0 bits32
  cases ecJDbl0 F T with
  | none => rfl
  | some T =>
    dsimp only
    cases u256BitTest e i <;> cases u256BitTest e3 i <;> rfl

theorem loop32 (e e3 : List W32) (P N : EcA α) : ∀ (i : Nat) (T : EcJ α),
    mulLoopV F (ecJDbl F) (bits32 e e3) P N i T = Verif.mulALoop F e e3 P N i T
  | 0, _ => rfl
  | i + 1, T => by
    unfold mulLoopV Verif.mulALoop
    rw [step32]
    cases Verif.mulAStep F e e3 P N (i + 1) T with
    | none => rfl
    | some T => exact loop32 e e3 P N i T
theorem loop32' (e e3 : List W32) (P N : EcA α) : ∀ (i : Nat) (T : EcJ α),
    mulLoopV F (ecJDbl0 F) (bits32 e e3) P N i T = mulALoop0 F e e3 P N i T
  | 0, _ => rfl
  | i + 1, T => by
    unfold mulLoopV mulALoop0
    rw [step32']
    cases mulAStep0 F e e3 P N (i + 1) T with
    | none => rfl
    | some T => exact loop32' e e3 P N i T

/-- Point multiplication, given what the value-level function is. -/
theorem mulA32 (lv : Level I rd (fnF F tw) F.eq F.isZero) {dblP : List Ins} {nd : Nat} {dbl : EcJ α → Option (EcJ α)}
    (hd : Calc (fnF F tw) dblP outJ outJ outJ fun P _ => dbl P) (hdp : okP nd 3 3 3 dblP = true)
    {g : List W32 → List Byte → EcA α → Option (EcJ α)}
    (hg : ∀ n k P, g n k P =
      let e := u256FromBytes k
      let e := if u256Cmp e n ≥ 0 then (u256SubBorrow e n).1 else e
      if u256EqualZero e then some (ecJInf F)
      else mulBodyV F dbl (bits32 e (u256TplCarry e).1) (u256TplCarry e).2 (topBit (u256TplCarry e).1 255) P)
    (n : List W32) (k : List Byte) :
    InPlaceSafe (3 * I.size) (2 * I.size) (2 * I.size) (rdJ I.size rd) (fun m p _ => g n k (rdA I.size rd m p))
      (mulA I dblP nd n k) := by
  intro L r p b m hrp hrb hpb hr hp hb
  dsimp only
  rw [hg]
  unfold mulA
  dsimp only
  generalize (if u256Cmp (u256FromBytes k) n ≥ 0 then (u256SubBorrow (u256FromBytes k) n).1 else u256FromBytes k) = e
  by_cases c : u256EqualZero e = true
  · rw [if_pos c, if_pos c]
    exact (cJ_inf F tw).safe lv 0 readsJ readsJ readsJ (by decide) L r r r m (Or.inl rfl) (Or.inl rfl) (Or.inl rfl) hr hr hr
  · rw [if_neg c, if_neg c]
    exact mulBody_safe lv hd hdp _ _ L r p b m hrp hrb hpb hr hp hb

theorem mulA32_sm2 (n : List W32) (k : List Byte) (P : EcA α) : ecJMulA F n k P =
      let e := u256FromBytes k
      let e := if u256Cmp e n ≥ 0 then (u256SubBorrow e n).1 else e
      if u256EqualZero e then some (ecJInf F)
      else mulBodyV F (ecJDbl F) (bits32 e (u256TplCarry e).1) (u256TplCarry e).2 (topBit (u256TplCarry e).1 255) P := by
  unfold ecJMulA mulBodyV
  simp only [loop32]
  rfl
theorem mulA32_sm9 (n : List W32) (k : List Byte) (P : EcA α) : ecJMulA0 F n k P =
      let e := u256FromBytes k
      let e := if u256Cmp e n ≥ 0 then (u256SubBorrow e n).1 else e
      if u256EqualZero e then some (ecJInf F)
      else mulBodyV F (ecJDbl0 F) (bits32 e (u256TplCarry e).1) (u256TplCarry e).2 (topBit (u256TplCarry e).1 255) P := by
  unfold ecJMulA0 mulBodyV
  simp only [loop32']
  rfl
end

/-- `sm2_fp_sqrt`, `sm9_fp_sqrt`. -/
theorem sqrt32_sm2 (lv : Level sm2Fp rd8 (fnF Sm2.fp fun _ => none) Sm2.fp.eq Sm2.fp.isZero) :
    SqrtSafe 8 rd8 Sm2.fpSqrt sm2Sqrt := by
  have := sqrt2_safe lv (powFn_fnF Sm2.fp fun _ => none)
    (pow := fun e => memPow Sm2.fpCtx fun _ => setEpi8 e) (P := fun e a => mont256Pow Sm2.fpCtx a (setEpi8 e))
    (fun e => pow32_const (ctx := Sm2.fpCtx) (by decide) (by decide) (setEpi8 e))
  have e : Sm2.fpSqrt = sqrt2V (fun e a => mont256Pow Sm2.fpCtx a (setEpi8 e)) (mont256Sqr Sm2.fpCtx) (mont256Equal Sm2.fpCtx) := by
    funext a
    unfold Sm2.fpSqrt sqrt2V
    dsimp only
    cases mont256Pow Sm2.fpCtx a (setEpi8 Sm2.pSub3Div4Add1) <;> rfl
  rw [e]
  exact this
theorem sqrt32_sm9 (lv : Level sm9Fp rd8 (fnF Sm9.fp fun _ => none) Sm9.fp.eq Sm9.fp.isZero) :
    SqrtSafe 8 rd8 Sm9.fpSqrt sm9Sqrt := by
  have := sqrt9_safe lv (powFn_fnF Sm9.fp fun _ => none) (fun _ _ => rfl) (fun _ => rfl)
    (pow := fun e => memPow Sm9.fpCtx fun _ => setEpi8 e) (P := fun e a => mont256Pow Sm9.fpCtx a (setEpi8 e))
    (fun e => pow32_const (ctx := Sm9.fpCtx) (by decide) (by decide) (setEpi8 e))
    (isOne := fun x m => u256Equal (rd8 m x) Sm9.fpCtx.R) (isOneV := mont256EqualOne Sm9.fpCtx) (fun _ _ => rfl)
    (fromB := memFromBytes Sm9.fpCtx) (fb := mont256FromBytes Sm9.fpCtx)
    (fromBytes32 (ctx := Sm9.fpCtx) (by decide +kernel) (by decide +kernel) _ (by decide +kernel))
  have e : Sm9.fpSqrt = sqrt9V (fun e a => mont256Pow Sm9.fpCtx a (setEpi8 e)) (mont256Mul Sm9.fpCtx) (mont256Equal Sm9.fpCtx)
      (mont256EqualOne Sm9.fpCtx) (mont256Neg Sm9.fpCtx (mont256SetOne Sm9.fpCtx)) (mont256FromBytes Sm9.fpCtx) := by
    funext a
    unfold Sm9.fpSqrt sqrt9V
    dsimp only
    cases mont256Pow Sm9.fpCtx a (setEpi8 Sm9.uMul2Add1) with
    | none => rfl
    | some t =>
      dsimp only
      generalize (!mont256EqualOne Sm9.fpCtx t && !mont256Equal Sm9.fpCtx t (mont256Neg Sm9.fpCtx (mont256SetOne Sm9.fpCtx))) = q
      cases q with
      | true => rfl
      | false => cases mont256Pow Sm9.fpCtx a (setEpi8 Sm9.uAdd1) <;> rfl
  rw [e]
  exact this

end Verif.PairMem
