import Verif.Model.Sm9Ec
/-!
# The SM9 pairing (src/sm9/sm9_field.cpp 1819-2350), default (32-bit limb) configuration

`none` = an undefined or unending run of a field function.  The line functions use components of their results as
scratch space; every scratch component is cleared or overwritten before the function returns.  Their second result
`d` (a denominator) is written but never read by the callers and is left out; `sm9_pairing_g_tangent_ja` leaves
`d[0]` uninitialised.
-/
namespace Verif.Sm9

/-- `sm9_fp4_t` over limbs. -/
abbrev F4 := Fp4 (List W32)
/-- `sm9_fp12_t` over limbs. -/
abbrev F12 := Fp12 (List W32)

/-- `sm9_fp2_conjugate` (sm9_field.cpp 1821-1825). -/
def fp2Conj (a : F2) : F2 := ⟨a.c0, fp.neg a.c1⟩

/-- `sm9_fp4_conjugate` (sm9_field.cpp 2140-2144). -/
def fp4Conj (a : F4) : F4 := ⟨a.c0, fp2Neg fp a.c1⟩

/-- `sm9_fp12_frobenius` (sm9_field.cpp 2108-2138). -/
def fp12Frob (x : F12) : F12 :=
  let r10 := fp2Conj x.c0.c0
  let r11 := fp2MulFp fp (fp2Conj x.c0.c1) (fpFromBytes sm9Alpha3Data)
  let r20 := fp2MulFp fp (fp2Conj x.c1.c0) (fpFromBytes sm9Alpha1Data)
  let r21 := fp2MulFp fp (fp2Conj x.c1.c1) (fpFromBytes sm9Alpha4Data)
  let r30 := fp2MulFp fp (fp2Conj x.c2.c0) (fpFromBytes sm9Alpha2Data)
  let r31 := fp2MulFp fp (fp2Conj x.c2.c1) (fpFromBytes sm9Alpha5Data)
  ⟨⟨r10, r11⟩, ⟨r20, r21⟩, ⟨r30, r31⟩⟩

/-- `sm9_fp12_frobenius2` (sm9_field.cpp 2146-2164). -/
def fp12Frob2 (x : F12) : F12 :=
  let a := fp4Conj x.c0
  let b := fp4MulFp fp (fp4Conj x.c1) (fpFromBytes sm9Alpha2Data)
  let c := fp4MulFp fp (fp4Conj x.c2) (fpFromBytes sm9Alpha4Data)
  ⟨a, b, c⟩

/-- `sm9_fp12_frobenius3` (sm9_field.cpp 2166-2192). -/
def fp12Frob3 (x : F12) : F12 :=
  let beta := fpFromBytes sm9BetaData
  let ra0 := fp2Conj x.c0.c0
  let ra1 := fp2Neg fp (fp2MulFp fp (fp2Conj x.c0.c1) beta)
  let rb0 := fp2MulFp fp (fp2Conj x.c1.c0) beta
  let rb1 := fp2Conj x.c1.c1
  let rc0 := fp2Neg fp (fp2Conj x.c2.c0)
  let rc1 := fp2MulFp fp (fp2Conj x.c2.c1) beta
  ⟨⟨ra0, ra1⟩, ⟨rb0, rb1⟩, ⟨rc0, rc1⟩⟩

/-- `sm9_fp12_frobenius6` (sm9_field.cpp 2194-2212). -/
def fp12Frob6 (x : F12) : F12 :=
  let a := fp4Conj x.c0
  let b := fp4Neg fp (fp4Conj x.c1)
  let c := fp4Conj x.c2
  ⟨a, b, c⟩

/-- `sm9_pairing_final_exp_hard_part` (sm9_field.cpp 2214-2262). -/
def finalExpHard (f : F12) : Option F12 := do
  let t0 ← fp12Pow fp f a3
  let t0 ← fp12Inv fp t0
  let t1 := fp12Frob t0
  let t1 := fp12Mul fp t0 t1
  let t0 := fp12Mul fp t0 t1
  let t2 := fp12Frob f
  let t3 := fp12Mul fp t2 f
  let t4 := fp12Sqr fp t3
  let t4 := fp12Sqr fp t4
  let t4 := fp12Sqr fp t4
  let t3 := fp12Mul fp t4 t3
  let t0 := fp12Mul fp t0 t3
  let t3 := fp12Sqr fp f
  let t3 := fp12Sqr fp t3
  let t0 := fp12Mul fp t0 t3
  let t2 := fp12Sqr fp t2
  let t2 := fp12Mul fp t2 t1
  let t1 := fp12Frob2 f
  let t1 := fp12Mul fp t1 t2
  let t2 ← fp12Pow fp t1 a2
  let t0 := fp12Mul fp t2 t0
  let t1 := fp12Frob3 f
  let t1 := fp12Mul fp t1 t0
  some t1

/-- `sm9_pairing_final_exp` (sm9_field.cpp 2267-2279). -/
def finalExp (f : F12) : Option F12 := do
  let t0 := fp12Frob6 f
  let t1 ← fp12Inv fp f
  let t0 := fp12Mul fp t0 t1
  let t1 := fp12Frob2 t0
  let t0 := fp12Mul fp t0 t1
  finalExpHard t0

/-- `sm9_ec2_j_frobenius_a` (sm9_field.cpp 1827-1844). -/
def j2FrobA (Q : A2) : J2 := ⟨fp2Conj Q.x, fp2Conj Q.y, ⟨fpFromBytes cL1835, fp.zero⟩⟩

/-- `sm9_ec2_j_frobenius2_a` (sm9_field.cpp 1846-1859). -/
def j2Frob2A (Q : A2) : J2 := ⟨Q.x, Q.y, ⟨fpFromBytes cL1850, fp.zero⟩⟩

/-- The element with `a0`, `a1`, `a4` at the places the line functions use. -/
def sparse (a0 a1 a4 : F2) : F12 := ⟨⟨a0, a1⟩, ⟨fp2.zero, fp2.zero⟩, ⟨a4, fp2.zero⟩⟩

/-- `sm9_pairing_g_tangent_ja` (sm9_field.cpp 1861-1927). -/
def gTangent (T : J2) (P : A) : Option F12 := do
  let t0 := fp2.sqr T.z
  let t1 := fp2.mul t0 T.z
  let b1 := fp2.mul t1 T.y
  let b1 := fp2.dbl b1
  let t2 := fp2MulFp fp b1 P.y
  let a1 := fp2.neg t2
  let t1 := fp2.sqr T.x
  let t0 := fp2.mul t0 t1
  let t0 := fp2MulFp fp t0 P.x
  let a4 ← fp2.tpl t0
  let t1 := fp2.mul t1 T.x
  let t1 ← fp2.tpl t1
  let t0 := fp2.sqr T.y
  let t0 := fp2.dbl t0
  let a0 := fp2.sub t0 t1
  some (sparse a0 a1 a4)

/-- `sm9_pairing_g_line_jja` (sm9_field.cpp 1930-2002). -/
def gLineJ (T Q : J2) (P : A) : F12 :=
  let t0 := fp2.sqr Q.z
  let t1 := fp2.mul t0 T.x
  let t0 := fp2.mul t0 Q.z
  let t2 := fp2.sqr T.z
  let t3 := fp2.mul t2 Q.x
  let t2 := fp2.mul t2 T.z
  let t2 := fp2.mul t2 Q.y
  let t1 := fp2.sub t1 t3
  let t1 := fp2.mul t1 T.z
  let t1 := fp2.mul t1 Q.z
  let b1 := fp2.mul t1 t0
  let t1 := fp2.mul t1 Q.y
  let t3 := fp2.mul t0 T.y
  let t3 := fp2.sub t3 t2
  let t0 := fp2.mul t0 t3
  let t0 := fp2MulFp fp t0 P.x
  let a4 := t0
  let t3 := fp2.mul t3 Q.x
  let t3 := fp2.mul t3 Q.z
  let t1 := fp2.sub t1 t3
  let a0 := t1
  let t2 := fp2MulFp fp b1 P.y
  let t2 := fp2.neg t2
  let a1 := t2
  sparse a0 a1 a4

/-- `sm9_pairing_g_line_jaa` (sm9_field.cpp 2005-2069). -/
def gLineA (T : J2) (Q : A2) (P : A) : F12 :=
  let t2 := fp2.sqr T.z
  let t3 := fp2.mul t2 Q.x
  let t2 := fp2.mul t2 T.z
  let t2 := fp2.mul t2 Q.y
  let t1 := fp2.sub T.x t3
  let t1 := fp2.mul t1 T.z
  let b1 := t1
  let t1 := fp2.mul t1 Q.y
  let t3 := T.y
  let t3 := fp2.sub t3 t2
  let t0 := fp2MulFp fp t3 P.x
  let a4 := t0
  let t3 := fp2.mul t3 Q.x
  let t1 := fp2.sub t1 t3
  let a0 := t1
  let t2 := fp2MulFp fp b1 P.y
  let t2 := fp2.neg t2
  let a1 := t2
  sparse a0 a1 a4

/-- `naf_a` (sm9_field.cpp 2283-2284) from index 1 on. -/
def nafA : List Char :=
  "00100000000000000000000000000000000000010000101100020200101000020".toList

/-- The body of the loop of `sm9_pairing` (sm9_field.cpp 2297-2319). -/
def millerStep (P : A) (Q nQ : A2) (c : Char) (f : F12) (T : J2) : Option (F12 × J2) := do
  let f := fp12Sqr fp f
  let f0 ← gTangent T P
  let f := fp12Mul fp f f0
  let T ← j2Dbl T
  if c = '1' then
    let f0 := gLineA T Q P
    let f := fp12Mul fp f f0
    some (f, j2AddA T Q)
  else if c = '2' then
    let f0 := gLineA T nQ P
    let f := fp12Mul fp f f0
    some (f, j2AddA T nQ)
  else some (f, T)

/-- `for (int i = 1; i < naf_len; i++)` (sm9_field.cpp 2295-2320). -/
def millerLoop (P : A) (Q nQ : A2) : List Char → F12 → J2 → Option (F12 × J2)
  | [], f, T => some (f, T)
  | c :: cs, f, T => do
    let (f, T) ← millerStep P Q nQ c f T
    millerLoop P Q nQ cs f T

/-- `sm9_pairing` (sm9_field.cpp 2281-2333) up to the call of `sm9_pairing_final_exp`. -/
def miller (P : A) (Q : A2) : Option F12 := do
  let f := fp12One fp
  let T := ecJFromA fp2 Q
  let nQ := ecANeg fp2 Q
  let (f, T) ← millerLoop P Q nQ nafA f T
  let qj := j2FrobA Q
  let f0 := gLineJ T qj P
  let f := fp12Mul fp f f0
  let T ← j2Add T qj
  let qj := j2Frob2A Q
  let qj := ecJNeg fp2 qj
  let f0 := gLineJ T qj P
  some (fp12Mul fp f f0)

/-- `sm9_pairing` (sm9_field.cpp 2281-2333). -/
def pairing (P : A) (Q : A2) : Option F12 := do
  let f ← miller P Q
  finalExp f

/-- `sm9_pairing_P1_Q` (sm9_field.cpp 2335-2341). -/
def pairingP1 (Q : A2) : Option F12 := pairing p1 Q
/-- `sm9_pairing_P_P2` (sm9_field.cpp 2343-2349). -/
def pairingP2 (P : A) : Option F12 := pairing P p2

end Verif.Sm9
