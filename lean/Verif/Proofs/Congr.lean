import Verif.Proofs.Modes3
import Verif.Proofs.Gcm
/-! # The modes only use the cipher on whole blocks -/
namespace Verif
open Spec Spec.Modes

/-- `E` and `E'` agree on blocks of `b` bytes. -/
def Agree (b : Nat) (E E' : List Byte → List Byte) : Prop := ∀ x, x.length = b → E x = E' x

variable {b : Nat} {E E' D D' : List Byte → List Byte}

theorem xorB_length (x y : List Byte) (hx : x.length = b) (hy : y.length = b) : (xorB x y).length = b := by
  rw [xorB_len (by omega), hx]

theorem cfbEnc_congr (hb : 0 < b) (hE : Agree b E E') (hl : LenOk b E) (ps : List (List Byte)) :
    ∀ iv : List Byte, iv.length = b → Shaped b ps → cfbEnc E iv ps = cfbEnc E' iv ps := by
  induction ps with
  | nil => intros; rfl
  | cons p ps ih =>
    intro iv hiv hs
    cases ps with
    | nil => simp only [cfbEnc, hE iv hiv]
    | cons q r =>
      simp only [cfbEnc]
      rw [← hE iv hiv]
      have := ih (xorB p (E iv)) (xorB_length _ _ hs.1 (hl _ hiv)) hs.2
      simp only [cfbEnc] at this
      rw [this]

theorem cfbDec_congr (hE : Agree b E E') (ps : List (List Byte)) :
    ∀ iv : List Byte, iv.length = b → Shaped b ps → cfbDec E iv ps = cfbDec E' iv ps := by
  induction ps with
  | nil => intros; rfl
  | cons p ps ih =>
    intro iv hiv hs
    cases ps with
    | nil => simp only [cfbDec, hE iv hiv]
    | cons q r =>
      have := ih p hs.1 hs.2
      simp only [cfbDec] at this ⊢
      rw [hE iv hiv, this]

theorem out_congr (hb : 0 < b) (hE : Agree b E E') (hD : Agree b D D') (hl : LenOk b E) (n : Name) (iv : List Byte)
    (hiv : iv.length = b) (ps : List (List Byte)) (hs : Shaped b ps)
    (hw : wholeBlocks n = true → ∀ p ∈ ps, p.length = b) :
    out E D b iv n ps = out E' D' b iv n ps := by
  cases n with
  | ecbEnc =>
    show ps.map E = ps.map E'
    exact List.map_congr_left (fun p hp => hE p (hw rfl p hp))
  | ecbDec =>
    show ps.map D = ps.map D'
    exact List.map_congr_left (fun p hp => hD p (hw rfl p hp))
  | cbcEnc =>
    show cbcEnc E iv ps = cbcEnc E' iv ps
    have hw := hw rfl
    clear hs
    induction ps generalizing iv with
    | nil => rfl
    | cons p ps ih =>
      have e := hE (xorB p iv) (xorB_length _ _ (hw p (by simp)) hiv)
      simp only [cbcEnc, ← e]
      rw [ih _ (hl _ (xorB_length _ _ (hw p (by simp)) hiv)) (fun _ _ h => hw _ (by simp [h])) (fun q hq => hw q (by simp [hq]))]
  | cbcDec =>
    show cbcDec D iv ps = cbcDec D' iv ps
    have hw := hw rfl
    clear hs hiv
    induction ps generalizing iv with
    | nil => rfl
    | cons p ps ih =>
      simp only [cbcDec, hD p (hw p (by simp))]
      rw [ih p (fun _ _ h => hw _ (by simp [h])) (fun q hq => hw q (by simp [hq]))]
  | cfbEnc => exact cfbEnc_congr hb hE hl ps iv hiv hs
  | cfbDec => exact cfbDec_congr hE ps iv hiv hs
  | ofb =>
    show ofb E iv ps = ofb E' iv ps
    clear hs hw
    induction ps generalizing iv with
    | nil => rfl
    | cons p ps ih =>
      simp only [ofb]
      rw [← hE iv hiv, ih _ (hl _ hiv)]
  | ctr =>
    show ctr E b iv 0 ps = ctr E' b iv 0 ps
    clear hs hw
    generalize 0 = j
    induction ps generalizing j with
    | nil => rfl
    | cons p ps ih =>
      simp only [ctr]
      rw [ih, hE _ (by unfold ctrBlock; rw [toBE_len])]

namespace Gcm
open Spec.Gcm

theorem hashKey_congr (hE : Agree 16 E E') : hashKey E = hashKey E' := hE _ (by simp)

theorem J0_congr (hE : Agree 16 E E') (iv : List Byte) : J0 E iv = J0 E' iv := by
  unfold J0; rw [hashKey_congr hE]

theorem ciphertext_congr (hE : Agree 16 E E') (iv pt : List Byte) : ciphertext E iv pt = ciphertext E' iv pt := by
  unfold ciphertext gctr
  rw [J0_congr hE]
  refine congrArg _ ?_
  have hc := inc32_len _ (J0_len (E := E') iv)
  generalize inc32 (J0 E' iv) = c at hc
  generalize blocks 16 pt = l
  induction l generalizing c with
  | nil => rfl
  | cons x xs ih =>
    simp only [gctrBlocks]
    rw [hE c hc, ih _ (inc32_len _ hc)]

theorem tag_congr (hE : Agree 16 E E') (iv aad ct : List Byte) : Spec.Gcm.tag E iv aad ct = Spec.Gcm.tag E' iv aad ct := by
  unfold Spec.Gcm.tag
  rw [hashKey_congr hE, J0_congr hE, hE _ (J0_len _)]

theorem decrypt_congr (hE : Agree 16 E E') (iv aad ct t : List Byte) :
    Spec.Gcm.decrypt E iv aad ct t = Spec.Gcm.decrypt E' iv aad ct t := by
  unfold Spec.Gcm.decrypt
  rw [tag_congr hE, ciphertext_congr hE]

end Gcm
end Verif
