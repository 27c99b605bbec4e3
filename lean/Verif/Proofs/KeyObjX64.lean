import Verif.Proofs.KeyObj
import Verif.Model.KeyObjX64
import Verif.Proofs.Sm2X64
import Verif.Proofs.Sm9X64Verify
/-!
# Key objects of the configuration with 64-bit limbs: the calls on an object and the key they compute
-/
namespace Verif.X64.KeyObj
open Verif Verif.KeyObj Verif.Spec

theorem sm2Store_ok {d : List Byte} {K : X64.Sm2.Priv} (h : X64.Sm2.withPub d = .ok K) (o : X64.Sm2.Priv) :
    sm2Store o d = (K, .done) := by
  unfold X64.Sm2.withPub at h
  unfold sm2Store
  simp only
  rcases h1 : X64.Sm2.jMulG d with _ | dG
  · rw [h1] at h; exact nomatch h
  · rw [h1, ofOption_some, o_bind] at h
    simp only
    rcases h2 : X64.Sm2.jToA dG with _ | a
    · rw [h2] at h; exact nomatch h
    · rw [h2, ofOption_some, o_bind, Outcome.ok.injEq] at h
      simp only
      rw [← h]

theorem sm2SetPriv_ok {key : List Byte} {K : X64.Sm2.Priv} (h : X64.Sm2.setPriv key = .ok K) (o : X64.Sm2.Priv) :
    sm2SetPriv o key = (K, .done) := by
  unfold X64.Sm2.setPriv at h
  unfold sm2SetPriv
  simp only at h ⊢
  by_cases hc : X64.u256EqualZero (X64.u256FromBytes key) = true ∨
      X64.u256Cmp (X64.u256FromBytes key) (X64.Sm2.bnModNSub1 (X64.u256FromBytes key)) ≠ 0
  · rw [if_pos hc] at h; exact nomatch h
  · rw [if_neg hc] at h ⊢
    exact sm2Store_ok h o

theorem sm2SetPub_ok {x y : List Byte} {P : X64.Sm2.Pub} (h : X64.Sm2.setPub x y = .ok P) (o : X64.Sm2.Pub) :
    sm2SetPub o x y = (P, .done) := by
  unfold X64.Sm2.setPub at h
  unfold sm2SetPub
  simp only at h ⊢
  by_cases hc : (!X64.Sm2.ecCheck ⟨X64.Sm2.fpFromBytes x, X64.Sm2.fpFromBytes y⟩) = true
  · rw [if_pos hc] at h; exact nomatch h
  · rw [if_neg hc, Outcome.ok.injEq] at h
    rw [if_neg hc, ← h]

theorem sm2SetPub_throw {x y : List Byte} (h : X64.Sm2.setPub x y = .throw) (o : X64.Sm2.Pub) :
    sm2SetPub o x y = (o, .thrown) := by
  unfold X64.Sm2.setPub at h
  unfold sm2SetPub
  simp only at h ⊢
  by_cases hc : (!X64.Sm2.ecCheck ⟨X64.Sm2.fpFromBytes x, X64.Sm2.fpFromBytes y⟩) = true
  · rw [if_pos hc]
  · rw [if_neg hc] at h; exact nomatch h

/-! ## SM9 -/

theorem sm9Store_ok {d : List Byte} {K : X64.Sm9.MPriv} (h : X64.Sm9.withPub d = .ok K) (o : X64.Sm9.MPriv) :
    sm9Store o d = (K, .done) := by
  unfold X64.Sm9.withPub at h
  unfold sm9Store
  simp only
  rcases h1 : X64.Sm9.j2MulG d with _ | T
  · rw [h1] at h; exact nomatch h
  · rw [h1, ofOption_some, o_bind] at h
    simp only
    rcases h2 : X64.Sm9.j2ToA T with _ | P
    · rw [h2] at h; exact nomatch h
    · rw [h2, ofOption_some, o_bind] at h
      simp only
      rcases h3 : X64.Sm9.pairingP1 P with _ | e
      · rw [h3] at h; exact nomatch h
      · rw [h3, ofOption_some, o_bind, Outcome.ok.injEq] at h
        simp only
        rw [← h]

theorem sm9SetPriv_ok {key : List Byte} {K : X64.Sm9.MPriv} (h : X64.Sm9.setPriv key = .ok K) (o : X64.Sm9.MPriv) :
    sm9SetPriv o key = (K, .done) := by
  unfold X64.Sm9.setPriv at h
  unfold sm9SetPriv
  simp only at h ⊢
  by_cases hc : X64.u256EqualZero (X64.u256FromBytes key) = true ∨
      X64.u256Cmp (X64.u256FromBytes key) (X64.u256FromBytes Sm9.sm9CurveN) ≥ 0
  · rw [if_pos hc] at h; exact nomatch h
  · rw [if_neg hc] at h ⊢
    exact sm9Store_ok h o

theorem sm9SetPub_ok {x y : List Byte} {P : X64.Sm9.MPub} (h : X64.Sm9.setPub x y = .ok P) (o : X64.Sm9.MPub) :
    sm9SetPub o x y = (P, .done) := by
  unfold X64.Sm9.setPub at h
  unfold sm9SetPub
  simp only at h ⊢
  by_cases hc : (!X64.Sm9.ec2Check ⟨X64.Sm9.fp2FromBytes x, X64.Sm9.fp2FromBytes y⟩) = true
  · rw [if_pos hc] at h; exact nomatch h
  · rw [if_neg hc] at h ⊢
    rcases h3 : X64.Sm9.pairingP1 ⟨X64.Sm9.fp2FromBytes x, X64.Sm9.fp2FromBytes y⟩ with _ | e
    · rw [h3] at h; exact nomatch h
    · rw [h3, ofOption_some, o_bind, Outcome.ok.injEq] at h
      simp only
      rw [← h]

theorem sm9SetPub_throw {x y : List Byte} (h : X64.Sm9.setPub x y = .throw) (o : X64.Sm9.MPub) :
    sm9SetPub o x y = (o, .thrown) := by
  unfold X64.Sm9.setPub at h
  unfold sm9SetPub
  simp only at h ⊢
  by_cases hc : (!X64.Sm9.ec2Check ⟨X64.Sm9.fp2FromBytes x, X64.Sm9.fp2FromBytes y⟩) = true
  · rw [if_pos hc]
  · rw [if_neg hc] at h
    rcases h3 : X64.Sm9.pairingP1 ⟨X64.Sm9.fp2FromBytes x, X64.Sm9.fp2FromBytes y⟩ with _ | e
    · rw [h3] at h; exact nomatch h
    · rw [h3, ofOption_some, o_bind] at h; exact nomatch h

/-- A rejected private key: nothing is stored. -/
theorem sm2SetPriv_throw {key : List Byte} (h : X64.Sm2.setPriv key = .throw) (o : X64.Sm2.Priv) :
    sm2SetPriv o key = (o, .thrown) := by
  unfold X64.Sm2.setPriv at h
  unfold sm2SetPriv
  simp only at h ⊢
  split at h
  · rename_i hc; rw [if_pos hc]
  · exfalso
    unfold X64.Sm2.withPub at h
    rcases h1 : X64.Sm2.jMulG key with _ | dG
    · rw [h1] at h; exact nomatch h
    · rw [h1, ofOption_some, o_bind] at h
      rcases h2 : X64.Sm2.jToA dG with _ | a
      · rw [h2] at h; exact nomatch h
      · rw [h2, ofOption_some, o_bind] at h; exact nomatch h

theorem sm9SetPriv_throw {key : List Byte} (h : X64.Sm9.setPriv key = .throw) (o : X64.Sm9.MPriv) :
    sm9SetPriv o key = (o, .thrown) := by
  unfold X64.Sm9.setPriv at h
  unfold sm9SetPriv
  simp only at h ⊢
  split at h
  · rename_i hc; rw [if_pos hc]
  · exfalso
    unfold X64.Sm9.withPub at h
    rcases h1 : X64.Sm9.j2MulG key with _ | T
    · rw [h1] at h; exact nomatch h
    · rw [h1, ofOption_some, o_bind] at h
      rcases h2 : X64.Sm9.j2ToA T with _ | P
      · rw [h2] at h; exact nomatch h
      · rw [h2, ofOption_some, o_bind] at h
        rcases h3 : X64.Sm9.pairingP1 P with _ | e
        · rw [h3] at h; exact nomatch h
        · rw [h3, ofOption_some, o_bind] at h; exact nomatch h

/-- The octets of a public point determine the limbs: what `set_pub` makes of the exported key is the key. -/
theorem sm2Pub_back {P : Verif.Sm2.Pub} {K : X64.Sm2.Pub} (h : PubSim P K) (hx : P.x = Verif.Sm2.fpToBytes P.P.x)
    (hy : P.y = Verif.Sm2.fpToBytes P.P.y) : X64.Sm2.setPub K.x K.y = .ok K := by
  have uniq : ∀ {a : List W32} {b c : List W64}, RP a b → RP a c → b = c := fun p q =>
    val_inj _ _ (by rw [p.r.1, q.r.1]) (p.eq.symm.trans q.eq)
  have back : ∀ {a : List W32} {b : List W64}, RP a b → X64.Sm2.fpFromBytes (Verif.Sm2.fpToBytes a) = b := by
    intro a b p
    refine uniq (a := a) ?_ p
    have := fpFrom_sim (bs := Verif.Sm2.fpToBytes a) (fp_len p.l)
    rwa [fpFrom_to p.l] at this
  have e1 : X64.Sm2.fpFromBytes K.x = K.P.x := by rw [← h.x, hx]; exact back h.P.x
  have e2 : X64.Sm2.fpFromBytes K.y = K.P.y := by rw [← h.y, hy]; exact back h.P.y
  obtain ⟨Q, hQ⟩ := h.valid
  have hc : X64.Sm2.ecCheck K.P = true := by
    rw [← ecCheck_sim h.P]
    exact (ecCheck_iff h.P.x.l h.P.y.l).mpr ⟨Q, hQ.2.2.1⟩
  unfold X64.Sm2.setPub
  simp only
  rw [e1, e2, show (⟨K.P.x, K.P.y⟩ : X64.Sm2.A) = K.P from rfl, hc]
  rfl

end Verif.X64.KeyObj
