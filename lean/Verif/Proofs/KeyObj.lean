import Verif.Spec.KeyObj
import Verif.Props.Sm2
import Verif.Props.Sm9
/-!
# Key objects: the object after a history
-/
namespace Verif
open KeyObj Props Spec

/-- A class whose rejected calls change nothing and whose accepted calls replace everything holds the last accepted key. -/
theorem run_last {σ α β : Type} (call : σ → α → σ × Ret) (f : α → Option β) (Is : σ → β → Prop) (good : α → Prop)
    (h0 : ∀ o c, good c → f c = none → call o c = (o, .thrown))
    (h1 : ∀ c v, good c → f c = some v → ∃ K, Is K v ∧ ∀ o, call o c = (K, .done)) :
    ∀ cs o, (∀ c ∈ cs, good c) →
      (run call o cs).2 = cs.map (fun c => if (f c).isSome then Ret.done else Ret.thrown) ∧
      (lastSome f cs = none → (run call o cs).1 = o) ∧
      ∀ v, lastSome f cs = some v → Is (run call o cs).1 v ∧ ∀ o', (run call o' cs).1 = (run call o cs).1 := by
  intro cs
  induction cs with
  | nil => exact fun o _ => ⟨rfl, fun _ => rfl, fun v h => by cases h⟩
  | cons c cs ih =>
    intro o hg
    have hc := hg c List.mem_cons_self
    have hr : ∀ c ∈ cs, good c := fun d hd => hg d (List.mem_cons_of_mem _ hd)
    have key : ∀ o, run call o (c :: cs) =
        ((run call (call o c).1 cs).1, (call o c).2 :: (run call (call o c).1 cs).2) := fun _ => rfl
    rcases hf : f c with _ | v
    · have e : ∀ o, run call o (c :: cs) = ((run call o cs).1, .thrown :: (run call o cs).2) := by
        intro o; rw [key, h0 o c hc hf]
      obtain ⟨i1, i2, i3⟩ := ih o hr
      rw [e]
      refine ⟨by simp [i1, hf], fun h => i2 ?_, fun v h => ?_⟩
      · simpa [lastSome, hf] using h
      · obtain ⟨j1, j2⟩ := i3 v (by simpa [lastSome, hf] using h)
        exact ⟨j1, fun o' => by rw [e]; exact j2 o'⟩
    · obtain ⟨K, k1, k2⟩ := h1 c v hc hf
      have e : ∀ o, run call o (c :: cs) = ((run call K cs).1, .done :: (run call K cs).2) := by
        intro o; rw [key, k2]
      obtain ⟨i1, i2, i3⟩ := ih K hr
      rw [e]
      refine ⟨by simp [i1, hf], fun h => ?_, fun u h => ?_⟩
      · simp [lastSome, hf] at h
      · refine ⟨?_, fun o' => by rw [e]⟩
        rcases hl : lastSome f cs with _ | t
        · have : v = u := by simpa [lastSome, hf, hl] using h
          rw [i2 hl, ← this]; exact k1
        · have : t = u := by simpa [lastSome, hf, hl] using h
          exact (i3 u (by rw [hl, this])).1

/-! ## SM2 -/

theorem sm2Store_ok {d : List Byte} {K : Sm2.Priv} (h : Sm2.withPub d = .ok K) (o : Sm2.Priv) :
    sm2Store o d = (K, .done) := by
  unfold Sm2.withPub at h
  unfold sm2Store
  simp only
  rcases h1 : Sm2.jMulG d with _ | dG
  · rw [h1] at h; exact nomatch h
  · rw [h1, ofOption_some, o_bind] at h
    simp only
    rcases h2 : Sm2.jToA dG with _ | a
    · rw [h2] at h; exact nomatch h
    · rw [h2, ofOption_some, o_bind, Outcome.ok.injEq] at h
      simp only
      rw [← h]

theorem sm2SetPriv_ok {key : List Byte} {K : Sm2.Priv} (h : Sm2.setPriv key = .ok K) (o : Sm2.Priv) :
    sm2SetPriv o key = (K, .done) := by
  unfold Sm2.setPriv at h
  unfold sm2SetPriv
  simp only at h ⊢
  by_cases hc : u256EqualZero (u256FromBytes key) = true ∨
      u256Cmp (u256FromBytes key) (Sm2.bnModNSub1 (u256FromBytes key)) ≠ 0
  · rw [if_pos hc] at h; exact nomatch h
  · rw [if_neg hc] at h ⊢
    exact sm2Store_ok h o

theorem sm2SetPriv_throw {key : List Byte} (hl : key.length = 32)
    (hv : ¬ (1 ≤ beVal key ∧ beVal key ≤ sm2n - 2)) (o : Sm2.Priv) : sm2SetPriv o key = (o, .thrown) := by
  obtain ⟨l, v⟩ := u256FromBytes_spec key hl
  obtain ⟨l1, v1⟩ := bnModNSub1_ok l
  have hz := u256EqualZero_iff (u256FromBytes key)
  have hc := (C31_cmp _ _ l l1).1
  rw [v] at hz v1
  rw [v, v1] at hc
  have hn : 2 < sm2n := by decide +kernel
  unfold sm2SetPriv
  simp only
  rw [if_pos]
  by_cases h0 : beVal key = 0
  · exact Or.inl (hz.mpr h0)
  · refine Or.inr fun h => ?_
    rw [hc] at h
    have hm := Nat.mod_lt (beVal key) (show 0 < sm2n - 1 by omega)
    split_ifs at h <;> omega

theorem sm2SetPub_ok {x y : List Byte} {P : Sm2.Pub} (h : Sm2.setPub x y = .ok P) (o : Sm2.Pub) :
    sm2SetPub o x y = (P, .done) := by
  unfold Sm2.setPub at h
  unfold sm2SetPub
  simp only at h ⊢
  by_cases hc : (!Sm2.ecCheck ⟨Sm2.fpFromBytes x, Sm2.fpFromBytes y⟩) = true
  · rw [if_pos hc] at h; exact nomatch h
  · rw [if_neg hc, Outcome.ok.injEq] at h
    rw [if_neg hc, ← h]

theorem sm2SetPub_throw {x y : List Byte} (h : Sm2.setPub x y = .throw) (o : Sm2.Pub) :
    sm2SetPub o x y = (o, .thrown) := by
  unfold Sm2.setPub at h
  unfold sm2SetPub
  simp only at h ⊢
  by_cases hc : (!Sm2.ecCheck ⟨Sm2.fpFromBytes x, Sm2.fpFromBytes y⟩) = true
  · rw [if_pos hc]
  · rw [if_neg hc] at h; exact nomatch h

/-! ## SM9 -/

theorem sm9Store_ok {d : List Byte} {K : Sm9.MPriv} (h : Sm9.withPub d = .ok K) (o : Sm9.MPriv) :
    sm9Store o d = (K, .done) := by
  unfold Sm9.withPub at h
  unfold sm9Store
  simp only
  rcases h1 : Sm9.j2MulG d with _ | T
  · rw [h1] at h; exact nomatch h
  · rw [h1, ofOption_some, o_bind] at h
    simp only
    rcases h2 : Sm9.j2ToA T with _ | P
    · rw [h2] at h; exact nomatch h
    · rw [h2, ofOption_some, o_bind] at h
      simp only
      rcases h3 : Sm9.pairingP1 P with _ | e
      · rw [h3] at h; exact nomatch h
      · rw [h3, ofOption_some, o_bind, Outcome.ok.injEq] at h
        simp only
        rw [← h]

theorem sm9SetPriv_ok {key : List Byte} {K : Sm9.MPriv} (h : Sm9.setPriv key = .ok K) (o : Sm9.MPriv) :
    sm9SetPriv o key = (K, .done) := by
  unfold Sm9.setPriv at h
  unfold sm9SetPriv
  simp only at h ⊢
  by_cases hc : u256EqualZero (u256FromBytes key) = true ∨
      u256Cmp (u256FromBytes key) (u256FromBytes Sm9.sm9CurveN) ≥ 0
  · rw [if_pos hc] at h; exact nomatch h
  · rw [if_neg hc] at h ⊢
    exact sm9Store_ok h o

theorem sm9SetPriv_throw {key : List Byte} (hl : key.length = 32)
    (hv : ¬ (1 ≤ beVal key ∧ beVal key ≤ sm9n - 1)) (o : Sm9.MPriv) : sm9SetPriv o key = (o, .thrown) := by
  obtain ⟨z1, z2⟩ := s9range_iff hl
  have hn : 2 < sm9n := by decide +kernel
  unfold sm9SetPriv
  simp only
  rw [if_pos]
  by_cases h0 : beVal key = 0
  · exact Or.inl (z1.mpr h0)
  · exact Or.inr (z2.mpr (by omega))

theorem sm9SetPub_ok {x y : List Byte} {P : Sm9.MPub} (h : Sm9.setPub x y = .ok P) (o : Sm9.MPub) :
    sm9SetPub o x y = (P, .done) := by
  unfold Sm9.setPub at h
  unfold sm9SetPub
  simp only at h ⊢
  by_cases hc : (!Sm9.ec2Check ⟨Sm9.fp2FromBytes x, Sm9.fp2FromBytes y⟩) = true
  · rw [if_pos hc] at h; exact nomatch h
  · rw [if_neg hc] at h ⊢
    rcases h3 : Sm9.pairingP1 ⟨Sm9.fp2FromBytes x, Sm9.fp2FromBytes y⟩ with _ | e
    · rw [h3] at h; exact nomatch h
    · rw [h3, ofOption_some, o_bind, Outcome.ok.injEq] at h
      simp only
      rw [← h]

theorem sm9SetPub_throw {x y : List Byte} (h : Sm9.setPub x y = .throw) (o : Sm9.MPub) :
    sm9SetPub o x y = (o, .thrown) := by
  unfold Sm9.setPub at h
  unfold sm9SetPub
  simp only at h ⊢
  by_cases hc : (!Sm9.ec2Check ⟨Sm9.fp2FromBytes x, Sm9.fp2FromBytes y⟩) = true
  · rw [if_pos hc]
  · rw [if_neg hc] at h
    rcases h3 : Sm9.pairingP1 ⟨Sm9.fp2FromBytes x, Sm9.fp2FromBytes y⟩ with _ | e
    · rw [h3] at h; exact nomatch h
    · rw [h3, ofOption_some, o_bind] at h; exact nomatch h

end Verif
