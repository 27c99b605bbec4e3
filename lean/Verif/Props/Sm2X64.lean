import Verif.Proofs.Sm2X64
import Verif.Props.Sm2
/-!
# C79: SM2 in the build with 64-bit limbs

The library is compiled either with the portable 32-bit arithmetic or, on processors with MOVBE and BMI2, with the 64-bit
arithmetic.  The two differ in the negation of zero (C36, C70); SM2 never negates zero, and so no caller of the SM2
classes can tell the builds apart.  Hash class, messages, identifiers, ciphertexts and answers of the generator are
arbitrary.
-/
namespace Verif.X64.Props
open Verif Verif.Spec

section
variable {S : Type} (C : HashClass S)

/-- **C79** public keys: for every pair of coordinates and every list of calls, both builds accept or reject the key alike
and every call shows the same (verdicts, ciphertexts, exceptions). -/
theorem C79_x64_pub_session (x y : List Byte) (hx : x.length = 32) (hy : y.length = 32) (calls : List PubCall)
    (hc : ∀ c ∈ calls, c.Sized) : (sm2X64 C).pubSession x y calls = (sm2Portable C).pubSession x y calls :=
  (pubSession_eq C hx hy calls hc).symm

/-- **C79** private keys set from octets: signatures, verdicts, ciphertexts, plaintexts and exported keys are the same in
both builds. -/
theorem C79_x64_priv_session (d : List Byte) (hd : d.length = 32) (calls : List PrivCall)
    (hc : ∀ c ∈ calls, c.Sized) : (sm2X64 C).privSession d calls = (sm2Portable C).privSession d calls :=
  (privSession_eq C hd calls hc).symm

/-- **C79** generated private keys: with the same answers of the generator both builds make the same key and the same
use of it. -/
theorem C79_x64_gen_session (rnd : List Byte) (hr : rnd.length = 32) (calls : List PrivCall)
    (hc : ∀ c ∈ calls, c.Sized) : (sm2X64 C).genSession rnd calls = (sm2Portable C).genSession rnd calls :=
  (genSession_eq C hr calls hc).symm

end

/-- The sessions are not empty talk: the private key 5 is accepted, and every session with it ends with one observation
per call. -/
example {S : Type} (C : HashClass S) (calls : List PrivCall) (hc : ∀ c ∈ calls, c.Sized) :
    ∃ obs, (sm2X64 C).privSession (toBE 32 5) calls = .ok obs ∧ obs.length = calls.length := by
  obtain ⟨K, k1, -⟩ := (Verif.Props.C58_set_priv (toBE 32 5) (by decide)).1 (by decide +kernel)
  rw [C79_x64_priv_session C _ (by decide) calls hc]
  refine ⟨calls.map ((sm2Portable C).onPriv K), ?_, List.length_map ..⟩
  have e1 : (sm2Portable C).setPriv = Verif.Sm2.setPriv := by simp only [sm2Portable]
  unfold Sm2Api.privSession
  rw [e1, k1]
  rfl

/-- Calls with buffers of the declared sizes. -/
example : (PrivCall.sign [1, 2, 3] [toBE 32 7, toBE 32 8] [0x31]).Sized ∧
    (PrivCall.onPub (.verify (List.replicate 64 1) [] [])).Sized ∧
    (PrivCall.onPub (.encrypt [1] .mix [toBE 32 7])).Sized ∧ (PrivCall.decrypt [4]).Sized := by
  refine ⟨?_, rfl, ?_, trivial⟩
  · intro r hr
    simp only [List.mem_cons, List.not_mem_nil, or_false] at hr
    rcases hr with rfl | rfl <;> exact toBE_len _ _
  · intro r hr
    simp only [List.mem_cons, List.not_mem_nil, or_false] at hr
    subst hr; exact toBE_len _ _

/-- A key both builds reject: the point (0, 0). -/
example {S : Type} (C : HashClass S) (calls : List PubCall) :
    (sm2X64 C).pubSession (toBE 32 0) (toBE 32 0) calls = .throw := by
  have : X64.Sm2.setPub (toBE 32 0) (toBE 32 0) = .throw := by decide +kernel
  have e1 : (sm2X64 C).setPub = X64.Sm2.setPub := by simp only [sm2X64]
  unfold Sm2Api.pubSession
  rw [e1, this]
  rfl

section
variable {S : Type} {C : HashClass S} {H : List Byte → List Byte}

/-- **C79** hence what is proved of the portable build holds of this one, for instance: a signature made with this build
is accepted by its `verify`. -/
theorem C79_x64_sign_verify (hC : IsHash C H) (d : List Byte) (hd : d.length = 32) (K : X64.Sm2.Priv)
    (hK : X64.Sm2.setPriv d = .ok K) (msg id : List Byte) (rnds : List (List Byte)) (hr : ∀ r ∈ rnds, r.length = 32)
    (sig : List Byte) (h : X64.Sm2.sign C K msg rnds id = .ok (some sig)) :
    X64.Sm2.verify C K.pub sig msg id = .returns true := by
  have hs := setPriv_sim hd
  rw [hK] at hs
  obtain ⟨P, hP, hs⟩ := relOut_ok hs
  obtain ⟨p1, p2⟩ := Verif.Props.C58_set_priv d hd
  by_cases hv : 1 ≤ beVal d ∧ beVal d ≤ sm2n - 2
  · obtain ⟨P', e1, -, e3⟩ := p1 hv
    rw [hP] at e1
    cases e1
    rw [← sign_sim C hs msg hr id] at h
    have hver := Verif.Props.C44_sign_verify hC P _ e3 hv.2 msg id rnds hr sig h
    obtain ⟨g1, g2⟩ := Verif.Props.C44_sign hC P _ e3 hv.2 msg id rnds hr
    have hl : 8 * id.length ≤ 65535 ∧ 8 * (C.DS + msg.length) < 2 ^ 64 := by
      by_contra hl
      rw [g1 hl] at h
      cases h
    obtain ⟨g3, -⟩ := g2 hl
    have hsig := sig_len ((g3 sig).mp h)
    rw [← verify_sim' C hs.pub hsig msg id]
    exact hver
  · rw [p2 hv] at hP
    cases hP

/-- **C79** and a ciphertext made with this build decrypts to the plaintext. -/
theorem C79_x64_encrypt_decrypt (hC : IsHash C H) (d : List Byte) (hd : d.length = 32) (K : X64.Sm2.Priv)
    (hK : X64.Sm2.setPriv d = .ok K) (pt : List Byte) (pc : Sm2.PC) (rnds : List (List Byte))
    (hr : ∀ r ∈ rnds, r.length = 32) (ct : List Byte) (h : X64.Sm2.encrypt C K.pub pt pc rnds = .ok (some ct)) :
    X64.Sm2.decrypt C K ct = .ok pt := by
  have hs := setPriv_sim hd
  rw [hK] at hs
  obtain ⟨P, hP, hs⟩ := relOut_ok hs
  obtain ⟨p1, p2⟩ := Verif.Props.C58_set_priv d hd
  by_cases hv : 1 ≤ beVal d ∧ beVal d ≤ sm2n - 2
  · obtain ⟨P', e1, -, e3⟩ := p1 hv
    rw [hP] at e1
    cases e1
    rw [← encrypt_sim C hs.pub pt pc rnds hr] at h
    rw [← decrypt_sim C hs, Verif.Props.C46_decrypt_encrypt hC P _ e3 pt pc rnds hr ct h]
  · rw [p2 hv] at hP
    cases hP

/-- The hypotheses are met: SM3, private key 1. -/
example : IsHash Sm3.cls Spec.SM3.hash ∧ ∃ K, X64.Sm2.setPriv (toBE 32 1) = .ok K := by
  refine ⟨sm3_isHash, ?_⟩
  have hs := setPriv_sim (d := toBE 32 1) (by decide)
  obtain ⟨K, k1, -⟩ := (Verif.Props.C58_set_priv (toBE 32 1) (by decide)).1 (by decide +kernel)
  rw [k1] at hs
  obtain ⟨K', h1, -⟩ := relOut_ok' hs
  exact ⟨K', h1⟩

end

end Verif.X64.Props
