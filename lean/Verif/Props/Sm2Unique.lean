import Verif.Proofs.Sm2Unique
import Verif.Props.Sm2
import Verif.Props.Sm2X64
/-!
# C96: what an SM2 public key, signature and ciphertext determine

As in C44-C50 the theorems hold for every hash class `C` that computes a hash function `H`; `rnd` is one 32-octet answer of
the generator, from which the nonce `rnd mod (n - 1) + 1` is made.
-/
namespace Verif.Props
open Verif Spec WeierstrassCurve WeierstrassCurve.Affine

/-- C96: two imported private keys have the same public key exactly when they are the same. -/
theorem C96_public_keys (key key' : List Byte) (hl : key.length = 32) (hl' : key'.length = 32) (K K' : Sm2.Priv)
    (h : Sm2.setPriv key = .ok K) (h' : Sm2.setPriv key' = .ok K') :
    Sm2.getPub K.pub = Sm2.getPub K'.pub ↔ key = key' := by
  have get : ∀ {key : List Byte} {K : Sm2.Priv}, key.length = 32 → Sm2.setPriv key = .ok K →
      Sm2PrivIs sm2G K (beVal key) := by
    intro key K hl h
    obtain ⟨c1, c2⟩ := C58_set_priv key hl
    by_cases hc : 1 ≤ beVal key ∧ beVal key ≤ sm2n - 2
    · obtain ⟨K2, e1, _, e3⟩ := c1 hc
      rw [h] at e1
      rw [Outcome.ok.inj e1]
      exact e3
    · rw [c2 hc] at h
      cases h
  constructor
  · intro he
    obtain ⟨-, -, a3, -, -, -, q, hq⟩ := get hl h
    obtain ⟨-, -, b3, -, -, -, q', hq'⟩ := get hl' h'
    have ex : K.pub.x = K'.pub.x := congrArg Prod.fst he
    have ey : K.pub.y = K'.pub.y := congrArg Prod.snd he
    have : beVal key • sm2G = beVal key' • sm2G := by
      rw [hq, hq', Point.some.injEq, ex, ey]
      exact ⟨rfl, rfl⟩
    exact beVal_inj _ _ (hl.trans hl'.symm) (nsmul_inj_lt sm2G_ne a3 b3 this)
  · rintro rfl
    rw [h] at h'
    rw [Outcome.ok.inj h']

section
variable {S : Type} {C : HashClass S} {H : List Byte → List Byte}

/-- A signature is made from one of the generator's answers. -/
theorem C96_one_draw (K : Sm2.Priv) (msg id : List Byte) (rnds : List (List Byte)) (sig : List Byte)
    (h : Sm2.sign C K msg rnds id = .ok (some sig)) : ∃ rnd ∈ rnds, Sm2.sign C K msg [rnd] id = .ok (some sig) := by
  unfold Sm2.sign at *
  generalize Sm2.computeZ C id K.pub.x K.pub.y = z at *
  rcases z with z | _ | _
  · rw [o_bind] at h
    simp only [o_bind]
    generalize C.stream [z.take C.DS, msg] [] = w at *
    rcases w with w | _ | _
    · rw [o_bind] at h
      simp only [o_bind]
      induction rnds with
      | nil => exact absurd h (by simp [Sm2.signLoop])
      | cons q rest ih =>
        unfold Sm2.signLoop at h
        cases hq : Sm2.signStep K.priv (w.take C.DS) q with
        | ok o =>
          rw [hq, o_bind] at h
          cases o with
          | some sg =>
            refine ⟨q, by simp, ?_⟩
            unfold Sm2.signLoop
            rw [hq, o_bind]
            exact h
          | none =>
            obtain ⟨r, hr, e⟩ := ih h
            exact ⟨r, by simp [hr], e⟩
        | throw => rw [hq] at h; cases h
        | ub => rw [hq] at h; cases h
    · cases h
    · cases h
  · cases h
  · cases h

theorem sign_one (hC : IsHash C H) (K : Sm2.Priv) (d : Nat) (hK : Sm2PrivIs sm2G K d) (hd : d ≤ sm2n - 2)
    (msg id rnd : List Byte) (hr : rnd.length = 32) (sig : List Byte) (h : Sm2.sign C K msg [rnd] id = .ok (some sig)) :
    ∃ r s, IsSm2Sig sm2G d (sm2E H id K.pub.x K.pub.y msg) (beVal rnd % (sm2n - 1) + 1) r s ∧
      sig = toBE 32 r ++ toBE 32 s := by
  obtain ⟨g1, g2⟩ := C44_sign hC K d hK hd msg id [rnd] (by simpa using hr)
  by_cases hl : 8 * id.length ≤ 65535 ∧ 8 * (C.DS + msg.length) < 2 ^ 64
  · obtain ⟨pre, q, post, r, s, e1, -, e3, e4⟩ := ((g2 hl).1 sig).mp h
    have hq : q = rnd := by
      have : q ∈ [rnd] := by rw [e1]; simp
      simpa using this
    subst hq
    exact ⟨r, s, e3, e4⟩
  · rw [g1 hl] at h
    cases h

theorem draw_lt (rnd : List Byte) : beVal rnd % (sm2n - 1) + 1 < sm2n := by
  have hn : 2 < sm2n := by decide +kernel
  have := Nat.mod_lt (beVal rnd) (show 0 < sm2n - 1 by omega)
  omega

theorem halves_inj {r r' s s' : Nat} (hr : r < sm2n) (hr' : r' < sm2n) (hs : s < sm2n) (hs' : s' < sm2n) :
    toBE 32 r ++ toBE 32 s = toBE 32 r' ++ toBE 32 s' ↔ r = r' ∧ s = s' := by
  have hb : sm2n < 256 ^ 32 := by decide +kernel
  have inj : ∀ a b : Nat, a < sm2n → b < sm2n → toBE 32 a = toBE 32 b → a = b := by
    intro a b ha hb' e
    have := congrArg beVal e
    rwa [beVal_toBE, beVal_toBE, Nat.mod_eq_of_lt (by omega), Nat.mod_eq_of_lt (by omega)] at this
  constructor
  · intro h
    obtain ⟨a, b⟩ := List.append_inj h (by rw [toBE_len, toBE_len])
    exact ⟨inj _ _ hr hr' a, inj _ _ hs hs' b⟩
  · rintro ⟨rfl, rfl⟩; rfl

/-- C96: for one key, message and id, two answers of the generator give the same signature exactly when they give the same
nonce. -/
theorem C96_signature_nonce (hC : IsHash C H) (K : Sm2.Priv) (d : Nat) (hK : Sm2PrivIs sm2G K d) (hd : d ≤ sm2n - 2)
    (msg id rnd rnd' : List Byte) (hr : rnd.length = 32) (hr' : rnd'.length = 32) (sig sig' : List Byte)
    (h : Sm2.sign C K msg [rnd] id = .ok (some sig)) (h' : Sm2.sign C K msg [rnd'] id = .ok (some sig')) :
    sig = sig' ↔ beVal rnd % (sm2n - 1) = beVal rnd' % (sm2n - 1) := by
  obtain ⟨r, s, e1, e2⟩ := sign_one hC K d hK hd msg id rnd hr sig h
  obtain ⟨r', s', e1', e2'⟩ := sign_one hC K d hK hd msg id rnd' hr' sig' h'
  rw [e2, e2', halves_inj (sig_lt e1).1 (sig_lt e1').1 (sig_lt e1).2 (sig_lt e1').2,
    sig_nonce (draw_lt rnd) (draw_lt rnd') hd e1 e1']
  omega

/-- C96: two signatures of one key made with the same nonce on digests that differ modulo `n` determine the private key: it
is this function of the two signatures. -/
theorem C96_nonce_reuse (hC : IsHash C H) (K : Sm2.Priv) (d : Nat) (hK : Sm2PrivIs sm2G K d) (hd : d ≤ sm2n - 2)
    (msg msg' id id' rnd rnd' : List Byte) (hr : rnd.length = 32) (hr' : rnd'.length = 32)
    (hk : beVal rnd % (sm2n - 1) = beVal rnd' % (sm2n - 1))
    (he : sm2E H id K.pub.x K.pub.y msg % sm2n ≠ sm2E H id' K.pub.x K.pub.y msg' % sm2n)
    (r s r' s' : Nat) (h : Sm2.sign C K msg [rnd] id = .ok (some (toBE 32 r ++ toBE 32 s)))
    (h' : Sm2.sign C K msg' [rnd'] id' = .ok (some (toBE 32 r' ++ toBE 32 s')))
    (hb : r < 2 ^ 256 ∧ s < 2 ^ 256 ∧ r' < 2 ^ 256 ∧ s' < 2 ^ 256) :
    (s : ZMod sm2n) + r - s' - r' ≠ 0 ∧
    Sm2.getPriv K = toBE 32 (((s' : ZMod sm2n) - s) * ((s : ZMod sm2n) + r - s' - r')⁻¹).val := by
  obtain ⟨q, t, e1, e2⟩ := sign_one hC K d hK hd msg id rnd hr _ h
  obtain ⟨q', t', e1', e2'⟩ := sign_one hC K d hK hd msg' id' rnd' hr' _ h'
  have inj : ∀ a b c e : Nat, a < 2 ^ 256 → b < 2 ^ 256 → c < sm2n → e < sm2n →
      toBE 32 a ++ toBE 32 b = toBE 32 c ++ toBE 32 e → a = c ∧ b = e := by
    intro a b c e ha hb hc he h
    have hn : sm2n < 256 ^ 32 := by decide +kernel
    have h256 : (256 : Nat) ^ 32 = 2 ^ 256 := by decide +kernel
    obtain ⟨u, v⟩ := List.append_inj h (by rw [toBE_len, toBE_len])
    have u := congrArg beVal u
    have v := congrArg beVal v
    rw [beVal_toBE, beVal_toBE, Nat.mod_eq_of_lt (by omega), Nat.mod_eq_of_lt (by omega)] at u
    rw [beVal_toBE, beVal_toBE, Nat.mod_eq_of_lt (by omega), Nat.mod_eq_of_lt (by omega)] at v
    exact ⟨u, v⟩
  obtain ⟨rfl, rfl⟩ := inj _ _ _ _ hb.1 hb.2.1 (sig_lt e1).1 (sig_lt e1).2 e2
  obtain ⟨rfl, rfl⟩ := inj _ _ _ _ hb.2.2.1 hb.2.2.2 (sig_lt e1').1 (sig_lt e1').2 e2'
  rw [← hk] at e1'
  obtain ⟨n1, n2⟩ := nonce_reuse e1 e1' he
  refine ⟨n1, ?_⟩
  rw [← n2, ZMod.val_natCast, Nat.mod_eq_of_lt hK.2.2.1]
  exact hK.1

/-- C96: for a public key other than the negative of the base point, a message, an id and a first half `r`, at most five
second halves are accepted. -/
theorem C96_accepted_halves (hC : IsHash C H) (pub : Sm2.Pub) (Q : Sm2Point) (hp : Sm2PubIs pub Q) (hQ : Q ≠ -sm2G)
    (msg id : List Byte) (hid : 8 * id.length ≤ 65535) (hmsg : 8 * (C.DS + msg.length) < 2 ^ 64)
    (r : Nat) (hr : r < 2 ^ 256) (F : Finset Nat)
    (hF : ∀ s ∈ F, s < 2 ^ 256 ∧ Sm2.verify C pub (toBE 32 r ++ toBE 32 s) msg id = .returns true) : F.card ≤ 5 := by
  have hT : sm2G + Q ≠ 0 := fun h => hQ (eq_neg_of_add_eq_zero_right h)
  have acc : ∀ s ∈ F, s < sm2n ∧ (s • (sm2G + Q) + r • Q = 0 ∨ ∃ x y h, s • (sm2G + Q) + r • Q = .some x y h ∧
      (sm2E H id pub.x pub.y msg + x.val) % sm2n = r) := by
    intro s hs
    obtain ⟨h1, h2⟩ := hF s hs
    obtain ⟨b, b1, b2⟩ := C45_verify hC pub Q hp r s hr h1 msg id hid hmsg
    rw [h2] at b1
    have hb : b = true := by cases b1; rfl
    rw [← verify_point]
    rcases b2.mp hb with h | h
    · exact ⟨h.2.2.2.1, Or.inr h.2.2.2.2.2⟩
    · exact ⟨h.2.2.2.1, Or.inl h.2.2.2.2.2.1⟩
  have hc : F.card ≤ (Finset.univ : Finset (Option (Bool × Bool))).card := by
    apply Finset.card_le_card_of_injOn (fun s => pointKind (s • (sm2G + Q) + r • Q)) (fun _ _ => Finset.mem_univ _)
    intro s hs s' hs' he
    have hP := pointKind_inj (acc s hs).2 (acc s' hs').2 he
    exact nsmul_inj_lt hT (acc s hs).1 (acc s' hs').1 (add_right_cancel hP)
  exact hc.trans (by decide)

/-- C96: for the public key `-G`, whose private key `n - 1` the generator can produce (C47), acceptance does not depend on
the second half at all, as long as it is in range. -/
theorem C96_degenerate_key (hC : IsHash C H) (pub : Sm2.Pub) (hp : Sm2PubIs pub (-sm2G))
    (msg id : List Byte) (hid : 8 * id.length ≤ 65535) (hmsg : 8 * (C.DS + msg.length) < 2 ^ 64)
    (r s s' : Nat) (hs : 1 ≤ s ∧ s < sm2n ∧ (r + s) % sm2n ≠ 0) (hs' : 1 ≤ s' ∧ s' < sm2n ∧ (r + s') % sm2n ≠ 0)
    (hr : r < 2 ^ 256) :
    Sm2.verify C pub (toBE 32 r ++ toBE 32 s) msg id = Sm2.verify C pub (toBE 32 r ++ toBE 32 s') msg id := by
  have hn : sm2n < 2 ^ 256 := by decide +kernel
  have pt : ∀ s, s • sm2G + ((r + s) % sm2n) • (-sm2G) = r • (-sm2G) := by
    intro s
    rw [verify_point, add_neg_cancel, nsmul_zero, zero_add]
  obtain ⟨b, b1, b2⟩ := C45_verify hC pub _ hp r s hr (by omega) msg id hid hmsg
  obtain ⟨b', b1', b2'⟩ := C45_verify hC pub _ hp r s' hr (by omega) msg id hid hmsg
  rw [b1, b1']
  unfold Sm2Valid at b2 b2'
  rw [pt] at b2 b2'
  have : b = true ↔ b' = true := by
    rw [b2, b2']
    constructor
    · rintro (⟨h1, h2, -, -, -, h3⟩ | ⟨h1, h2, -, -, -, h3⟩)
      · exact Or.inl ⟨h1, h2, hs'.1, hs'.2.1, hs'.2.2, h3⟩
      · exact Or.inr ⟨h1, h2, hs'.1, hs'.2.1, hs'.2.2, h3⟩
    · rintro (⟨h1, h2, -, -, -, h3⟩ | ⟨h1, h2, -, -, -, h3⟩)
      · exact Or.inl ⟨h1, h2, hs.1, hs.2.1, hs.2.2, h3⟩
      · exact Or.inr ⟨h1, h2, hs.1, hs.2.1, hs.2.2, h3⟩
  have hb : b = b' := by cases b <;> cases b' <;> simp_all
  rw [hb]

/-! ## Encryption -/

theorem encrypt_one (hC : IsHash C H) (pub : Sm2.Pub) (Q : Sm2Point) (hp : Sm2PubIs pub Q) (pt rnd : List Byte)
    (pc : Sm2.PC) (hr : rnd.length = 32) (ct : List Byte) (h : Sm2.encrypt C pub pt pc [rnd] = .ok (some ct)) :
    IsSm2Cipher H C.DS sm2G Q (beVal rnd % (sm2n - 1) + 1) pc pt ct := by
  obtain ⟨q, hq, e⟩ := (C46_encrypt hC pub Q hp pt pc [rnd] (by simpa using hr)).2.2 ct h
  have : q = rnd := by simpa using hq
  rwa [this] at e

/-- C96: two ciphertexts, of any messages to any receivers, begin with the same point exactly when they were made with the
same nonce. -/
theorem C96_ciphertext_nonce (hC : IsHash C H) (pub pub' : Sm2.Pub) (Q Q' : Sm2Point) (hp : Sm2PubIs pub Q)
    (hp' : Sm2PubIs pub' Q') (pt pt' rnd rnd' : List Byte) (pc : Sm2.PC) (hr : rnd.length = 32) (hr' : rnd'.length = 32)
    (ct ct' : List Byte) (h : Sm2.encrypt C pub pt pc [rnd] = .ok (some ct))
    (h' : Sm2.encrypt C pub' pt' pc [rnd'] = .ok (some ct')) :
    ct.take (if pc = .compressed then 33 else 65) = ct'.take (if pc = .compressed then 33 else 65) ↔
      beVal rnd % (sm2n - 1) = beVal rnd' % (sm2n - 1) := by
  obtain ⟨x, y, hn, _, _, _, e1, _, e2⟩ := encrypt_one hC pub Q hp pt rnd pc hr ct h
  obtain ⟨x', y', hn', _, _, _, e1', _, e2'⟩ := encrypt_one hC pub' Q' hp' pt' rnd' pc hr' ct' h'
  have hf : (if pc = .compressed then 33 else 65) = formLen pc := by cases pc <;> rfl
  rw [hf, e2, e2', List.append_assoc]
  rw [List.take_left' (encForm_length pc x y), List.append_assoc, List.take_left' (encForm_length pc x' y')]
  constructor
  · intro he
    obtain ⟨rfl, rfl⟩ := encForm_inj hn hn' he
    have := nsmul_inj_lt sm2G_ne (draw_lt rnd) (draw_lt rnd') (e1.trans e1'.symm)
    omega
  · intro he
    rw [he, e1'] at e1
    obtain ⟨rfl, rfl⟩ := (Point.some.injEq ..).mp e1
    rfl

/-- C96: two messages of one length encrypted to one receiver with the same nonce: the ciphertexts show by which bits the
messages differ. -/
theorem C96_encrypt_nonce_reuse (hC : IsHash C H) (pub : Sm2.Pub) (Q : Sm2Point) (hp : Sm2PubIs pub Q)
    (pt pt' rnd rnd' : List Byte) (pc : Sm2.PC) (hr : rnd.length = 32) (hr' : rnd'.length = 32) (ct ct' : List Byte)
    (hl : pt.length = pt'.length) (hk : beVal rnd % (sm2n - 1) = beVal rnd' % (sm2n - 1))
    (h : Sm2.encrypt C pub pt pc [rnd] = .ok (some ct)) (h' : Sm2.encrypt C pub pt' pc [rnd'] = .ok (some ct')) :
    List.zipWith (· ^^^ ·) (ct.drop ((if pc = .compressed then 33 else 65) + C.DS))
      (ct'.drop ((if pc = .compressed then 33 else 65) + C.DS)) = List.zipWith (· ^^^ ·) pt pt' := by
  obtain ⟨x, y, hn, x2, y2, h2, e1, e3, e2⟩ := encrypt_one hC pub Q hp pt rnd pc hr ct h
  obtain ⟨x', y', hn', x2', y2', h2', e1', e3', e2'⟩ := encrypt_one hC pub Q hp pt' rnd' pc hr' ct' h'
  have hf : (if pc = .compressed then 33 else 65) = formLen pc := by cases pc <;> rfl
  rw [← hk] at e3'
  obtain ⟨rfl, rfl⟩ := (Point.some.injEq ..).mp (e3.symm.trans e3')
  have d1 : ∀ (a : List Byte) (x y : ZMod sm2p) (m : List Byte),
      (encForm pc x y ++ H m ++ a).drop (formLen pc + C.DS) = a := by
    intro a x y m
    have : formLen pc + C.DS = (encForm pc x y ++ H m).length := by
      rw [List.length_append, encForm_length, hC.len]
    rw [this, List.drop_left]
  rw [hf, e2, e2', d1, d1, ← hl]
  have key : (sm2Kdf H C.DS (fieldOctets x2 ++ fieldOctets y2) pt.length).length = pt.length :=
    sm2Kdf_len hC _ _
  generalize sm2Kdf H C.DS (fieldOctets x2 ++ fieldOctets y2) pt.length = ks at key
  clear e2 e2' d1 h h'
  induction pt generalizing pt' ks with
  | nil => simp
  | cons a as ih =>
    match pt', ks, hl, key with
    | b :: bs, c :: cs, hl, key =>
      simp only [List.zipWith_cons_cons, List.cons.injEq]
      refine ⟨?_, ih bs (by simpa using hl) cs (by simpa using key)⟩
      rw [BitVec.xor_comm b c, BitVec.xor_assoc, ← BitVec.xor_assoc c c b, BitVec.xor_self, BitVec.zero_xor]

/-- C96: one ciphertext is not the encryption of two messages to one receiver. -/
theorem C96_ciphertext_message (hC : IsHash C H) (K : Sm2.Priv) (d : Nat) (hK : Sm2PrivIs sm2G K d) (pt pt' : List Byte)
    (pc pc' : Sm2.PC) (rnds rnds' : List (List Byte)) (hr : ∀ r ∈ rnds, r.length = 32) (hr' : ∀ r ∈ rnds', r.length = 32)
    (ct : List Byte) (h : Sm2.encrypt C K.pub pt pc rnds = .ok (some ct))
    (h' : Sm2.encrypt C K.pub pt' pc' rnds' = .ok (some ct)) : pt = pt' := by
  have a := C46_decrypt_encrypt hC K d hK pt pc rnds hr ct h
  have b := C46_decrypt_encrypt hC K d hK pt' pc' rnds' hr' ct h'
  rw [a] at b
  exact Outcome.ok.inj b

end

/-- The hypotheses can be met: SM3, private key 1, whose public key `G` is not `-G`. -/
example : Sm2PrivIs sm2G ⟨toBE 32 1, gPub⟩ 1 ∧ IsHash Sm3.cls Spec.SM3.hash ∧ sm2G ≠ -sm2G := by
  refine ⟨⟨rfl, by decide, by decide +kernel, by rw [one_nsmul]; exact gPub_is⟩, sm3_isHash, ?_⟩
  intro h
  have h2 : 2 • sm2G = 0 := by rw [two_nsmul]; exact eq_neg_iff_add_eq_zero.mp h
  exact nsmul_ne_zero_of sm2G_ne (by decide) (by decide +kernel) h2

/-- Two nonces, one of them reused, for C96_nonce_reuse: the answers 0 and `n - 1` of the generator give the same nonce. -/
example : beVal (toBE 32 0) % (sm2n - 1) = beVal (toBE 32 (sm2n - 1)) % (sm2n - 1) := by decide +kernel

/-- `-G` is a public key. -/
example : ∃ K, Sm2.genPriv (toBE 32 (sm2n - 2)) = .ok K ∧ Sm2PubIs K.pub (-sm2G) := by
  obtain ⟨K, e, h⟩ := C47_gen_priv (toBE 32 (sm2n - 2)) (toBE_len _ _)
  refine ⟨K, e, ?_⟩
  have hk : beVal (toBE 32 (sm2n - 2)) % (sm2n - 1) + 1 = sm2n - 1 := by decide +kernel
  rw [hk] at h
  have : (sm2n - 1) • sm2G = -sm2G := by
    apply eq_neg_of_add_eq_zero_left
    rw [← succ_nsmul, Nat.sub_add_cancel (by decide +kernel)]
    exact sm2_nsmul _
  rw [← this]
  exact h.2.2.2

end Verif.Props

/-! ## The build with 64-bit limbs

Keys are those `set_priv` and `set_pub` accept. -/
namespace Verif.X64.Props
open Verif Verif.Spec WeierstrassCurve WeierstrassCurve.Affine

theorem priv_back {key : List Byte} (hl : key.length = 32) {K : X64.Sm2.Priv} (h : X64.Sm2.setPriv key = .ok K) :
    ∃ P, Verif.Sm2.setPriv key = .ok P ∧ PrivSim P K ∧ Sm2PrivIs sm2G P (beVal key) ∧ beVal key ≤ sm2n - 2 := by
  have hs := setPriv_sim hl
  rw [h] at hs
  obtain ⟨P, hP, hs⟩ := relOut_ok hs
  obtain ⟨p1, p2⟩ := Verif.Props.C58_set_priv key hl
  by_cases hv : 1 ≤ beVal key ∧ beVal key ≤ sm2n - 2
  · obtain ⟨P', e1, -, e3⟩ := p1 hv
    rw [hP] at e1
    cases e1
    exact ⟨P, hP, hs, e3, hv.2⟩
  · rw [p2 hv] at hP
    cases hP

theorem pub_back {x y : List Byte} (hx : x.length = 32) (hy : y.length = 32) {K : X64.Sm2.Pub}
    (h : X64.Sm2.setPub x y = .ok K) : ∃ P Q, PubSim P K ∧ Sm2PubIs P Q := by
  have hs := setPub_sim hx hy
  rw [h] at hs
  obtain ⟨P, -, hs⟩ := relOut_ok hs
  obtain ⟨Q, hQ⟩ := hs.valid
  exact ⟨P, Q, hs, hQ⟩

/-- C96 in this build: two imported private keys have the same public key exactly when they are the same. -/
theorem C96_x64_public_keys (key key' : List Byte) (hl : key.length = 32) (hl' : key'.length = 32) (K K' : X64.Sm2.Priv)
    (h : X64.Sm2.setPriv key = .ok K) (h' : X64.Sm2.setPriv key' = .ok K') :
    X64.Sm2.getPub K.pub = X64.Sm2.getPub K'.pub ↔ key = key' := by
  obtain ⟨P, e, s, -, -⟩ := priv_back hl h
  obtain ⟨P', e', s', -, -⟩ := priv_back hl' h'
  rw [← Verif.Props.C96_public_keys key key' hl hl' P P' e e']
  unfold X64.Sm2.getPub Verif.Sm2.getPub
  rw [← s.pub.x, ← s.pub.y, ← s'.pub.x, ← s'.pub.y]

section
variable {S : Type} {C : HashClass S} {H : List Byte → List Byte}

/-- C96 in this build: two answers of the generator give the same signature exactly when they give the same nonce. -/
theorem C96_x64_signature_nonce (hC : IsHash C H) (key : List Byte) (hl : key.length = 32) (K : X64.Sm2.Priv)
    (hK : X64.Sm2.setPriv key = .ok K) (msg id rnd rnd' : List Byte) (hr : rnd.length = 32) (hr' : rnd'.length = 32)
    (sig sig' : List Byte) (h : X64.Sm2.sign C K msg [rnd] id = .ok (some sig))
    (h' : X64.Sm2.sign C K msg [rnd'] id = .ok (some sig')) :
    sig = sig' ↔ beVal rnd % (sm2n - 1) = beVal rnd' % (sm2n - 1) := by
  obtain ⟨P, -, s, hP, hd⟩ := priv_back hl hK
  rw [← sign_sim C s msg (by simpa using hr) id] at h
  rw [← sign_sim C s msg (by simpa using hr') id] at h'
  exact Verif.Props.C96_signature_nonce hC P _ hP hd msg id rnd rnd' hr hr' sig sig' h h'

/-- C96 in this build: two signatures made with the same nonce on digests that differ modulo `n` determine the private
key. -/
theorem C96_x64_nonce_reuse (hC : IsHash C H) (key : List Byte) (hl : key.length = 32) (K : X64.Sm2.Priv)
    (hK : X64.Sm2.setPriv key = .ok K) (msg msg' id id' rnd rnd' : List Byte) (hr : rnd.length = 32)
    (hr' : rnd'.length = 32) (hk : beVal rnd % (sm2n - 1) = beVal rnd' % (sm2n - 1))
    (he : sm2E H id K.pub.x K.pub.y msg % sm2n ≠ sm2E H id' K.pub.x K.pub.y msg' % sm2n)
    (r s r' s' : Nat) (h : X64.Sm2.sign C K msg [rnd] id = .ok (some (toBE 32 r ++ toBE 32 s)))
    (h' : X64.Sm2.sign C K msg' [rnd'] id' = .ok (some (toBE 32 r' ++ toBE 32 s')))
    (hb : r < 2 ^ 256 ∧ s < 2 ^ 256 ∧ r' < 2 ^ 256 ∧ s' < 2 ^ 256) :
    (s : ZMod sm2n) + r - s' - r' ≠ 0 ∧
    X64.Sm2.getPriv K = toBE 32 (((s' : ZMod sm2n) - s) * ((s : ZMod sm2n) + r - s' - r')⁻¹).val := by
  obtain ⟨P, -, sm, hP, hd⟩ := priv_back hl hK
  rw [← sign_sim C sm msg (by simpa using hr) id] at h
  rw [← sign_sim C sm msg' (by simpa using hr') id'] at h'
  rw [← sm.pub.x, ← sm.pub.y] at he
  obtain ⟨a, b⟩ := Verif.Props.C96_nonce_reuse hC P _ hP hd msg msg' id id' rnd rnd' hr hr' hk he r s r' s' h h' hb
  exact ⟨a, sm.priv.symm.trans b⟩

/-- C96 in this build: for an accepted public key other than `-G`, at most five second halves are accepted. -/
theorem C96_x64_accepted_halves (hC : IsHash C H) (x y : List Byte) (hx : x.length = 32) (hy : y.length = 32)
    (K : X64.Sm2.Pub) (hK : X64.Sm2.setPub x y = .ok K)
    (hQ : ∀ hn, (Point.some (beVal x : ZMod sm2p) (beVal y : ZMod sm2p) hn : Sm2Point) ≠ -sm2G)
    (msg id : List Byte) (hid : 8 * id.length ≤ 65535) (hmsg : 8 * (C.DS + msg.length) < 2 ^ 64)
    (r : Nat) (hr : r < 2 ^ 256) (F : Finset Nat)
    (hF : ∀ s ∈ F, s < 2 ^ 256 ∧ X64.Sm2.verify C K (toBE 32 r ++ toBE 32 s) msg id = .returns true) : F.card ≤ 5 := by
  have hs := setPub_sim hx hy
  rw [hK] at hs
  obtain ⟨P, hP, sm⟩ := relOut_ok hs
  obtain ⟨Q, hp⟩ := sm.valid
  have hPx : P.x = x ∧ P.y = y := by
    unfold Verif.Sm2.setPub at hP
    dsimp only at hP
    split at hP
    · cases hP
    · cases hP; exact ⟨rfl, rfl⟩
  obtain ⟨p1, p2, p3, hn, hq⟩ := hp
  have hne : Q ≠ -sm2G := by
    rw [hq]
    revert hn hq
    rw [hPx.1, hPx.2]
    intro hn _
    exact hQ hn
  refine Verif.Props.C96_accepted_halves hC P Q ⟨p1, p2, p3, hn, hq⟩ hne msg id hid hmsg r hr F fun s hs => ?_
  obtain ⟨a, b⟩ := hF s hs
  refine ⟨a, ?_⟩
  rw [verify_sim' C sm (by rw [List.length_append, toBE_len, toBE_len]) msg id]
  exact b

/-- C96 in this build: for the public key `-G` acceptance does not depend on the second half, as long as it is in range. -/
theorem C96_x64_degenerate_key (hC : IsHash C H) (x y : List Byte) (hx : x.length = 32) (hy : y.length = 32)
    (K : X64.Sm2.Pub) (hK : X64.Sm2.setPub x y = .ok K)
    (hQ : ∃ hn, (Point.some (beVal x : ZMod sm2p) (beVal y : ZMod sm2p) hn : Sm2Point) = -sm2G)
    (msg id : List Byte) (hid : 8 * id.length ≤ 65535) (hmsg : 8 * (C.DS + msg.length) < 2 ^ 64)
    (r s s' : Nat) (hs : 1 ≤ s ∧ s < sm2n ∧ (r + s) % sm2n ≠ 0) (hs' : 1 ≤ s' ∧ s' < sm2n ∧ (r + s') % sm2n ≠ 0)
    (hr : r < 2 ^ 256) :
    X64.Sm2.verify C K (toBE 32 r ++ toBE 32 s) msg id = X64.Sm2.verify C K (toBE 32 r ++ toBE 32 s') msg id := by
  have hsim := setPub_sim hx hy
  rw [hK] at hsim
  obtain ⟨P, hP, sm⟩ := relOut_ok hsim
  obtain ⟨Q, hp⟩ := sm.valid
  have hPx : P.x = x ∧ P.y = y := by
    unfold Verif.Sm2.setPub at hP
    dsimp only at hP
    split at hP
    · cases hP
    · cases hP; exact ⟨rfl, rfl⟩
  have hq : Q = -sm2G := by
    obtain ⟨hn, e⟩ := hQ
    obtain ⟨-, -, -, hn', e'⟩ := _root_.id hp
    rw [← e, e', Point.some.injEq, hPx.1, hPx.2]
    exact ⟨rfl, rfl⟩
  subst hq
  have hl : ∀ s, (toBE 32 r ++ toBE 32 s).length = 64 := fun s => by rw [List.length_append, toBE_len, toBE_len]
  rw [← verify_sim' C sm (hl s) msg id, ← verify_sim' C sm (hl s') msg id]
  exact Verif.Props.C96_degenerate_key hC P hp msg id hid hmsg r s s' hs hs' hr

/-- C96 in this build: two ciphertexts begin with the same point exactly when they were made with the same nonce. -/
theorem C96_x64_ciphertext_nonce (hC : IsHash C H) (x y x' y' : List Byte) (hx : x.length = 32) (hy : y.length = 32)
    (hx' : x'.length = 32) (hy' : y'.length = 32) (K K' : X64.Sm2.Pub) (hK : X64.Sm2.setPub x y = .ok K)
    (hK' : X64.Sm2.setPub x' y' = .ok K') (pt pt' rnd rnd' : List Byte) (pc : Verif.Sm2.PC) (hr : rnd.length = 32)
    (hr' : rnd'.length = 32) (ct ct' : List Byte) (h : X64.Sm2.encrypt C K pt pc [rnd] = .ok (some ct))
    (h' : X64.Sm2.encrypt C K' pt' pc [rnd'] = .ok (some ct')) :
    ct.take (if pc = .compressed then 33 else 65) = ct'.take (if pc = .compressed then 33 else 65) ↔
      beVal rnd % (sm2n - 1) = beVal rnd' % (sm2n - 1) := by
  obtain ⟨P, Q, s, hp⟩ := pub_back hx hy hK
  obtain ⟨P', Q', s', hp'⟩ := pub_back hx' hy' hK'
  rw [← encrypt_sim C s pt pc [rnd] (by simpa using hr)] at h
  rw [← encrypt_sim C s' pt' pc [rnd'] (by simpa using hr')] at h'
  exact Verif.Props.C96_ciphertext_nonce hC P P' Q Q' hp hp' pt pt' rnd rnd' pc hr hr' ct ct' h h'

/-- C96 in this build: with a nonce used twice the ciphertexts show by which bits the messages differ. -/
theorem C96_x64_encrypt_nonce_reuse (hC : IsHash C H) (x y : List Byte) (hx : x.length = 32) (hy : y.length = 32)
    (K : X64.Sm2.Pub) (hK : X64.Sm2.setPub x y = .ok K) (pt pt' rnd rnd' : List Byte) (pc : Verif.Sm2.PC)
    (hr : rnd.length = 32) (hr' : rnd'.length = 32) (ct ct' : List Byte) (hl : pt.length = pt'.length)
    (hk : beVal rnd % (sm2n - 1) = beVal rnd' % (sm2n - 1)) (h : X64.Sm2.encrypt C K pt pc [rnd] = .ok (some ct))
    (h' : X64.Sm2.encrypt C K pt' pc [rnd'] = .ok (some ct')) :
    List.zipWith (· ^^^ ·) (ct.drop ((if pc = .compressed then 33 else 65) + C.DS))
      (ct'.drop ((if pc = .compressed then 33 else 65) + C.DS)) = List.zipWith (· ^^^ ·) pt pt' := by
  obtain ⟨P, Q, s, hp⟩ := pub_back hx hy hK
  rw [← encrypt_sim C s pt pc [rnd] (by simpa using hr)] at h
  rw [← encrypt_sim C s pt' pc [rnd'] (by simpa using hr')] at h'
  exact Verif.Props.C96_encrypt_nonce_reuse hC P Q hp pt pt' rnd rnd' pc hr hr' ct ct' hl hk h h'

/-- C96 in this build: one ciphertext is not the encryption of two messages to one receiver. -/
theorem C96_x64_ciphertext_message (hC : IsHash C H) (key : List Byte) (hl : key.length = 32) (K : X64.Sm2.Priv)
    (hK : X64.Sm2.setPriv key = .ok K) (pt pt' : List Byte) (pc pc' : Verif.Sm2.PC) (rnds rnds' : List (List Byte))
    (hr : ∀ r ∈ rnds, r.length = 32) (hr' : ∀ r ∈ rnds', r.length = 32) (ct : List Byte)
    (h : X64.Sm2.encrypt C K.pub pt pc rnds = .ok (some ct))
    (h' : X64.Sm2.encrypt C K.pub pt' pc' rnds' = .ok (some ct)) : pt = pt' := by
  have a := C79_x64_encrypt_decrypt hC key hl K hK pt pc rnds hr ct h
  have b := C79_x64_encrypt_decrypt hC key hl K hK pt' pc' rnds' hr' ct h'
  rw [a] at b
  exact Outcome.ok.inj b

end

/-- The hypotheses can be met: the keys 1 and 2 and the public key of 1 are accepted by this build. -/
example : (∃ K, X64.Sm2.setPriv (toBE 32 1) = .ok K) ∧ (∃ K, X64.Sm2.setPriv (toBE 32 2) = .ok K) ∧
    ∃ K, X64.Sm2.setPub Verif.Sm2.sm2CurveGx Verif.Sm2.sm2CurveGy = .ok K := by
  have key : ∀ k : Nat, 1 ≤ beVal (toBE 32 k) ∧ beVal (toBE 32 k) ≤ sm2n - 2 →
      ∃ K, X64.Sm2.setPriv (toBE 32 k) = .ok K := by
    intro k hk
    have hs := setPriv_sim (d := toBE 32 k) (toBE_len _ _)
    obtain ⟨K, k1, -⟩ := (Verif.Props.C58_set_priv (toBE 32 k) (toBE_len _ _)).1 hk
    rw [k1] at hs
    obtain ⟨K', h1, -⟩ := relOut_ok' hs
    exact ⟨K', h1⟩
  refine ⟨key 1 (by decide +kernel), key 2 (by decide +kernel), ?_⟩
  have hc : X64.Sm2.ecCheck ⟨X64.Sm2.fpFromBytes Verif.Sm2.sm2CurveGx, X64.Sm2.fpFromBytes Verif.Sm2.sm2CurveGy⟩ = true := by
    decide +kernel
  unfold X64.Sm2.setPub
  dsimp only
  rw [hc]
  exact ⟨_, rfl⟩

/-- `-G`, the key of `C96_x64_degenerate_key`, is accepted by this build. -/
example : (∃ K, X64.Sm2.setPub Verif.Sm2.sm2CurveGx (toBE 32 (sm2p - beVal Verif.Sm2.sm2CurveGy)) = .ok K) ∧
    ∃ hn, (Point.some (beVal Verif.Sm2.sm2CurveGx : ZMod sm2p)
      (beVal (toBE 32 (sm2p - beVal Verif.Sm2.sm2CurveGy)) : ZMod sm2p) hn : Sm2Point) = -sm2G := by
  constructor
  · have hc : X64.Sm2.ecCheck ⟨X64.Sm2.fpFromBytes Verif.Sm2.sm2CurveGx,
        X64.Sm2.fpFromBytes (toBE 32 (sm2p - beVal Verif.Sm2.sm2CurveGy))⟩ = true := by decide +kernel
    unfold X64.Sm2.setPub
    dsimp only
    rw [hc]
    exact ⟨_, rfl⟩
  · obtain ⟨-, -, -, hn, hG⟩ := Verif.Props.gPub_is
    rw [hG, Point.neg_some]
    have e1 : (beVal Verif.Props.gPub.x : ZMod sm2p) = (beVal Verif.Sm2.sm2CurveGx : ZMod sm2p) := by decide +kernel
    have e2 : sm2Curve.negY (beVal Verif.Props.gPub.x : ZMod sm2p) (beVal Verif.Props.gPub.y : ZMod sm2p) =
        (beVal (toBE 32 (sm2p - beVal Verif.Sm2.sm2CurveGy)) : ZMod sm2p) := by
      simp only [WeierstrassCurve.Affine.negY, sm2Curve, shortCurve]
      decide +kernel
    have hN := (nonsingular_neg (W' := sm2Curve) _ _).mpr hn
    rw [e1] at hN e2
    rw [e2] at hN
    refine ⟨hN, ?_⟩
    rw [Point.some.injEq]
    exact ⟨e1.symm, by rw [e1, e2]⟩

end Verif.X64.Props
