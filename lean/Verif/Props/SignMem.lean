import Verif.Proofs.SignMem
import Verif.Proofs.Sm9Total
import Verif.Props.Sm2Mem
import Verif.Props.Sm9
/-!
# C103: signing and verifying on the caller's buffers

`m` is the caller's memory before the call; message, identity and signature buffer are places in it that may overlap in
any way.  `w` are the octet arrays that the function declares itself, with arbitrary contents.  `rdm m p n` are the `n`
octets at `p`, `wrm m p b` is the memory with `b` stored at `p`.  `Sm2.sign`, `Sm9.sign` and `Sm9.verify` are the
functions on values that C44, C45, C56 and C68 are about.
-/
set_option linter.unusedSectionVars false
namespace Verif.Props
open Verif Spec WeierstrassCurve WeierstrassCurve.Affine

section
variable {S : Type} {C : HashClass S} {H : List Byte → List Byte}

/-! ## SM2 -/

/-- **C103** SM2 `sign`, however message, identity and signature overlap: the signature left is the one of message and
identity as they were before the call; a call that throws, or for which the generator has no more answers, has written
nothing. -/
theorem C103_sm2_sign (hC : IsHash C H) (K : Sm2.Priv) (hp : K.priv.length = 32) (m w : Mem) (sig msg n id l : Nat)
    (rnds : List (List Byte)) (hr : ∀ r ∈ rnds, r.length = 32) (hw : w.length = C.DS + 32) (ho : sig + 64 ≤ m.length)
    (m' : Mem) (r : Outcome Bool)
    (hc : m' = (SignMem.sm2Sign C K sig msg n id l rnds ⟨m, w⟩).1.m ∧
      r = (SignMem.sm2Sign C K sig msg n id l rnds ⟨m, w⟩).2) :
    (∀ b, Sm2.sign C K (rdm m msg n) rnds (rdm m id l) = .ok (some b) → b.length = 64 ∧ m' = wrm m sig b ∧ r = .ok true) ∧
    (Sm2.sign C K (rdm m msg n) rnds (rdm m id l) = .ok none → m' = m ∧ r = .ok false) ∧
    (Sm2.sign C K (rdm m msg n) rnds (rdm m id l) = .throw → m' = m ∧ r = .throw) ∧
    (Sm2.sign C K (rdm m msg n) rnds (rdm m id l) = .ub → m' = m ∧ r = .ub) := by
  obtain ⟨rfl, rfl⟩ := hc
  have h := SignMem.sm2Sign_ends hC (K := K) hp (sig := sig) (msg := msg) (n := n) (id := id) (l := l) hr
    (s := ⟨m, w⟩) hw ho
  dsimp only at h
  revert h
  generalize Sm2.sign C K (rdm m msg n) rnds (rdm m id l) = o
  generalize SignMem.sm2Sign C K sig msg n id l rnds ⟨m, w⟩ = x
  intro h
  cases h with
  | some b _ hb => exact ⟨fun b' e => by cases e; exact ⟨hb, rfl, rfl⟩, nofun, nofun, nofun⟩
  | none => exact ⟨nofun, fun _ => ⟨rfl, rfl⟩, nofun, nofun⟩
  | throw => exact ⟨nofun, nofun, fun _ => ⟨rfl, rfl⟩, nofun⟩
  | ub => exact ⟨nofun, nofun, nofun, fun _ => ⟨rfl, rfl⟩⟩

/-- **C103** with a key `d` in `[1, n-2]`, for all overlaps: the call throws exactly when the identity has more than 8191
octets or the message is too long for the hash, and has no undefined behaviour; in every case the octets outside the 64
of the signature are as before, and all of them unless the call returns; when it returns, the 64 octets at `sig` verify
against message and identity as they were before the call. -/
theorem C103_sm2_sign_verify (hC : IsHash C H) (K : Sm2.Priv) (d : Nat) (hK : Sm2PrivIs sm2G K d) (hd : d ≤ sm2n - 2)
    (m w : Mem) (sig msg n id l : Nat) (rnds : List (List Byte)) (hr : ∀ r ∈ rnds, r.length = 32)
    (hw : w.length = C.DS + 32) (hm : msg + n ≤ m.length) (hi : id + l ≤ m.length) (ho : sig + 64 ≤ m.length)
    (m' : Mem) (r : Outcome Bool)
    (hc : m' = (SignMem.sm2Sign C K sig msg n id l rnds ⟨m, w⟩).1.m ∧
      r = (SignMem.sm2Sign C K sig msg n id l rnds ⟨m, w⟩).2) :
    (r = .throw ↔ ¬ (8 * l ≤ 65535 ∧ 8 * (C.DS + n) < 2 ^ 64)) ∧ r ≠ .ub ∧
    m'.length = m.length ∧ (∀ k, k < sig ∨ sig + 64 ≤ k → m'[k]? = m[k]?) ∧ (r ≠ .ok true → m' = m) ∧
    (r = .ok true → Sm2.verify C K.pub (rdm m' sig 64) (rdm m msg n) (rdm m id l) = .returns true) := by
  obtain ⟨h1, h2, h3, h4⟩ := C103_sm2_sign hC K (by rw [hK.1, toBE_len]) m w sig msg n id l rnds hr hw ho m' r hc
  obtain ⟨g1, g2⟩ := C44_sign hC K d hK hd (rdm m msg n) (rdm m id l) rnds hr
  rw [rdm_len hm, rdm_len hi] at g1 g2
  have ht := fun hl : 8 * l ≤ 65535 ∧ 8 * (C.DS + n) < 2 ^ 64 =>
    SignMem.sign_isOk hC (by rw [hK.1, toBE_len]) hK.2.2.2.1 hK.2.2.2.2.1 (msg := rdm m msg n) (id := rdm m id l) hr
      (by rw [rdm_len hi]; exact hl.1) (by rw [rdm_len hm]; exact hl.2)
  cases e : Sm2.sign C K (rdm m msg n) rnds (rdm m id l) with
  | throw =>
    obtain ⟨rfl, rfl⟩ := h3 e
    refine ⟨⟨fun _ hl => ?_, fun _ => rfl⟩, nofun, rfl, fun _ _ => rfl, fun _ => rfl, nofun⟩
    obtain ⟨o, ho⟩ := ht hl
    rw [ho] at e
    cases e
  | ub =>
    by_cases hl : 8 * l ≤ 65535 ∧ 8 * (C.DS + n) < 2 ^ 64
    · obtain ⟨o, ho⟩ := ht hl
      rw [ho] at e
      cases e
    · rw [g1 hl] at e; cases e
  | ok o =>
    have nl : ¬ ¬ (8 * l ≤ 65535 ∧ 8 * (C.DS + n) < 2 ^ 64) := fun hl => by rw [g1 hl] at e; cases e
    cases o with
    | none =>
      obtain ⟨rfl, rfl⟩ := h2 e
      exact ⟨⟨nofun, fun hl => absurd hl nl⟩, nofun, rfl, fun _ _ => rfl, fun _ => rfl, nofun⟩
    | some b =>
      obtain ⟨hb, rfl, rfl⟩ := h1 b e
      refine ⟨⟨nofun, fun hl => absurd hl nl⟩, nofun, wrm_len (by rw [hb]; exact ho), fun k hk => ?_, fun h => absurd rfl h,
        fun _ => ?_⟩
      · rw [wrm_get (by rw [hb]; exact ho), hb]
        split_ifs
        · rfl
        · omega
        · rfl
      · rw [SignMem.rdm_wrm_same' hb ho]
        exact C44_sign_verify hC K d hK hd _ _ rnds hr b e

/-- The hypotheses are met, with everything overlapping: SM3, key 1, a memory of 100 octets, the message at 0 of 80
octets, the identity at 40 of 20 octets, the signature at 30. -/
example (m w : Mem) (hm : m.length = 100) (hw : w.length = 64) :
    (SignMem.sm2Sign Sm3.cls ⟨toBE 32 1, gPub⟩ 30 0 80 40 20 [toBE 32 0] ⟨m, w⟩).2 ≠ .throw ∧
    ((SignMem.sm2Sign Sm3.cls ⟨toBE 32 1, gPub⟩ 30 0 80 40 20 [toBE 32 0] ⟨m, w⟩).2 = .ok true →
      Sm2.verify Sm3.cls gPub (rdm (SignMem.sm2Sign Sm3.cls ⟨toBE 32 1, gPub⟩ 30 0 80 40 20 [toBE 32 0] ⟨m, w⟩).1.m 30 64)
        (rdm m 0 80) (rdm m 40 20) = .returns true) := by
  have h := C103_sm2_sign_verify sm3_isHash _ 1 key1 (by decide +kernel) m w 30 0 80 40 20 [toBE 32 0]
    (fun r h => by rw [List.mem_singleton.mp h, toBE_len]) hw (by omega) (by omega) (by omega) _ _ ⟨rfl, rfl⟩
  exact ⟨fun e => h.1.mp e (by decide), h.2.2.2.2.2⟩

/-! ## SM9 -/

/-- **C103** SM9 `sign` with a key made by the library, however message and signature overlap: hash, exponent, element of
the extension field and scalar in one array do not disturb each other, the signature left is the one of the message as it
was before the call and the length stored is its length; a call that throws, or for which the generator has no more
answers, has written nothing. -/
theorem C103_sm9_sign (hC : IsHash C H) (key : List Byte) (hl : key.length = 32) (mk : Sm9.MPriv)
    (hmk : Sm9.setPriv key = .ok mk) (ident : List Byte) (hid : Byte) (sk : Sm9.SPriv)
    (hsk : Sm9.genSignPriv C mk ident hid = .ok sk) (pc : Sm2.PC) (m w : Mem) (sig msg n : Nat)
    (rnds : List (List Byte)) (hr : ∀ r ∈ rnds, r.length = 32) (hw : w.length = 384)
    (ho : sig + 32 + Sm2.c1Len pc ≤ m.length) (m' : Mem) (r : Outcome (Option Nat))
    (hc : m' = (SignMem.sm9Sign C sk sig msg n pc rnds ⟨m, w⟩).1.m ∧ r = (SignMem.sm9Sign C sk sig msg n pc rnds ⟨m, w⟩).2) :
    (∀ b, Sm9.sign C sk (rdm m msg n) rnds pc = .ok (some b) →
      b.length = 32 + Sm2.c1Len pc ∧ m' = wrm m sig b ∧ r = .ok (some b.length)) ∧
    (Sm9.sign C sk (rdm m msg n) rnds pc = .ok none → m' = m ∧ r = .ok none) ∧
    (Sm9.sign C sk (rdm m msg n) rnds pc = .throw → m' = m ∧ r = .throw) ∧
    (Sm9.sign C sk (rdm m msg n) rnds pc = .ub → m' = m ∧ r = .ub) := by
  obtain ⟨rfl, rfl⟩ := hc
  obtain ⟨K, _, _, w0, hw0⟩ := sm9_field_exists
  classical
  have hk := SignMem.issued_ok hw0 hC hl hmk hsk
  have h := SignMem.sm9Sign_ends hw0 hC hk (sig := sig) (msg := msg) (n := n) pc rnds hr ⟨m, w⟩ hw ho
  dsimp only at h
  revert h
  generalize Sm9.sign C sk (rdm m msg n) rnds pc = o
  generalize SignMem.sm9Sign C sk sig msg n pc rnds ⟨m, w⟩ = x
  intro h
  cases h with
  | some b _ hb => exact ⟨fun b' e => by cases e; exact ⟨hb, rfl, rfl⟩, nofun, nofun, nofun⟩
  | none => exact ⟨nofun, fun _ => ⟨rfl, rfl⟩, nofun, nofun⟩
  | throw => exact ⟨nofun, nofun, fun _ => ⟨rfl, rfl⟩, nofun⟩
  | ub => exact ⟨nofun, nofun, nofun, fun _ => ⟨rfl, rfl⟩⟩

/-- **C103** with a key made by the library, for all overlaps: the call throws exactly when the message is too long for the
hash, and has no undefined behaviour, also with the key (0, 0) of `C56_key_violated`; in every case the octets outside the
signature are as before, and all of them unless the call returns; when it returns, the length stored is that of the form
asked for, and that many octets at `sig` are a signature of the message as it was before the call. -/
theorem C103_sm9_sign_frame (hC : IsHash C H) (key : List Byte) (hl : key.length = 32) (mk : Sm9.MPriv)
    (hmk : Sm9.setPriv key = .ok mk) (ident : List Byte) (hid : Byte) (sk : Sm9.SPriv)
    (hsk : Sm9.genSignPriv C mk ident hid = .ok sk) (pc : Sm2.PC) (m w : Mem) (sig msg n : Nat)
    (rnds : List (List Byte)) (hr : ∀ r ∈ rnds, r.length = 32) (hw : w.length = 384) (hm : msg + n ≤ m.length)
    (ho : sig + 32 + Sm2.c1Len pc ≤ m.length) (m' : Mem) (r : Outcome (Option Nat))
    (hc : m' = (SignMem.sm9Sign C sk sig msg n pc rnds ⟨m, w⟩).1.m ∧ r = (SignMem.sm9Sign C sk sig msg n pc rnds ⟨m, w⟩).2) :
    (r = .throw ↔ rnds ≠ [] ∧ ¬ 8 * (n + 389) < 2 ^ 64) ∧ r ≠ .ub ∧ m'.length = m.length ∧
    (∀ k, k < sig ∨ sig + 32 + Sm2.c1Len pc ≤ k → m'[k]? = m[k]?) ∧ ((∀ k, r ≠ .ok (some k)) → m' = m) ∧
    (∀ k, r = .ok (some k) → k = 32 + Sm2.c1Len pc ∧ Sm9.sign C sk (rdm m msg n) rnds pc = .ok (some (rdm m' sig k))) := by
  obtain ⟨h1, h2, h3, h4⟩ := C103_sm9_sign hC key hl mk hmk ident hid sk hsk pc m w sig msg n rnds hr hw ho m' r hc
  have ht : (8 * (n + 389) < 2 ^ 64 → ∃ o, Sm9.sign C sk (rdm m msg n) rnds pc = .ok o) ∧
      (¬ 8 * (n + 389) < 2 ^ 64 → rnds ≠ [] → Sm9.sign C sk (rdm m msg n) rnds pc = .throw) := by
    have := SignMem.issued_total hC hl hmk hsk (rdm m msg n) pc rnds hr
    rw [rdm_len hm] at this
    exact this
  have hnil : rnds = [] → Sm9.sign C sk (rdm m msg n) rnds pc = .ok none := fun h => by rw [h]; rfl
  revert h1 h2 h3 h4 ht hnil
  generalize Sm9.sign C sk (rdm m msg n) rnds pc = o
  intro h1 h2 h3 h4 ht hnil
  have short : ∀ {x}, o = .ok x → ¬ (rnds ≠ [] ∧ ¬ 8 * (n + 389) < 2 ^ 64) := fun e h => by
    rw [ht.2 h.2 h.1] at e; cases e
  cases o with
  | throw =>
    obtain ⟨rfl, rfl⟩ := h3 rfl
    refine ⟨⟨fun _ => ⟨fun h => ?_, fun h => ?_⟩, fun _ => rfl⟩, nofun, rfl, fun _ _ => rfl, fun _ => rfl, nofun⟩
    · exact nomatch hnil h
    · obtain ⟨_, h⟩ := ht.1 h; cases h
  | ub =>
    exfalso
    by_cases h : 8 * (n + 389) < 2 ^ 64
    · obtain ⟨_, h⟩ := ht.1 h; cases h
    · by_cases h0 : rnds = []
      · exact nomatch hnil h0
      · exact nomatch ht.2 h h0
  | ok x =>
    cases x with
    | none =>
      obtain ⟨rfl, rfl⟩ := h2 rfl
      exact ⟨⟨nofun, fun h => absurd h (short rfl)⟩, nofun, rfl, fun _ _ => rfl, fun _ => rfl, nofun⟩
    | some b =>
      obtain ⟨hb, rfl, rfl⟩ := h1 b rfl
      refine ⟨⟨nofun, fun h => absurd h (short rfl)⟩, nofun, wrm_len (by omega), fun k hk => ?_, fun h => absurd rfl (h _),
        fun k e => ?_⟩
      · rw [wrm_get (by omega), hb]
        split_ifs
        · rfl
        · omega
        · rfl
      · obtain rfl := Option.some.inj (Outcome.ok.inj e)
        exact ⟨hb, by rw [SignMem.rdm_wrm_same' rfl (by omega)]⟩

/-- **C103** SM9 `verify` with a public key of reduced components, such as the library makes (`C68_keys_ok`): its answer is
that of the function on values, whatever its array held before and whatever overlaps, and it writes nothing of the
caller's. -/
theorem C103_sm9_verify (hC : IsHash C H) (pub : Sm9.MPub) (qx : All2 (Reduced sm9p) pub.P.x)
    (qy : All2 (Reduced sm9p) pub.P.y) (he : All12 (Reduced sm9p) pub.e) (m w : Mem) (sig sl msg n id l : Nat) (hid : Byte)
    (hw : w.length = 384) (hs : sig + sl ≤ m.length) :
    (SignMem.sm9Verify C pub sig sl msg n id l hid ⟨m, w⟩).1.m = m ∧
    Noexcept.of (SignMem.sm9Verify C pub sig sl msg n id l hid ⟨m, w⟩).2 =
      Sm9.verify C pub (rdm m sig sl) (rdm m msg n) (rdm m id l) hid := by
  obtain ⟨K, _, _, w0, hw0⟩ := sm9_field_exists
  classical
  obtain ⟨w', e⟩ := SignMem.sm9Verify_eq hw0 hC qx qy he (sig := sig) (sl := sl) (msg := msg) (n := n) (id := id) (l := l)
    (hid := hid) (s := ⟨m, w⟩) hw hs
  rw [e]
  exact ⟨rfl, rfl⟩

/-- **C103** issuing a signing key, hash and scalar in one array: the key is that of the function on values, and nothing
of the caller's is written. -/
theorem C103_sm9_issue (hC : IsHash C H) (mk : Sm9.MPriv) (hl : mk.ks.length = 32) (m w : Mem) (id l : Nat) (hid : Byte)
    (hw : w.length = 32) :
    (SignMem.sm9GenSignPriv C mk id l hid ⟨m, w⟩).1.m = m ∧
    (SignMem.sm9GenSignPriv C mk id l hid ⟨m, w⟩).2 = Sm9.genSignPriv C mk (rdm m id l) hid := by
  obtain ⟨w', e⟩ := SignMem.sm9Gen_eq hC (mk := mk) (id := id) (l := l) (hid := hid) (s := ⟨m, w⟩) hl hw
  rw [e]
  exact ⟨rfl, rfl⟩

/-- **C103** with a master key that the library makes: issuing throws exactly when the identity is too long for the hash or
`H1(ID ‖ hid) + ks = N`, and has no undefined behaviour. -/
theorem C103_sm9_issue_throws (hC : IsHash C H) (key : List Byte) (hl : key.length = 32) (mk : Sm9.MPriv)
    (hmk : Sm9.setPriv key = .ok mk) (m w : Mem) (id l : Nat) (hid : Byte) (hw : w.length = 32) (hi : id + l ≤ m.length) :
    ((SignMem.sm9GenSignPriv C mk id l hid ⟨m, w⟩).2 = .throw ↔
      ¬ (8 * (l + 6) < 2 ^ 64 ∧ sm9H H C.DS 1 (rdm m id l ++ [hid]) + beVal key ≠ sm9n)) ∧
    (SignMem.sm9GenSignPriv C mk id l hid ⟨m, w⟩).2 ≠ .ub := by
  obtain ⟨k, h⟩ := SignMem.issue_total hC hl hmk (rdm m id l) hid
  rw [rdm_len hi] at h
  rw [(C103_sm9_issue hC mk (by rw [k, hl]) m w id l hid hw).2]
  rcases h with ⟨h1, h2⟩ | ⟨h1, D, h2⟩
  · rw [h2]; exact ⟨⟨fun _ => h1, fun _ => rfl⟩, nofun⟩
  · rw [h2]; exact ⟨⟨nofun, fun h => absurd h1 h⟩, nofun⟩

/-- The hypotheses are met, and the branch that stores is taken: "Alice" under the master key 1 signs "Chinese IBS
standard" in place: the message lies at 20, inside the 65 octets of the signature at 10.  The signature stored is that of
the message, and `verify` on the memory, with a copy of the message and the identity behind, returns true. -/
example (m w w' : Mem) (hm : m.length = 120) (hx : rdm m 20 alMsg.length = alMsg) (hy : rdm m 75 alMsg.length = alMsg)
    (hi : rdm m 100 alId.length = alId) (hw : w.length = 384) (hw' : w'.length = 384) :
    ∃ mk sk b, Sm9.setPriv (toBE 32 1) = .ok mk ∧ Sm9.genSignPriv Sm3.cls mk alId 1 = .ok sk ∧ b.length = 65 ∧
      (SignMem.sm9Sign Sm3.cls sk 10 20 alMsg.length .compressed [toBE 32 0] ⟨m, w⟩).1.m = wrm m 10 b ∧
      (SignMem.sm9Sign Sm3.cls sk 10 20 alMsg.length .compressed [toBE 32 0] ⟨m, w⟩).2 = .ok (some 65) ∧
      Noexcept.of (SignMem.sm9Verify Sm3.cls mk.pub 10 65 75 alMsg.length 100 alId.length 1 ⟨wrm m 10 b, w'⟩).2 =
        .returns true := by
  obtain ⟨K, _, _, w0, hw0⟩ := sm9_field_exists
  classical
  obtain ⟨mk, sk, sig, m1, m2, m3, m4, m5, -, A, a1, a2, a3⟩ := al_sign hw0
  have hr : ∀ r ∈ [toBE 32 0], r.length = 32 := fun r h => by rw [List.mem_singleton.mp h, toBE_len]
  have hv : beVal (toBE 32 1) = 1 := by decide +kernel
  have la : alMsg.length = 20 := by decide
  have li : alId.length = 5 := by decide
  obtain ⟨h1, -⟩ := C103_sm9_sign sm3_isHash (toBE 32 1) (toBE_len _ _) mk m1 alId 1 sk m2 .compressed m w 10 20 alMsg.length
    [toBE 32 0] hr hw (by rw [hm]; decide) _ _ ⟨rfl, rfl⟩
  rw [hx] at h1
  obtain ⟨lb, e1, e2⟩ := h1 sig m3
  have lb' : sig.length = 65 := lb
  obtain ⟨k1, k2, k3⟩ := C68_keys_ok.1 _ _ (toBE_len _ _) m1
  have hl : (wrm m 10 sig).length = 120 := SignMem.wrm_len' hm lb' (by omega)
  obtain ⟨-, v⟩ := C103_sm9_verify sm3_isHash mk.pub k1 k2 k3 (wrm m 10 sig) w' 10 65 75 alMsg.length 100 alId.length 1 hw'
    (by omega)
  refine ⟨mk, sk, sig, m1, m2, lb', e1, by rw [e2, lb'], ?_⟩
  rw [v, SignMem.rdm_wrm_same' lb' (by omega), rdm_wrm_disj (by omega) (Or.inr (by omega)),
    rdm_wrm_disj (by omega) (Or.inr (by omega)), hy, hi]
  refine C56_sign_verify_partial hw0 sm3_isHash (toBE 32 1) (toBE_len _ _) mk m1 alId 1 sk m2 alMsg
    [toBE 32 0] hr .compressed sig m3 ?_ ?_ ?_ ?_ ?_ m5 (fun A' B h hB => ?_)
  · rw [hv]; decide +kernel
  · rw [al_H1]; decide +kernel
  · rw [al_H1, hv]; exact (by decide +kernel : alH1 ≠ 1)
  · rw [al_H1, hv]; exact (by decide +kernel : (3 * 1 + 2 * alH1) % sm9n ≠ 0)
  · rw [m4]; decide +kernel
  · have e : ∀ n, n = alH1 + 1 → Sm9IsAffine2 w0 B (n • sm9G2 hw0) → PairRight w0 A B := fun n hn h => by
      subst hn; exact al_right hw0 a2 h
    rw [a3 _ _ h]
    exact e _ (by rw [hv, al_H1]) hB

/-- Such a memory. -/
example : ∃ m : Mem, m.length = 120 ∧ rdm m 20 alMsg.length = alMsg ∧ rdm m 75 alMsg.length = alMsg ∧
    rdm m 100 alId.length = alId :=
  ⟨List.replicate 20 0 ++ alMsg ++ List.replicate 35 0 ++ alMsg ++ List.replicate 5 0 ++ alId ++ List.replicate 15 0,
    by decide, by decide, by decide, by decide⟩

/-- The hypotheses of `C103_sm9_issue` are met: the master key 1. -/
example : ∃ mk, Sm9.setPriv (toBE 32 1) = .ok mk ∧ mk.ks.length = 32 := by
  obtain ⟨K, _, _, w0, hw0⟩ := sm9_field_exists
  classical
  obtain ⟨P, e, m1, -⟩ := setPriv_ok hw0 (key := toBE 32 1) (toBE_len _ _) (by decide +kernel) (by decide +kernel)
    (by decide +kernel)
  exact ⟨_, m1, toBE_len _ _⟩

end
end Verif.Props
