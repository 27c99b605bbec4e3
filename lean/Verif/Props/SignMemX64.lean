import Verif.Proofs.SignMemX64
import Verif.Proofs.Sm9Total
import Verif.Props.SignMem
import Verif.Props.Sm2X64
import Verif.Props.Sm9X64
/-!
# C103: signing and verifying on the caller's buffers in the build with 64-bit limbs

As Props/SignMem.
-/
set_option linter.unusedSectionVars false
namespace Verif.X64.Props
open Verif.Spec WeierstrassCurve WeierstrassCurve.Affine

section
variable {S : Type} {C : HashClass S} {H : List Byte → List Byte}

/-! ## SM2 -/

/-- **C103** SM2 `sign`, however message, identity and signature overlap: the signature left is the one of message and
identity as they were before the call; a call that throws, or for which the generator has no more answers, has written
nothing. -/
theorem C103_x64_sm2_sign (hC : IsHash C H) (K : X64.Sm2.Priv) (hp : K.priv.length = 32) (m w : Mem) (sig msg n id l : Nat)
    (rnds : List (List Byte)) (hr : ∀ r ∈ rnds, r.length = 32) (hw : w.length = C.DS + 32) (ho : sig + 64 ≤ m.length)
    (m' : Mem) (r : Outcome Bool)
    (hc : m' = (X64.SignMem.sm2Sign C K sig msg n id l rnds ⟨m, w⟩).1.m ∧
      r = (X64.SignMem.sm2Sign C K sig msg n id l rnds ⟨m, w⟩).2) :
    (∀ b, X64.Sm2.sign C K (rdm m msg n) rnds (rdm m id l) = .ok (some b) → b.length = 64 ∧ m' = wrm m sig b ∧ r = .ok true) ∧
    (X64.Sm2.sign C K (rdm m msg n) rnds (rdm m id l) = .ok none → m' = m ∧ r = .ok false) ∧
    (X64.Sm2.sign C K (rdm m msg n) rnds (rdm m id l) = .throw → m' = m ∧ r = .throw) ∧
    (X64.Sm2.sign C K (rdm m msg n) rnds (rdm m id l) = .ub → m' = m ∧ r = .ub) := by
  obtain ⟨rfl, rfl⟩ := hc
  have h := X64.SignMem.sm2Sign_ends hC (K := K) hp (sig := sig) (msg := msg) (n := n) (id := id) (l := l) hr
    (s := ⟨m, w⟩) hw ho
  dsimp only at h
  revert h
  generalize X64.Sm2.sign C K (rdm m msg n) rnds (rdm m id l) = o
  generalize X64.SignMem.sm2Sign C K sig msg n id l rnds ⟨m, w⟩ = x
  intro h
  cases h with
  | some b _ hb => exact ⟨fun b' e => by cases e; exact ⟨hb, rfl, rfl⟩, nofun, nofun, nofun⟩
  | none => exact ⟨nofun, fun _ => ⟨rfl, rfl⟩, nofun, nofun⟩
  | throw => exact ⟨nofun, nofun, fun _ => ⟨rfl, rfl⟩, nofun⟩
  | ub => exact ⟨nofun, nofun, nofun, fun _ => ⟨rfl, rfl⟩⟩

/-- **C103** with a key that `set_pri` accepts, for all overlaps: the call throws exactly when the identity has more than
8191 octets or the message is too long for the hash, and has no undefined behaviour; in every case the octets outside the
64 of the signature are as before, and all of them unless the call returns; when it returns, the 64 octets at `sig` verify
against message and identity as they were before the call. -/
theorem C103_x64_sm2_sign_verify (hC : IsHash C H) (d : List Byte) (hd : d.length = 32) (K : X64.Sm2.Priv)
    (hK : X64.Sm2.setPriv d = .ok K) (m w : Mem) (sig msg n id l : Nat) (rnds : List (List Byte))
    (hr : ∀ r ∈ rnds, r.length = 32) (hw : w.length = C.DS + 32) (hm : msg + n ≤ m.length) (hi : id + l ≤ m.length)
    (ho : sig + 64 ≤ m.length) (m' : Mem) (r : Outcome Bool)
    (hc : m' = (X64.SignMem.sm2Sign C K sig msg n id l rnds ⟨m, w⟩).1.m ∧
      r = (X64.SignMem.sm2Sign C K sig msg n id l rnds ⟨m, w⟩).2) :
    (r = .throw ↔ ¬ (8 * l ≤ 65535 ∧ 8 * (C.DS + n) < 2 ^ 64)) ∧ r ≠ .ub ∧
    m'.length = m.length ∧ (∀ k, k < sig ∨ sig + 64 ≤ k → m'[k]? = m[k]?) ∧ (r ≠ .ok true → m' = m) ∧
    (r = .ok true → X64.Sm2.verify C K.pub (rdm m' sig 64) (rdm m msg n) (rdm m id l) = .returns true) := by
  have hs := setPriv_sim hd
  rw [hK] at hs
  obtain ⟨P, hP, hs⟩ := relOut_ok hs
  obtain ⟨p1, p2⟩ := Verif.Props.C58_set_priv d hd
  have hv : 1 ≤ beVal d ∧ beVal d ≤ sm2n - 2 := by
    by_contra hv
    rw [p2 hv] at hP
    cases hP
  obtain ⟨P', e1, -, e3⟩ := p1 hv
  rw [hP] at e1
  cases e1
  obtain ⟨h1, h2, h3, h4⟩ := C103_x64_sm2_sign hC K (by rw [← hs.priv]; exact hs.len) m w sig msg n id l rnds hr hw ho m' r hc
  have hver := C79_x64_sign_verify hC d hd K hK (rdm m msg n) (rdm m id l) rnds hr
  rw [← sign_sim C hs (rdm m msg n) hr (rdm m id l)] at h1 h2 h3 h4 hver
  obtain ⟨g1, -⟩ := Verif.Props.C44_sign hC P _ e3 hv.2 (rdm m msg n) (rdm m id l) rnds hr
  rw [rdm_len hm, rdm_len hi] at g1
  have ht := fun hl : 8 * l ≤ 65535 ∧ 8 * (C.DS + n) < 2 ^ 64 =>
    Verif.SignMem.sign_isOk hC hs.len e3.2.2.2.1 e3.2.2.2.2.1 (msg := rdm m msg n) (id := rdm m id l) hr
      (by rw [rdm_len hi]; exact hl.1) (by rw [rdm_len hm]; exact hl.2)
  cases e : Verif.Sm2.sign C P (rdm m msg n) rnds (rdm m id l) with
  | throw =>
    obtain ⟨rfl, rfl⟩ := h3 e
    refine ⟨⟨fun _ hl => ?_, fun _ => rfl⟩, nofun, rfl, fun _ _ => rfl, fun _ => rfl, nofun⟩
    obtain ⟨o, ho⟩ := ht hl
    rw [ho] at e
    cases e
  | ub =>
    by_cases hl : 8 * l ≤ 65535 ∧ 8 * (C.DS + n) < 2 ^ 64
    · obtain ⟨o, ho⟩ := ht hl
      rw [ho] at e
      cases e
    · rw [g1 hl] at e; cases e
  | ok o =>
    have nl : ¬ ¬ (8 * l ≤ 65535 ∧ 8 * (C.DS + n) < 2 ^ 64) := fun hl => by rw [g1 hl] at e; cases e
    cases o with
    | none =>
      obtain ⟨rfl, rfl⟩ := h2 e
      exact ⟨⟨nofun, fun hl => absurd hl nl⟩, nofun, rfl, fun _ _ => rfl, fun _ => rfl, nofun⟩
    | some b =>
      obtain ⟨hb, rfl, rfl⟩ := h1 b e
      refine ⟨⟨nofun, fun hl => absurd hl nl⟩, nofun, wrm_len (by rw [hb]; exact ho), fun k hk => ?_, fun h => absurd rfl h,
        fun _ => ?_⟩
      · rw [wrm_get (by rw [hb]; exact ho), hb]
        split_ifs
        · rfl
        · omega
        · rfl
      · rw [Verif.SignMem.rdm_wrm_same' hb ho]
        exact hver b e

/-- The hypotheses are met, with everything overlapping: SM3, key 1, a memory of 100 octets, the message at 0 of 80
octets, the identity at 40 of 20 octets, the signature at 30. -/
example (m w : Mem) (hm : m.length = 100) (hw : w.length = 64) : ∃ K, X64.Sm2.setPriv (toBE 32 1) = .ok K ∧
    (X64.SignMem.sm2Sign Sm3.cls K 30 0 80 40 20 [toBE 32 0] ⟨m, w⟩).2 ≠ .throw ∧
    ((X64.SignMem.sm2Sign Sm3.cls K 30 0 80 40 20 [toBE 32 0] ⟨m, w⟩).2 = .ok true →
      X64.Sm2.verify Sm3.cls K.pub (rdm (X64.SignMem.sm2Sign Sm3.cls K 30 0 80 40 20 [toBE 32 0] ⟨m, w⟩).1.m 30 64)
        (rdm m 0 80) (rdm m 40 20) = .returns true) := by
  have hs := setPriv_sim (d := toBE 32 1) (by decide)
  obtain ⟨P, k1, -⟩ := (Verif.Props.C58_set_priv (toBE 32 1) (by decide)).1 (by decide +kernel)
  rw [k1] at hs
  obtain ⟨K, hK, -⟩ := relOut_ok' hs
  have h := C103_x64_sm2_sign_verify sm3_isHash (toBE 32 1) (toBE_len _ _) K hK m w 30 0 80 40 20 [toBE 32 0]
    (fun r h => by rw [List.mem_singleton.mp h, toBE_len]) hw (by omega) (by omega) (by omega) _ _ ⟨rfl, rfl⟩
  exact ⟨K, hK, fun e => h.1.mp e (by decide), h.2.2.2.2.2⟩

/-! ## SM9 -/

/-- **C103** SM9 `sign` with a key made by the library, however message and signature overlap: hash, exponent, element of
the extension field and scalar in one array do not disturb each other, the signature left is the one of the message as it
was before the call and the length stored is its length; a call that throws, or for which the generator has no more
answers, has written nothing. -/
theorem C103_x64_sm9_sign (hC : IsHash C H) (key : List Byte) (hl : key.length = 32) (mk : X64.Sm9.MPriv)
    (hmk : X64.Sm9.setPriv key = .ok mk) (ident : List Byte) (hid : Byte) (sk : X64.Sm9.SPriv)
    (hsk : X64.Sm9.genSignPriv C mk ident hid = .ok sk) (pc : Verif.Sm2.PC) (m w : Mem) (sig msg n : Nat)
    (rnds : List (List Byte)) (hr : ∀ r ∈ rnds, r.length = 32) (hw : w.length = 384)
    (ho : sig + 32 + Verif.Sm2.c1Len pc ≤ m.length) (m' : Mem) (r : Outcome (Option Nat))
    (hc : m' = (X64.SignMem.sm9Sign C sk sig msg n pc rnds ⟨m, w⟩).1.m ∧ r = (X64.SignMem.sm9Sign C sk sig msg n pc rnds ⟨m, w⟩).2) :
    (∀ b, X64.Sm9.sign C sk (rdm m msg n) rnds pc = .ok (some b) →
      b.length = 32 + Verif.Sm2.c1Len pc ∧ m' = wrm m sig b ∧ r = .ok (some b.length)) ∧
    (X64.Sm9.sign C sk (rdm m msg n) rnds pc = .ok none → m' = m ∧ r = .ok none) ∧
    (X64.Sm9.sign C sk (rdm m msg n) rnds pc = .throw → m' = m ∧ r = .throw) ∧
    (X64.Sm9.sign C sk (rdm m msg n) rnds pc = .ub → m' = m ∧ r = .ub) := by
  obtain ⟨rfl, rfl⟩ := hc
  obtain ⟨K, _, _, w0, hw0⟩ := sm9_field_exists
  classical
  have hk := X64.SignMem.issued_ok hw0 hC hl hmk hsk
  have h := X64.SignMem.sm9Sign_ends hw0 hC hk (sig := sig) (msg := msg) (n := n) pc rnds hr ⟨m, w⟩ hw ho
  dsimp only at h
  revert h
  generalize X64.Sm9.sign C sk (rdm m msg n) rnds pc = o
  generalize X64.SignMem.sm9Sign C sk sig msg n pc rnds ⟨m, w⟩ = x
  intro h
  cases h with
  | some b _ hb => exact ⟨fun b' e => by cases e; exact ⟨hb, rfl, rfl⟩, nofun, nofun, nofun⟩
  | none => exact ⟨nofun, fun _ => ⟨rfl, rfl⟩, nofun, nofun⟩
  | throw => exact ⟨nofun, nofun, fun _ => ⟨rfl, rfl⟩, nofun⟩
  | ub => exact ⟨nofun, nofun, nofun, fun _ => ⟨rfl, rfl⟩⟩

/-- **C103** with a key made by the library, for all overlaps: the call throws exactly when the message is too long for the
hash, and has no undefined behaviour, also with the key (0, 0) of `C81_x64_key_violated`; in every case the octets outside the
signature are as before, and all of them unless the call returns; when it returns, the length stored is that of the form
asked for, and that many octets at `sig` are a signature of the message as it was before the call. -/
theorem C103_x64_sm9_sign_frame (hC : IsHash C H) (key : List Byte) (hl : key.length = 32) (mk : X64.Sm9.MPriv)
    (hmk : X64.Sm9.setPriv key = .ok mk) (ident : List Byte) (hid : Byte) (sk : X64.Sm9.SPriv)
    (hsk : X64.Sm9.genSignPriv C mk ident hid = .ok sk) (pc : Verif.Sm2.PC) (m w : Mem) (sig msg n : Nat)
    (rnds : List (List Byte)) (hr : ∀ r ∈ rnds, r.length = 32) (hw : w.length = 384) (hm : msg + n ≤ m.length)
    (ho : sig + 32 + Verif.Sm2.c1Len pc ≤ m.length) (m' : Mem) (r : Outcome (Option Nat))
    (hc : m' = (X64.SignMem.sm9Sign C sk sig msg n pc rnds ⟨m, w⟩).1.m ∧ r = (X64.SignMem.sm9Sign C sk sig msg n pc rnds ⟨m, w⟩).2) :
    (r = .throw ↔ rnds ≠ [] ∧ ¬ 8 * (n + 389) < 2 ^ 64) ∧ r ≠ .ub ∧ m'.length = m.length ∧
    (∀ k, k < sig ∨ sig + 32 + Verif.Sm2.c1Len pc ≤ k → m'[k]? = m[k]?) ∧ ((∀ k, r ≠ .ok (some k)) → m' = m) ∧
    (∀ k, r = .ok (some k) → k = 32 + Verif.Sm2.c1Len pc ∧ X64.Sm9.sign C sk (rdm m msg n) rnds pc = .ok (some (rdm m' sig k))) := by
  obtain ⟨h1, h2, h3, h4⟩ := C103_x64_sm9_sign hC key hl mk hmk ident hid sk hsk pc m w sig msg n rnds hr hw ho m' r hc
  have ht : (8 * (n + 389) < 2 ^ 64 → ∃ o, X64.Sm9.sign C sk (rdm m msg n) rnds pc = .ok o) ∧
      (¬ 8 * (n + 389) < 2 ^ 64 → rnds ≠ [] → X64.Sm9.sign C sk (rdm m msg n) rnds pc = .throw) := by
    have := X64.SignMem.issued_total hC hl hmk hsk (rdm m msg n) pc rnds hr
    rw [rdm_len hm] at this
    exact this
  have hnil : rnds = [] → X64.Sm9.sign C sk (rdm m msg n) rnds pc = .ok none := fun h => by rw [h]; rfl
  revert h1 h2 h3 h4 ht hnil
  generalize X64.Sm9.sign C sk (rdm m msg n) rnds pc = o
  intro h1 h2 h3 h4 ht hnil
  have short : ∀ {x}, o = .ok x → ¬ (rnds ≠ [] ∧ ¬ 8 * (n + 389) < 2 ^ 64) := fun e h => by
    rw [ht.2 h.2 h.1] at e; cases e
  cases o with
  | throw =>
    obtain ⟨rfl, rfl⟩ := h3 rfl
    refine ⟨⟨fun _ => ⟨fun h => ?_, fun h => ?_⟩, fun _ => rfl⟩, nofun, rfl, fun _ _ => rfl, fun _ => rfl, nofun⟩
    · exact nomatch hnil h
    · obtain ⟨_, h⟩ := ht.1 h; cases h
  | ub =>
    exfalso
    by_cases h : 8 * (n + 389) < 2 ^ 64
    · obtain ⟨_, h⟩ := ht.1 h; cases h
    · by_cases h0 : rnds = []
      · exact nomatch hnil h0
      · exact nomatch ht.2 h h0
  | ok x =>
    cases x with
    | none =>
      obtain ⟨rfl, rfl⟩ := h2 rfl
      exact ⟨⟨nofun, fun h => absurd h (short rfl)⟩, nofun, rfl, fun _ _ => rfl, fun _ => rfl, nofun⟩
    | some b =>
      obtain ⟨hb, rfl, rfl⟩ := h1 b rfl
      refine ⟨⟨nofun, fun h => absurd h (short rfl)⟩, nofun, wrm_len (by omega), fun k hk => ?_, fun h => absurd rfl (h _),
        fun k e => ?_⟩
      · rw [wrm_get (by omega), hb]
        split_ifs
        · rfl
        · omega
        · rfl
      · obtain rfl := Option.some.inj (Outcome.ok.inj e)
        exact ⟨hb, by rw [Verif.SignMem.rdm_wrm_same' rfl (by omega)]⟩

/-- **C103** SM9 `verify` with a public key of reduced components, such as the library makes (`C81_x64_keys_ok`): its answer is
that of the function on values, whatever its array held before and whatever overlaps, and it writes nothing of the
caller's. -/
theorem C103_x64_sm9_verify (hC : IsHash C H) (pub : X64.Sm9.MPub) (qx : All2 (X64.Reduced sm9p) pub.P.x)
    (qy : All2 (X64.Reduced sm9p) pub.P.y) (he : All12 (X64.Reduced sm9p) pub.e) (m w : Mem) (sig sl msg n id l : Nat) (hid : Byte)
    (hw : w.length = 384) (hs : sig + sl ≤ m.length) :
    (X64.SignMem.sm9Verify C pub sig sl msg n id l hid ⟨m, w⟩).1.m = m ∧
    Noexcept.of (X64.SignMem.sm9Verify C pub sig sl msg n id l hid ⟨m, w⟩).2 =
      X64.Sm9.verify C pub (rdm m sig sl) (rdm m msg n) (rdm m id l) hid := by
  obtain ⟨K, _, _, w0, hw0⟩ := sm9_field_exists
  classical
  obtain ⟨w', e⟩ := X64.SignMem.sm9Verify_eq hw0 hC qx qy he (sig := sig) (sl := sl) (msg := msg) (n := n) (id := id) (l := l)
    (hid := hid) (s := ⟨m, w⟩) hw hs
  rw [e]
  exact ⟨rfl, rfl⟩

/-- **C103** issuing a signing key, hash and scalar in one array: the key is that of the function on values, and nothing
of the caller's is written. -/
theorem C103_x64_sm9_issue (hC : IsHash C H) (mk : X64.Sm9.MPriv) (hl : mk.ks.length = 32) (m w : Mem) (id l : Nat) (hid : Byte)
    (hw : w.length = 32) :
    (X64.SignMem.sm9GenSignPriv C mk id l hid ⟨m, w⟩).1.m = m ∧
    (X64.SignMem.sm9GenSignPriv C mk id l hid ⟨m, w⟩).2 = X64.Sm9.genSignPriv C mk (rdm m id l) hid := by
  obtain ⟨w', e⟩ := X64.SignMem.sm9Gen_eq hC (mk := mk) (id := id) (l := l) (hid := hid) (s := ⟨m, w⟩) hl hw
  rw [e]
  exact ⟨rfl, rfl⟩

/-- **C103** with a master key that the library makes: issuing throws exactly when the identity is too long for the hash or
`H1(ID ‖ hid) + ks = N`, and has no undefined behaviour. -/
theorem C103_x64_sm9_issue_throws (hC : IsHash C H) (key : List Byte) (hl : key.length = 32) (mk : X64.Sm9.MPriv)
    (hmk : X64.Sm9.setPriv key = .ok mk) (m w : Mem) (id l : Nat) (hid : Byte) (hw : w.length = 32) (hi : id + l ≤ m.length) :
    ((X64.SignMem.sm9GenSignPriv C mk id l hid ⟨m, w⟩).2 = .throw ↔
      ¬ (8 * (l + 6) < 2 ^ 64 ∧ sm9H H C.DS 1 (rdm m id l ++ [hid]) + beVal key ≠ sm9n)) ∧
    (X64.SignMem.sm9GenSignPriv C mk id l hid ⟨m, w⟩).2 ≠ .ub := by
  obtain ⟨k, h⟩ := X64.SignMem.issue_total hC hl hmk (rdm m id l) hid
  rw [rdm_len hi] at h
  rw [(C103_x64_sm9_issue hC mk (by rw [k, hl]) m w id l hid hw).2]
  rcases h with ⟨h1, h2⟩ | ⟨h1, D, h2⟩
  · rw [h2]; exact ⟨⟨fun _ => h1, fun _ => rfl⟩, nofun⟩
  · rw [h2]; exact ⟨⟨nofun, fun h => absurd h1 h⟩, nofun⟩

/-- The hypotheses are met, and the branch that stores is taken: "Alice" under the master key 1 signs "Chinese IBS
standard" in place: the message lies at 20, inside the 65 octets of the signature at 10.  The signature stored is that of
the message, and `verify` on the memory, with a copy of the message and the identity behind, returns true.  (Such a
memory: Props/SignMem.) -/
example (m w w' : Mem) (hm : m.length = 120) (hx : rdm m 20 alMsg.length = alMsg) (hy : rdm m 75 alMsg.length = alMsg)
    (hi : rdm m 100 alId.length = alId) (hw : w.length = 384) (hw' : w'.length = 384) :
    ∃ mk sk b, X64.Sm9.setPriv (toBE 32 1) = .ok mk ∧ mk.ks.length = 32 ∧ X64.Sm9.genSignPriv Sm3.cls mk alId 1 = .ok sk ∧
      b.length = 65 ∧
      (X64.SignMem.sm9Sign Sm3.cls sk 10 20 alMsg.length .compressed [toBE 32 0] ⟨m, w⟩).1.m = wrm m 10 b ∧
      (X64.SignMem.sm9Sign Sm3.cls sk 10 20 alMsg.length .compressed [toBE 32 0] ⟨m, w⟩).2 = .ok (some 65) ∧
      Noexcept.of (X64.SignMem.sm9Verify Sm3.cls mk.pub 10 65 75 alMsg.length 100 alId.length 1 ⟨wrm m 10 b, w'⟩).2 =
        .returns true := by
  obtain ⟨K, _, _, w0, hw0⟩ := sm9_field_exists
  classical
  obtain ⟨mk0, sk0, sig, m1, m2, m3, m4, m5, -⟩ := al_sign hw0
  have hv : beVal (toBE 32 1) = 1 := by decide +kernel
  have hr : ∀ r ∈ [toBE 32 0], r.length = 32 := fun r hr => by rw [List.mem_singleton.mp hr, toBE_len]
  have h0 := s9setPriv_sim hw0 (key := toBE 32 1) (toBE_len _ _)
  rw [m1] at h0
  obtain ⟨mk, n1, h1, h2, h3, -, h4, h5, -⟩ := relOut_ok' h0
  have sg := genSignPriv_sim sm3_isHash (h1.trans h2.symm) (by rw [h1]; exact toBE_len _ _)
    (s9pub_right hw0 h3 h4 h5 m5) alId 1
  rw [m2] at sg
  obtain ⟨sk, g1, g2⟩ := relOut_ok' sg
  have hs := m3
  rw [s9sign_sim sm3_isHash g2.priv g2.pub.e alMsg .compressed hr] at hs
  have la : alMsg.length = 20 := by decide
  have li : alId.length = 5 := by decide
  obtain ⟨c1, -⟩ := C103_x64_sm9_sign sm3_isHash (toBE 32 1) (toBE_len _ _) mk n1 alId 1 sk g1 .compressed m w 10 20
    alMsg.length [toBE 32 0] hr hw (by rw [hm]; decide) _ _ ⟨rfl, rfl⟩
  rw [hx] at c1
  obtain ⟨lb, e1, e2⟩ := c1 sig hs
  have lb' : sig.length = 65 := lb
  obtain ⟨k1, k2, k3⟩ := C81_x64_keys_ok.1 _ _ (toBE_len _ _) n1
  have hl : (wrm m 10 sig).length = 120 := Verif.SignMem.wrm_len' hm lb' (by omega)
  obtain ⟨-, v⟩ := C103_x64_sm9_verify sm3_isHash mk.pub k1 k2 k3 (wrm m 10 sig) w' 10 65 75 alMsg.length 100 alId.length 1
    hw' (by omega)
  refine ⟨mk, sk, sig, n1, by rw [h2, toBE_len], g1, lb', e1, by rw [e2, lb'], ?_⟩
  rw [v, Verif.SignMem.rdm_wrm_same' lb' (by omega), rdm_wrm_disj (by omega) (Or.inr (by omega)),
    rdm_wrm_disj (by omega) (Or.inr (by omega)), hy, hi]
  refine C81_x64_sign_verify_partial sm3_isHash (toBE 32 1) (toBE_len _ _) mk n1 alId 1 sk g1 alMsg _ hr .compressed sig hs
      ?_ ?_ ?_ ?_ ?_
  · rw [hv]; decide +kernel
  · rw [al_H1]; decide +kernel
  · rw [al_H1, hv]; exact (by decide +kernel : alH1 ≠ 1)
  · rw [al_H1, hv]; exact (by decide +kernel : (3 * 1 + 2 * alH1) % sm9n ≠ 0)
  · rw [m4]; decide +kernel

end
end Verif.X64.Props
