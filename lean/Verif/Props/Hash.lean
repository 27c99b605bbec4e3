import Verif.Proofs.Sm3b
/-!
# Properties C01-C05, C07: SM3, its streaming interface, HMAC

Specifications: `Verif.Spec.SM3.hash` (GB/T 32905) and `Verif.Spec.hmac` (RFC 2104), Spec/Sm3.lean.
-/
namespace Verif.Props
open Verif Verif.Sm3

/-- A history: the `update` calls in order, then `do_final(digest, last)` on the same object. -/
def sm3Stream (chunks : List (List Byte)) (last : List Byte) : Outcome (List Byte) := do
  let h ← chunks.foldlM (fun h c => hashUpdate cls.BS cls.impl h c) cls.fresh
  let r ← hashFinal cls.BS cls.impl h last
  .ok r.2

/-- C01, C02 and C04 at once: whatever the chunking, the digest is the standard's digest of the
concatenation when its bit length fits in 64 bits; otherwise an exception is thrown. -/
theorem C01_sm3_stream (chunks : List (List Byte)) (last : List Byte) :
    sm3Stream chunks last =
      if 8 * (chunks.flatten ++ last).length < 2 ^ 64 then .ok (Spec.SM3.hash (chunks.flatten ++ last))
      else .throw := by
  rw [← final_absorb, ← updates_fresh]; rfl

/-- C01 as stated: streaming equals one `do_final` on the concatenated message (including the failures). -/
theorem C01_chunking_independent (chunks : List (List Byte)) (last : List Byte) :
    sm3Stream chunks last = sm3Stream [] (chunks.flatten ++ last) := by
  rw [C01_sm3_stream, C01_sm3_stream]; rfl

/-- Operations on a live object. -/
inductive HashOp where
  | update (m : List Byte)
  | reset

def runOps : List HashOp → HashObj Ctx → Outcome (HashObj Ctx)
  | [], h => .ok h
  | .update m :: ops, h => do let h ← hashUpdate cls.BS cls.impl h m; runOps ops h
  | .reset :: ops, h => runOps ops (cls.reset h)

/-- The bytes supplied since the last `reset`. -/
def pendingBytes : List HashOp → List Byte → List Byte
  | [], acc => acc
  | .update m :: ops, acc => pendingBytes ops (acc ++ m)
  | .reset :: ops, _ => pendingBytes ops []

/-- C01 for histories that also reset the object: the digest is that of the bytes since the last reset. -/
theorem C01_history_with_reset (ops : List HashOp) (last : List Byte) (h : HashObj Ctx)
    (hrun : runOps ops cls.fresh = .ok h)
    (hlen : 8 * (pendingBytes ops [] ++ last).length < 2 ^ 64) :
    ∃ h', hashFinal cls.BS cls.impl h last = .ok (h', Spec.SM3.hash (pendingBytes ops [] ++ last)) := by
  have gen : ∀ (ops : List HashOp) (m : List Byte) (o : HashObj Ctx),
      absorb 64 (impl compress) init m = .ok o → runOps ops o = .ok h →
      absorb 64 (impl compress) init (pendingBytes ops m) = .ok h := by
    intro ops
    induction ops with
    | nil => intro m o h1 h2; simp only [runOps, Outcome.ok.injEq] at h2; subst h2; exact h1
    | cons op ops ih =>
      intro m o h1 h2
      cases op with
      | update x =>
        have := absorb_append (impl compress) impl_lawful init m x
        rw [h1, Outcome.ok_bind] at this
        simp only [runOps] at h2
        rw [show hashUpdate cls.BS cls.impl o x = absorb 64 (impl compress) init (m ++ x) from this] at h2
        cases hu : absorb 64 (impl compress) init (m ++ x) with
        | ok o' => rw [hu, Outcome.ok_bind] at h2; exact ih _ o' hu h2
        | throw => rw [hu] at h2; cases h2
        | ub => rw [hu] at h2; cases h2
      | reset => exact ih [] (cls.reset o) fresh_absorb.symm h2
  have h1 := gen ops [] cls.fresh fresh_absorb.symm hrun
  have h2 := final_absorb (pendingBytes ops []) last
  rw [h1, Outcome.ok_bind, if_pos hlen] at h2
  exact digest_of h2

example : runOps [.update [1, 2, 3], .reset, .update [0x61, 0x62]] cls.fresh = .ok ⟨[0x61, 0x62], init⟩ := by
  decide +kernel

/-- C02: one-shot digest of every admissible message is the standard's. -/
theorem C02_sm3_spec (m : List Byte) (h : 8 * m.length < 2 ^ 64) :
    sm3Stream [] m = .ok (Spec.SM3.hash m) := by
  rw [C01_sm3_stream]; exact if_pos h

/-- The standard's Appendix A.1 example, computed by the model ("abc" split in two). -/
example : sm3Stream [[0x61]] [0x62, 0x63] = .ok
    [0x66, 0xc7, 0xf0, 0xf4, 0x62, 0xee, 0xed, 0xd9, 0xd1, 0xf2, 0xd4, 0x6b, 0xdc, 0x10, 0xe4, 0xe2,
     0x41, 0x67, 0xc4, 0x87, 0x5c, 0xf2, 0xf7, 0xa2, 0x29, 0x7d, 0xa0, 0x2b, 0x8f, 0x4b, 0xa8, 0xe0] := by
  decide +kernel

/-- … and hence the specification's value on it. -/
example : Spec.SM3.hash [0x61, 0x62, 0x63] =
    [0x66, 0xc7, 0xf0, 0xf4, 0x62, 0xee, 0xed, 0xd9, 0xd1, 0xf2, 0xd4, 0x6b, 0xdc, 0x10, 0xe4, 0xe2,
     0x41, 0x67, 0xc4, 0x87, 0x5c, 0xf2, 0xf7, 0xa2, 0x29, 0x7d, 0xa0, 0x2b, 0x8f, 0x4b, 0xa8, 0xe0] := by
  have h : sm3Stream [] [0x61, 0x62, 0x63] = .ok _ := C02_sm3_spec [0x61, 0x62, 0x63] (by decide)
  have e : sm3Stream [] [0x61, 0x62, 0x63] = .ok
    [0x66, 0xc7, 0xf0, 0xf4, 0x62, 0xee, 0xed, 0xd9, 0xd1, 0xf2, 0xd4, 0x6b, 0xdc, 0x10, 0xe4, 0xe2,
     0x41, 0x67, 0xc4, 0x87, 0x5c, 0xf2, 0xf7, 0xa2, 0x29, 0x7d, 0xa0, 0x2b, 0x8f, 0x4b, 0xa8, 0xe0] := by
    decide +kernel
  rw [e] at h
  exact (Outcome.ok.inj h).symm

/-- The compression function of the default backend is the standard's `CF`. -/
theorem C02_compress (s : Reg) (p : List Byte) (k : Nat) (h : 64 * k + 64 ≤ p.length) :
    toS (compress s (p.drop (64 * k))) =
      Spec.SM3.CF (toS s) (fun j => Spec.SM3.wordAt p (64 * k + 4 * j)) :=
  compress_block s p k h

example : 64 * 1 + 64 ≤ (List.replicate 130 (7 : Byte)).length := by simp

/-- C03, on every platform where `x >> 32` of a 32-bit value yields `x` (count modulo 32) or 0: the two
backends compute the same chaining value for every chaining value, block count and data.  Missing from
the full claim: the reference backend evaluates that shift, which C++ leaves undefined
(`C03_common_undefined`). -/
theorem C03_backends_agree_partial (sh32 : W32 → Outcome W32) (hb : ∀ x, sh32 x = .ok x ∨ sh32 x = .ok 0)
    (n : Nat) (s : Reg) (data : List Byte) :
    Common.compressBlocks sh32 n s data = .ok (compressBlocks compress n s data) :=
  Common.compressBlocks_eq hb n s data

example : ∀ x : W32, (fun x : W32 => Outcome.ok x) x = .ok x ∨ (fun x : W32 => Outcome.ok x) x = .ok 0 :=
  fun _ => .inl rfl

/-- C03, negation: under the C++ rules every call of the reference backend with at least one block
evaluates `x >> 32` on a 32-bit operand (round 0, `rotl(T00, 0)`), i.e. has undefined behaviour. -/
theorem C03_common_undefined (n : Nat) (s : Reg) (data : List Byte) :
    Common.compressBlocks (fun _ => .ub) (n + 1) s data = .ub := rfl

/-- C04 at the block level: `sm3_update_blocks` fails exactly when the running bit count would exceed
`2^64 - 1`; when it succeeds the count is the exact sum (no wrap-around). -/
theorem C04_update_blocks (ctx : Ctx) (data : List Byte) (n : Nat) :
    (updateBlocks compress ctx data n = none ↔ 2 ^ 64 ≤ ctx.dataBits.toNat + 512 * n) ∧
    ∀ c, updateBlocks compress ctx data n = some c → c.dataBits.toNat = ctx.dataBits.toNat + 512 * n := by
  rw [updateBlocks_spec]
  by_cases h : ctx.dataBits.toNat + 512 * n < 2 ^ 64
  · rw [if_pos h]
    refine ⟨⟨fun e => (by cases e), fun e => absurd h (by omega)⟩, ?_⟩
    intro c hc
    rw [← Option.some.inj hc]
    simp only [BitVec.toNat_ofNat]; omega
  · rw [if_neg h]
    exact ⟨⟨fun _ => by omega, fun _ => rfl⟩, fun c hc => by cases hc⟩

/-- C04 at the API: a history of updates and a final call throws iff the total bit count exceeds
`2^64 - 1`; it never has undefined behaviour. -/
theorem C04_throws_iff (chunks : List (List Byte)) (last : List Byte) :
    (sm3Stream chunks last = .throw ↔ 2 ^ 64 ≤ 8 * (chunks.flatten ++ last).length) ∧
    sm3Stream chunks last ≠ .ub := by
  rw [C01_sm3_stream]
  split_ifs with h
  · exact ⟨⟨fun e => (by cases e), fun e => absurd h (by omega)⟩, fun e => by cases e⟩
  · exact ⟨⟨fun _ => by omega, fun _ => rfl⟩, fun e => by cases e⟩

/-- The refusal is reachable: a context whose count is at its maximum refuses one more block. -/
example : updateBlocks compress ⟨init.state, 0xFFFFFFFFFFFFFE00⟩ (List.replicate 64 0) 1 = none := by decide +kernel
example : updateBlocks compress ⟨init.state, 0xFFFFFFFFFFFFFC00⟩ (List.replicate 64 0) 1 ≠ none := by decide +kernel

/-- C05: HMAC-SM3 is RFC 2104's HMAC of the concatenated message for every key length and chunking,
whatever state the object was in before `set_key`. -/
theorem C05_hmac (m : HMac Ctx) (K : List Byte) (chunks : List (List Byte)) (last : List Byte)
    (hK : 8 * K.length < 2 ^ 64) (hM : 8 * (64 + (chunks.flatten ++ last).length) < 2 ^ 64) :
    (do let m ← m.setKey cls K
        let m ← chunks.foldlM (fun (m : HMac Ctx) c => m.update cls c) m
        let r ← m.final cls last
        Outcome.ok r.2) =
      .ok (Spec.hmac Spec.SM3.hash 64 K (chunks.flatten ++ last)) := by
  rw [← hmac_spec m K chunks last hK hM, bind_assoc]

example : (8 * (List.replicate 100 (1 : Byte)).length < 2 ^ 64) ∧
    8 * (64 + ([[1], [2, 3]].flatten ++ [(4 : Byte)]).length) < 2 ^ 64 := by decide

/-! ### C07: the generic buffer -/

/-- The updates of a history on a hash class with block size `BS`. -/
def updates {S} (BS : Nat) (I : HashImpl S) (s : S) (chunks : List (List Byte)) : Outcome (HashObj S) :=
  chunks.foldlM (fun h c => hashUpdate BS I h c) ⟨[], s⟩

theorem memcpyBuf_ok {BS : Nat} {a b : List Byte} (h : a.length + b.length ≤ BS) :
    memcpyBuf BS a b = .ok (a ++ b) := if_pos h

/-- A block function that always succeeds. -/
def unitImpl : HashImpl Unit := ⟨fun _ _ _ => .ok (), fun _ _ => .ok ((), [])⟩

/-- For block size 64, every update history is memory safe, whatever the derived class does. -/
theorem C07_safe_64 {S} (I : HashImpl S) (hI : ∀ s d n, I.updateBlocks s d n ≠ .ub) (s : S)
    (chunks : List (List Byte)) : updates 64 I s chunks ≠ .ub := by
  have step : ∀ (h : HashObj S) (x : List Byte), h.buf.length < 64 →
      hashUpdate 64 I h x ≠ .ub ∧ ∀ h', hashUpdate 64 I h x = .ok h' → h'.buf.length < 64 := by
    intro h x hb
    have habs : ∀ s x, hashAbsorb 64 I s x (x.length / 64) ≠ .ub ∧
        ∀ h', hashAbsorb 64 I s x (x.length / 64) = .ok h' → h'.buf.length < 64 := by
      intro s x
      rw [hashAbsorb_eq (by decide), absorb]
      have hlen : (x.drop (x.length / 64 * 64)).length < 64 := by rw [List.length_drop]; omega
      cases hu : I.updateBlocks s x (x.length / 64) with
      | ok st => exact ⟨fun e => (by cases e), fun h' e => by rw [← Outcome.ok.inj e]; exact hlen⟩
      | throw => exact ⟨fun e => (by cases e), fun h' e => by cases e⟩
      | ub => exact absurd hu (hI _ _ _)
    unfold hashUpdate
    by_cases hx : x.length = 0
    · rw [if_pos hx]; exact ⟨fun e => (by cases e), fun h' e => by rw [← Outcome.ok.inj e]; exact hb⟩
    rw [if_neg hx]
    by_cases hb0 : h.buf.length = 0
    · rw [if_pos hb0]; exact habs _ _
    rw [if_neg hb0]
    dsimp only
    by_cases hs : 64 - h.buf.length > x.length
    · rw [if_pos hs, List.take_length, memcpyBuf_ok (by omega), Outcome.ok_bind,
        if_neg (by rw [List.length_append]; omega)]
      exact ⟨fun e => (by cases e), fun h' e => by
        rw [← Outcome.ok.inj e]; simp only [List.length_append]; omega⟩
    · have htl : (x.take (64 - h.buf.length)).length = 64 - h.buf.length := by rw [List.length_take]; omega
      rw [if_neg hs, memcpyBuf_ok (by rw [htl]; omega), Outcome.ok_bind,
        if_pos (by rw [List.length_append, htl]; omega)]
      cases hu : I.updateBlocks h.st (h.buf ++ x.take (64 - h.buf.length)) 1 with
      | ok st =>
        rw [Outcome.ok_bind]
        split_ifs
        · exact ⟨fun e => (by cases e), fun h' e => by rw [← Outcome.ok.inj e]; simp⟩
        · exact habs _ _
      | throw => exact ⟨fun e => (by cases e), fun h' e => by cases e⟩
      | ub => exact absurd hu (hI _ _ _)
  have gen : ∀ (cs : List (List Byte)) (h : HashObj S), h.buf.length < 64 →
      cs.foldlM (fun h c => hashUpdate 64 I h c) h ≠ .ub := by
    intro cs
    induction cs with
    | nil => intro h _ e; cases e
    | cons c cs ih =>
      intro h hb
      obtain ⟨h1, h2⟩ := step h c hb
      rw [List.foldlM_cons]
      cases hu : hashUpdate 64 I h c with
      | ok h' => exact ih h' (h2 h' hu)
      | throw => intro e; cases e
      | ub => exact absurd hu h1
  exact gen chunks _ (by simp)

/-- C07, exact characterisation (full claim is false): with a derived class that never fails, the base
class is memory safe for every update history iff its block size is 1 or 64.  Line 67 of hash.h divides
by the literal 64 instead of BLOCK_SIZE. -/
theorem C07_safe_iff (BS : Nat) (hBS : 0 < BS) :
    (∀ chunks, updates BS unitImpl () chunks ≠ .ub) ↔ BS = 1 ∨ BS = 64 := by
  constructor
  · intro h
    by_contra hne
    by_cases hlt : BS < 64
    · -- one byte, then enough to fill the buffer and 127 more bytes
      apply h [[0], List.replicate (BS - 1 + 127) 0]
      have h1 : hashUpdate BS unitImpl ⟨[], ()⟩ [0] = .ok ⟨[0], ()⟩ := by
        have e1 : ([0] : List Byte).length / BS = 0 :=
          Nat.div_eq_of_lt (by simp only [List.length_cons, List.length_nil]; omega)
        show hashAbsorb BS unitImpl () [0] (([0] : List Byte).length / BS) = _
        rw [hashAbsorb_eq hBS, absorb, e1, Nat.zero_mul]; rfl
      simp only [updates, List.foldlM_cons, List.foldlM_nil, h1, Outcome.ok_bind]
      have : hashUpdate BS unitImpl ⟨[0], ()⟩ (List.replicate (BS - 1 + 127) 0) = .ub := by
        unfold hashUpdate
        rw [if_neg (by simp only [List.length_replicate]; omega), if_neg (by simp)]
        dsimp only
        rw [if_neg (by simp only [List.length_replicate, List.length_cons, List.length_nil]; omega),
          memcpyBuf_ok (by simp only [List.length_take, List.length_replicate, List.length_cons, List.length_nil]; omega),
          Outcome.ok_bind, if_pos (by simp only [List.length_append, List.length_take, List.length_replicate, List.length_cons, List.length_nil]; omega)]
        have e : (List.replicate (BS - 1 + 127) (0 : Byte)).drop (BS - [(0 : Byte)].length) = List.replicate 127 0 := by
          rw [List.drop_replicate]; congr 1; simp only [List.length_cons, List.length_nil]; omega
        rw [e]
        simp only [unitImpl, Outcome.ok_bind, List.length_replicate]
        unfold hashAbsorb
        simp only [List.length_replicate]
        rw [if_neg (by omega), if_neg (by omega)]
        simp only [Outcome.ok_bind, List.drop_replicate, List.length_replicate]
        rw [if_neg (by omega)]
        unfold memcpyBuf
        rw [if_neg (by simp only [List.length_replicate, List.length_nil]; omega)]; rfl
      rw [this]; rfl
    · -- one byte, then fill the buffer and 64 more bytes: one block of BS > 64 bytes is read
      apply h [[0], List.replicate (BS - 1 + 64) 0]
      have h1 : hashUpdate BS unitImpl ⟨[], ()⟩ [0] = .ok ⟨[0], ()⟩ := by
        have e1 : ([0] : List Byte).length / BS = 0 :=
          Nat.div_eq_of_lt (by simp only [List.length_cons, List.length_nil]; omega)
        show hashAbsorb BS unitImpl () [0] (([0] : List Byte).length / BS) = _
        rw [hashAbsorb_eq hBS, absorb, e1, Nat.zero_mul]; rfl
      simp only [updates, List.foldlM_cons, List.foldlM_nil, h1, Outcome.ok_bind]
      have : hashUpdate BS unitImpl ⟨[0], ()⟩ (List.replicate (BS - 1 + 64) 0) = .ub := by
        unfold hashUpdate
        rw [if_neg (by simp only [List.length_replicate]; omega), if_neg (by simp)]
        dsimp only
        rw [if_neg (by simp only [List.length_replicate, List.length_cons, List.length_nil]; omega),
          memcpyBuf_ok (by simp only [List.length_take, List.length_replicate, List.length_cons, List.length_nil]; omega),
          Outcome.ok_bind, if_pos (by simp only [List.length_append, List.length_take, List.length_replicate, List.length_cons, List.length_nil]; omega)]
        have e : (List.replicate (BS - 1 + 64) (0 : Byte)).drop (BS - [(0 : Byte)].length) = List.replicate 64 0 := by
          rw [List.drop_replicate]; congr 1; simp only [List.length_cons, List.length_nil]; omega
        rw [e]
        simp only [unitImpl, Outcome.ok_bind, List.length_replicate]
        rw [if_neg (by omega)]
        unfold hashAbsorb
        simp only [List.length_replicate]
        rw [if_pos (by omega)]
      rw [this]; rfl
  · rintro (rfl | rfl) chunks
    · have gen : ∀ cs : List (List Byte),
          cs.foldlM (fun h c => hashUpdate 1 unitImpl h c) ⟨[], ()⟩ = .ok ⟨[], ()⟩ := by
        intro cs
        induction cs with
        | nil => rfl
        | cons c cs ih =>
          have : hashUpdate 1 unitImpl ⟨[], ()⟩ c = .ok ⟨[], ()⟩ := by
            have e : hashAbsorb 1 unitImpl () c (c.length / 1) = .ok ⟨[], ()⟩ := by
              rw [hashAbsorb_eq (by decide), absorb]; simp [unitImpl]
            unfold hashUpdate
            split_ifs
            · rfl
            · exact e
            · rename_i h _; exact absurd rfl h
            · rename_i h _; exact absurd rfl h
          rw [List.foldlM_cons, this, Outcome.ok_bind, ih]
      rw [updates, gen]; exact fun e => by cases e
    · exact C07_safe_64 unitImpl (fun _ _ _ e => by cases e) () chunks

/-- The concrete failure for the library's own 16-byte class (GHash): 1 byte, then 142 bytes. -/
theorem C07_block16_violated :
    updates 16 unitImpl () [[0], List.replicate 142 0] = .ub := by decide +kernel

/-- C07, the part that holds: with block size 64 any update history leaves the object in the state one
update with the concatenation would give, for every derived class whose block function is compositional. -/
theorem C07_chunking_64_partial {S} (I : HashImpl S) (L : I.Lawful 64) (s : S) (chunks : List (List Byte)) :
    updates 64 I s chunks = updates 64 I s [chunks.flatten] := by
  have h : ∀ cs : List (List Byte), updates 64 I s cs = absorb 64 I s cs.flatten := by
    intro cs
    have := updates_eq I L s cs []
    rw [absorb_nil I L] at this
    exact this
  rw [h, h]; simp

example : (impl compress).Lawful 64 := impl_lawful

end Verif.Props
