import Verif.Proofs.GhashPclmul
import Verif.Props.Gcm

/-!
Property C72: the carry-less-multiplication build of class `GHash` computes GHASH and cannot be told apart
from the table build by any sequence of calls.
-/

namespace Verif.Props

open Verif Verif.Spec

/-- A call on a `GHash` object. -/
inductive GhashCall where
  | setKey (H : List Byte)
  | reset
  | update (data : List Byte)
  | final (data : List Byte)

/-- What a build supplies for class `GHash`: its two setters and its virtual functions. -/
structure GhashBuild (S : Type) where
  setKey : HashObj S → List Byte → HashObj S
  reset : HashObj S → HashObj S
  impl : HashImpl S

/-- The object after a sequence of calls and the digests handed to the caller, in order. -/
def GhashBuild.run {S : Type} (B : GhashBuild S) : List GhashCall → HashObj S → Outcome (List (List Byte))
  | [], _ => .ok []
  | .setKey H :: cs, h => B.run cs (B.setKey h H)
  | .reset :: cs, h => B.run cs (B.reset h)
  | .update d :: cs, h => do
    let h ← hashUpdate 16 B.impl h d
    B.run cs h
  | .final d :: cs, h => do
    let r ← hashFinal 16 B.impl h d
    let ds ← B.run cs r.1
    .ok (r.2 :: ds)

/-- The table build (`ghash_lut256.cpp`). -/
def lutBuild : GhashBuild Ghash.Ctx := ⟨Ghash.setKey, Ghash.reset, Ghash.impl⟩

/-- The carry-less-multiplication build (`ghash_pclmul.cpp`). -/
def pclmulBuild : GhashBuild GhashPclmul.Ctx := ⟨GhashPclmul.setKey, GhashPclmul.reset, GhashPclmul.impl⟩

/-- Every key given to the object has the 16 bytes that `set_key` reads. -/
def KeysOk (cs : List GhashCall) : Prop := ∀ H, GhashCall.setKey H ∈ cs → H.length = 16

theorem pclmul_run_sim (cs : List GhashCall) : ∀ (h : HashObj GhashPclmul.Ctx) (g : HashObj Ghash.Ctx),
    KeysOk cs → GhashPclmul.ObjSim h g → pclmulBuild.run cs h = lutBuild.run cs g := by
  induction cs with
  | nil => intros; rfl
  | cons c cs ih =>
    intro h g hk hs
    have hk' : KeysOk cs := fun H hH => hk H (List.mem_cons_of_mem _ hH)
    cases c with
    | setKey H => exact ih _ _ hk' (GhashPclmul.sim_setKey hs.1 H (hk H (by simp)))
    | reset => exact ih _ _ hk' ⟨hs.1, GhashPclmul.sim_reset hs.2⟩
    | update d =>
      have hu := GhashPclmul.sim_hashUpdate hs d
      rw [GhashBuild.run, GhashBuild.run]
      show (hashUpdate 16 GhashPclmul.impl h d >>= _) = (hashUpdate 16 Ghash.impl g d >>= _)
      cases h1 : hashUpdate 16 GhashPclmul.impl h d <;> cases h2 : hashUpdate 16 Ghash.impl g d <;> rw [h1, h2] at hu <;>
        first | exact hu.elim | rfl | exact ih _ _ hk' hu
    | final d =>
      have hu := GhashPclmul.sim_hashFinal hs d
      rw [GhashBuild.run, GhashBuild.run]
      show (hashFinal 16 GhashPclmul.impl h d >>= _) = (hashFinal 16 Ghash.impl g d >>= _)
      cases h1 : hashFinal 16 GhashPclmul.impl h d <;> cases h2 : hashFinal 16 Ghash.impl g d <;> rw [h1, h2] at hu <;>
        first
        | exact hu.elim
        | rfl
        | (rw [Outcome.ok_bind, Outcome.ok_bind, ih _ _ hk' hu.1, hu.2])

/-- C72: whatever sequence of `set_key`, `reset`, `update` and `do_final` calls is made on a freshly keyed
object, of whatever lengths, the two builds return the same digests in the same order, and throw or misbehave
at the same call. -/
theorem C72_pclmul_same_as_lut (H : List Byte) (hH : H.length = 16) (cs : List GhashCall) (hk : KeysOk cs)
    (h : HashObj GhashPclmul.Ctx) (g : HashObj Ghash.Ctx) (hb : h.buf = g.buf) :
    pclmulBuild.run (.setKey H :: cs) h = lutBuild.run (.setKey H :: cs) g :=
  pclmul_run_sim cs _ _ hk (GhashPclmul.sim_setKey hb H hH)

/-- A caller that feeds chunks to a keyed object of the carry-less-multiplication build and asks for the
digest. -/
def pclmulStream (H : List Byte) (chunks : List (List Byte)) (h : HashObj GhashPclmul.Ctx) :
    Outcome (List (List Byte)) :=
  pclmulBuild.run (.setKey H :: chunks.map GhashCall.update ++ [.final []]) h

theorem lut_stream (chunks : List (List Byte)) : ∀ g : HashObj Ghash.Ctx,
    lutBuild.run (chunks.map GhashCall.update ++ [.final []]) g = (do
      let h ← chunks.foldlM (fun h c => hashUpdate 16 Ghash.impl h c) g
      let r ← hashFinal 16 Ghash.impl h []
      .ok [r.2]) := by
  induction chunks with
  | nil =>
    intro g
    show (hashFinal 16 Ghash.impl g [] >>= _) = (hashFinal 16 Ghash.impl g [] >>= _)
    cases hashFinal 16 Ghash.impl g [] <;> rfl
  | cons c cs ih =>
    intro g
    rw [List.foldlM_cons, List.map_cons, List.cons_append, GhashBuild.run]
    show (hashUpdate 16 Ghash.impl g c >>= _) = _
    cases hashUpdate 16 Ghash.impl g c with
    | ok h => exact ih h
    | throw => rfl
    | ub => rfl

/-- C72: the digest of whole-block updates is SP 800-38D's GHASH of their concatenation. -/
theorem C72_pclmul_spec (H : List Byte) (hH : H.length = 16) (chunks : List (List Byte))
    (hc : ∀ c ∈ chunks, c.length % 16 = 0) (h : HashObj GhashPclmul.Ctx) (hb : h.buf = []) :
    pclmulStream H chunks h = .ok [Spec.Gcm.ghash H chunks.flatten] := by
  have hk : KeysOk (chunks.map GhashCall.update ++ [.final []]) := by
    intro K hK
    simp at hK
  unfold pclmulStream
  rw [List.cons_append, C72_pclmul_same_as_lut H hH _ hk h ⟨[], Ghash.ghashInit H⟩ hb, GhashBuild.run, lut_stream]
  have := C06_ghash_object H hH chunks hc ⟨[], Ghash.ghashInit H⟩ rfl
  unfold ghashStream at this
  revert this
  show (List.foldlM (fun h c => hashUpdate 16 Ghash.impl h c) (Ghash.setKey ⟨[], Ghash.ghashInit H⟩ H) chunks >>= _) = _ →
    (List.foldlM (fun h c => hashUpdate 16 Ghash.impl h c) (Ghash.setKey ⟨[], Ghash.ghashInit H⟩ H) chunks >>= _) = _
  cases List.foldlM (fun h c => hashUpdate 16 Ghash.impl h c) (Ghash.setKey ⟨[], Ghash.ghashInit H⟩ H) chunks with
  | ok a =>
    rw [Outcome.ok_bind, Outcome.ok_bind]
    cases hashFinal 16 Ghash.impl a [] with
    | ok r => rw [Outcome.ok_bind, Outcome.ok_bind]; intro e; injection e with e; rw [e]
    | throw => intro e; cases e
    | ub => intro e; cases e
  | throw => intro e; cases e
  | ub => intro e; cases e

/-- C72: one step of the state is a multiplication in `GF(2)[x]/(x^128+x^7+x^2+x+1)`: the digest after one
more block is `(digest + block)·H`, whatever the state. -/
theorem C72_pclmul_field (H b rest : List Byte) (hH : H.length = 16) (hb : b.length = 16) (c : GhashPclmul.Ctx)
    (hc : c.H = (GhashPclmul.ghashInit H).H) :
    GF128.ofBytes (GhashPclmul.storeu (GhashPclmul.reflectXmm (GhashPclmul.updateBlocks c (b ++ rest) 1).state)) =
      (GF128.ofBytes (GhashPclmul.storeu (GhashPclmul.reflectXmm c.state)) + GF128.ofBytes b) * GF128.ofBytes H := by
  rw [GhashPclmul.ofBytes_store, GhashPclmul.ofBytes_store, GhashPclmul.updateBlocks, GhashPclmul.updateBlocks]
  show GhashPclmul.P (GhashPclmul.gfmul (c.state ^^^ GhashPclmul.reflectXmm (GhashPclmul.loadu (b ++ rest))) c.H) = _
  have h1 := GhashPclmul.P_load H [] hH
  rw [List.append_nil] at h1
  rw [GhashPclmul.P_gfmul, GhashPclmul.P_xor, GhashPclmul.P_load b rest hb, hc]
  congr 1

/-- Test case 2 of the GCM submission: the key, the ciphertext block and the length block. -/
def katH : List Byte := [0x66, 0xe9, 0x4b, 0xd4, 0xef, 0x8a, 0x2c, 0x3b, 0x88, 0x4c, 0xfa, 0x59, 0xca, 0x34, 0x2b, 0x2e]
def katC : List Byte := [0x03, 0x88, 0xda, 0xce, 0x60, 0xb6, 0xa3, 0x92, 0xf3, 0x28, 0xc2, 0xb9, 0x71, 0xb2, 0xfe, 0x78]
def katL : List Byte := [0, 0, 0, 0, 0, 0, 0, 0, 0, 0, 0, 0, 0, 0, 0, 0x80]

/-- The instruction-level model evaluates to the published value. -/
example : pclmulStream katH [katC, katL] ⟨[], GhashPclmul.ghashInit katH⟩ =
    .ok [[0xf3, 0x8c, 0xbb, 0x1a, 0xd6, 0x92, 0x23, 0xdc, 0xc3, 0x45, 0x7a, 0xe5, 0xb6, 0xb0, 0xf8, 0x85]] := by
  decide +kernel

/-- Updates that straddle blocks, a digest in the middle and a change of key: the hypotheses hold. -/
example : KeysOk [.update (katC.take 5), .update (katC.drop 5), .final [], .reset, .setKey katC, .final katL] := by
  intro H hH; simp at hH; rw [hH]; rfl

example : katH.length = 16 ∧ ∀ c ∈ [katC, katL], c.length % 16 = 0 := by decide

end Verif.Props
