import Verif.Props.GcmMemLib
import Verif.Props.AesNi
/-!
# C108 and C109 over the AES instructions

128- and 256-bit keys; setting a 192-bit key reads eight octets past the key (C71), so what lies behind it in the memory matters
and the class does not fit the pattern.
-/
namespace Verif.Props
open Verif Spec Spec.Modes Spec.Gcm

/-- The two key sizes. -/
def niBits (big : Bool) : Nat := if big then 256 else 128

/-- The block functions after `set_key` with the AES instructions; the last case does not occur with keys of the right length
(`niSched_ok`). -/
def niSched (big : Bool) (key : List Byte) : (List Byte → List Byte) × (List Byte → List Byte) :=
  match AesNi.encKeyInit (niBits big) key, AesNi.decKeyInit (niBits big) key with
  | .ok ek, .ok dk => ((AesNi.cipher (niBits big) ek dk).E, (AesNi.cipher (niBits big) ek dk).D)
  | _, _ => (id, id)

/-- `set_key` succeeds, and the functions are FIPS 197. -/
theorem niSched_ok (big : Bool) (key : List Byte) (hk : key.length = niBits big / 8) (x : List Byte) (hx : x.length = 16) :
    (∃ ek dk, AesNi.encKeyInit (niBits big) key = .ok ek ∧ AesNi.decKeyInit (niBits big) key = .ok dk) ∧
    (niSched big key).1 x = AES.encrypt (niBits big / 32) key x ∧ (niSched big key).2 x = AES.decrypt (niBits big / 32) key x := by
  obtain ⟨ek, dk, h1, h2, hr⟩ := C71_aesni_exact (niBits big) (by cases big <;> simp [niBits]) key
    (by rw [hk]; cases big <;> rfl)
  unfold niSched
  rw [h1, h2]
  exact ⟨⟨ek, dk, rfl, rfl⟩, hr x hx⟩

def niModeCls (big : Bool) (n : Name) : ModeMem.Cls := ⟨n, 16, 1, niBits big / 8, niSched big⟩

theorem niMode_ok (big : Bool) (n : Name) : ModeMem.ClsOk (niModeCls big n) := by
  refine ⟨Nat.succ_pos 15, Nat.succ_pos 0, fun key hk x hx => ?_, fun key hk x hx => ?_⟩
  · show ((niSched big key).1 x).length = 16
    rw [(niSched_ok big key hk x hx).2.1]; rfl
  · show ((niSched big key).2 x).length = 16
    rw [(niSched_ok big key hk x hx).2.2]; rfl

/-- **C108** over the AES instructions. -/
theorem C108_aesni (big : Nat → Bool) (n : Nat → Name) (xs : List ModeMem.Call) (m : Mem) (objs : Nat → KeyedMode)
    (hn : ∀ k, (objs k).obj.buf = []) (s' : ModeMem.MSpec)
    (h : ModeMem.MSpec.run (fun k => niModeCls (big k) (n k)) xs ⟨m, fun _ => none, fun _ => .clean, []⟩ = some s') :
    ∃ w', ModeMem.run (fun k => niModeCls (big k) (n k)) xs ⟨m, objs, []⟩ = .ok w' ∧ w'.mem = s'.mem ∧ w'.log = s'.log :=
  C108_history _ (fun k => niMode_ok (big k) (n k)) xs m objs hn s' h

/-- **C108** over the AES instructions: encrypting a buffer in place and decrypting it in place restores the memory, in every
mode. -/
theorem C108_aesni_round_trip (big : Bool) (e d : Name) (hed : inverse e d) (m : Mem) (objs : Nat → KeyedMode)
    (hn : ∀ k, (objs k).obj.buf = []) (q p a n : Nat)
    (hq : q + niBits big / 8 ≤ m.length) (hiv : p + 16 ≤ m.length) (ha : a + n ≤ m.length)
    (hqa : q + niBits big / 8 ≤ a ∨ a + n ≤ q) (hpa : p + 16 ≤ a ∨ a + n ≤ p) (hw : wholeBlocks e = true → n % 16 = 0) :
    ∃ w', ModeMem.run (fun k => niModeCls big (if k = 0 then e else d))
        [.init 0 q p, .final 0 a a n, .init 1 q p, .final 1 a a n] ⟨m, objs, []⟩ = .ok w' ∧ w'.mem = m ∧
      w'.log = [(n, false), (n, false)] := by
  refine C108_in_place_round_trip (fun k => niModeCls big (if k = 0 then e else d)) (fun k => niMode_ok big _) ⟨rfl, rfl, rfl⟩ hed
    (.inr rfl) (fun key hk x hx => ?_) m objs hn q p a n hq hiv ha hqa hpa hw
  obtain ⟨ek, dk, h1, h2, hr⟩ := C71_aesni_exact (niBits big) (by cases big <;> simp [niBits]) key
    (by rw [show key.length = niBits big / 8 from hk]; cases big <;> rfl)
  show (niSched big key).2 ((niSched big key).1 x) = x
  unfold niSched
  rw [h1, h2]
  exact (C71_aesni_inverse _ key ek dk hr x hx).1

def niGcmCls (big : Bool) : GcmMem.Cls := ⟨1, niBits big / 8, fun key => (niSched big key).1⟩

theorem niGcm_ok (big : Bool) : GcmMem.ClsOk (niGcmCls big) :=
  ⟨(niMode_ok big .ecbEnc).par, fun key hk => (niMode_ok big .ecbEnc).lenE key hk⟩

/-- **C109** over the AES instructions. -/
theorem C109_aesni (big : Bool) (xs : List GcmMem.Call) (m : Mem) (enc dec : Nat → GcmMem.Obj) (pad : List Byte)
    (hn : ∀ k, (enc k).obj.buf = [] ∧ (enc k).obj.st.hash.buf = [] ∧ (dec k).obj.buf = [] ∧ (dec k).obj.st.hash.buf = [])
    (hp : pad.length = 16) (s' : GcmMem.GSpec)
    (h : GcmMem.GSpec.run (niGcmCls big) xs
      ⟨m, fun _ => .idle [], fun _ => none, fun _ => .idle [], fun _ => none, pad, []⟩ = some s') :
    ∃ w', GcmMem.run (niGcmCls big) xs ⟨m, enc, dec, pad, []⟩ = .ok w' ∧ w'.mem = s'.mem ∧ w'.log = s'.log :=
  C109_history _ (niGcm_ok big) xs m enc dec pad hn hp s' h

/-- AES-256-CBC, 32 octets at 48, key at 0, IV at 32. -/
example (m : Mem) (hm : m.length = 80) (objs : Nat → KeyedMode) (hn : ∀ k, (objs k).obj.buf = []) :
    ∃ w', ModeMem.run (fun k => niModeCls true (if k = 0 then .cbcEnc else .cbcDec))
        [.init 0 0 32, .final 0 48 48 32, .init 1 0 32, .final 1 48 48 32] ⟨m, objs, []⟩ = .ok w' ∧ w'.mem = m ∧
      w'.log = [(32, false), (32, false)] :=
  C108_aesni_round_trip true .cbcEnc .cbcDec trivial m objs hn 0 32 48 32 (by rw [hm]; decide) (by rw [hm]; decide) (by rw [hm])
    (by decide) (by decide) (by decide)

end Verif.Props
