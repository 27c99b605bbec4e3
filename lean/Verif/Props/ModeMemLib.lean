import Verif.Props.ModeMem
import Verif.Props.Leak
import Verif.Model.Sm4Avx2
/-! # C108 for the ciphers of the library -/
namespace Verif.Props
open Verif Verif.ModeMem Spec Spec.Modes

/-- The block ciphers of the library: SM4 (sm4.h; four blocks at a time, sixteen with AVX2) and AES (aes.h). -/
inductive LibCipher where
  | sm4
  | sm4Avx2
  | aes128
  | aes192
  | aes256

/-- `USER_KEY_LEN` and the keyed object. -/
def LibCipher.keyLen : LibCipher → Nat
  | .sm4 | .sm4Avx2 | .aes128 => 16
  | .aes192 => 24
  | .aes256 => 32
def LibCipher.keyed : LibCipher → List Byte → BCipher
  | .sm4 => Sm4.cipher
  | .sm4Avx2 => Sm4.Avx2.cipher
  | .aes128 => Aes.cipher 128
  | .aes192 => Aes.cipher 192
  | .aes256 => Aes.cipher 256
/-- `PARALLEL_NUM`. -/
def LibCipher.par : LibCipher → Nat
  | .sm4 => 4
  | .sm4Avx2 => 16
  | _ => 1

/-- A mode over a cipher of the library, as a class of C108. -/
def libCls (l : LibCipher) (n : Name) : Cls := ⟨n, 16, l.par, l.keyLen, fun key => ((l.keyed key).E, (l.keyed key).D)⟩

/-- The sizes are those of the keyed object. -/
theorem C108_library_sizes (l : LibCipher) (key : List Byte) : (l.keyed key).BS = 16 ∧ (l.keyed key).PAR = l.par := by
  cases l <;> exact ⟨rfl, rfl⟩

theorem lib_ok (l : LibCipher) (n : Name) : ClsOk (libCls l n) := by
  have h : ∀ key, CipherOk (l.keyed key) := by
    intro key
    cases l with
    | sm4 => exact Sm4.cipher_ok key
    | sm4Avx2 => exact ⟨(Sm4.cipher_ok key).bs, Nat.succ_pos 15, (Sm4.cipher_ok key).lenE, (Sm4.cipher_ok key).lenD⟩
    | aes128 => exact Aes.cipher_ok 128 key
    | aes192 => exact Aes.cipher_ok 192 key
    | aes256 => exact Aes.cipher_ok 256 key
  refine ⟨Nat.succ_pos 15, by cases l <;> exact Nat.succ_pos _, fun key _ x hx => ?_, fun key _ x hx => ?_⟩
  · have := (h key).lenE x
    rw [(C108_library_sizes l key).1] at this
    exact this hx
  · have := (h key).lenD x
    rw [(C108_library_sizes l key).1] at this
    exact this hx

/-- **C108** for any mix of the library's ciphers and modes: SM4-CBC beside AES-256-CTR beside AES-128-ECB on one memory. -/
theorem C108_library (l : Nat → LibCipher) (n : Nat → Name) (xs : List Call) (m : Mem) (objs : Nat → KeyedMode)
    (hn : ∀ k, (objs k).obj.buf = []) (s' : MSpec)
    (h : MSpec.run (fun k => libCls (l k) (n k)) xs ⟨m, fun _ => none, fun _ => .clean, []⟩ = some s') :
    ∃ w', run (fun k => libCls (l k) (n k)) xs ⟨m, objs, []⟩ = .ok w' ∧ w'.mem = s'.mem ∧ w'.log = s'.log :=
  C108_history _ (fun k => lib_ok (l k) (n k)) xs m objs hn s' h

theorem lib_inverse (l : LibCipher) (key : List Byte) (hk : key.length = l.keyLen) (x : List Byte) (hx : x.length = 16) :
    (l.keyed key).D ((l.keyed key).E x) = x := by
  have hr : (List.replicate 32 (0 : W32)).length = 32 := rfl
  cases l with
  | sm4 => exact (C17_sm4_inverse _ _ hr hr key x hk hx).1
  | sm4Avx2 => exact (C17_sm4_inverse _ _ hr hr key x hk hx).1
  | aes128 => exact (C19_aes_inverse 128 (by simp [AesBits]) key x (by rw [hk]; rfl) hx).1
  | aes192 => exact (C19_aes_inverse 192 (by simp [AesBits]) key x (by rw [hk]; rfl) hx).1
  | aes256 => exact (C19_aes_inverse 256 (by simp [AesBits]) key x (by rw [hk]; rfl) hx).1

/-- **C108** for the library's ciphers: encrypting a buffer in place and decrypting it in place restores the memory, in every
mode but SM4-CBC. -/
theorem C108_library_round_trip (l : LibCipher) (e d : Name) (hed : inverse e d)
    (hp : d ≠ .cbcDec ∨ l = .aes128 ∨ l = .aes192 ∨ l = .aes256)
    (m : Mem) (objs : Nat → KeyedMode) (hn : ∀ k, (objs k).obj.buf = []) (q p a n : Nat)
    (hq : q + l.keyLen ≤ m.length) (hiv : p + 16 ≤ m.length) (ha : a + n ≤ m.length)
    (hqa : q + l.keyLen ≤ a ∨ a + n ≤ q) (hpa : p + 16 ≤ a ∨ a + n ≤ p) (hw : wholeBlocks e = true → n % 16 = 0) :
    ∃ w', run (fun k => libCls l (if k = 0 then e else d)) [.init 0 q p, .final 0 a a n, .init 1 q p, .final 1 a a n]
        ⟨m, objs, []⟩ = .ok w' ∧ w'.mem = m ∧ w'.log = [(n, false), (n, false)] := by
  refine C108_in_place_round_trip (fun k => libCls l (if k = 0 then e else d)) (fun k => lib_ok l _) ⟨rfl, rfl, rfl⟩ hed
    ?_ (fun key hk x hx => lib_inverse l key hk x hx) m objs hn q p a n hq hiv ha hqa hpa hw
  rcases hp with h | rfl | rfl | rfl
  · exact .inl h
  all_goals exact .inr rfl

/-- AES-192-CBC, 32 octets at 40, key at 0, IV at 24. -/
example (m : Mem) (hm : m.length = 72) (objs : Nat → KeyedMode) (hn : ∀ k, (objs k).obj.buf = []) :
    ∃ w', run (fun k => libCls .aes192 (if k = 0 then .cbcEnc else .cbcDec))
        [.init 0 0 24, .final 0 40 40 32, .init 1 0 24, .final 1 40 40 32] ⟨m, objs, []⟩ = .ok w' ∧ w'.mem = m ∧
      w'.log = [(32, false), (32, false)] :=
  C108_library_round_trip .aes192 .cbcEnc .cbcDec trivial (.inr (.inr (.inl rfl))) m objs hn 0 24 40 32
    (by rw [hm]; decide) (by rw [hm]; decide) (by rw [hm]) (by decide) (by decide) (by decide)

end Verif.Props
