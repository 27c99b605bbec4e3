import Verif.Model.Sm3
import Verif.Spec.Sm3
import Verif.Proofs.Hash
import Verif.Proofs.MontCtx
/-! # Helper lemmas: the SM3 backends against GB/T 32905 -/
namespace Verif.Sm3
open Verif.Spec (beVal toBE)

theorem rotl_eq (x : W32) (n : Nat) (h : n < 32) : rotl x n = Spec.SM3.rotl x n := by
  unfold rotl Spec.SM3.rotl
  rw [BitVec.rotateLeft_def, Nat.mod_eq_of_lt h]

theorem P0_eq (x : W32) : P0 x = Spec.SM3.P0 x := by
  unfold P0 Spec.SM3.P0; rw [rotl_eq _ _ (by decide), rotl_eq _ _ (by decide)]

theorem P1_eq (x : W32) : P1 x = Spec.SM3.P1 x := by
  unfold P1 Spec.SM3.P1; rw [rotl_eq _ _ (by decide), rotl_eq _ _ (by decide)]

theorem GG16_eq (x y z : W32) : GG16 x y z = (x &&& y) ||| (~~~x &&& z) := by
  unfold GG16
  ext i hi
  simp only [BitVec.getElem_xor, BitVec.getElem_and, BitVec.getElem_or, BitVec.getElem_not]
  cases x[i] <;> cases y[i] <;> cases z[i] <;> rfl

theorem T_eq : ∀ j < 64, rd T j = Spec.SM3.rotl (Spec.SM3.T j) (j % 32) := by decide +kernel

def toS (r : Reg) : Spec.SM3.State := ⟨r.A, r.B, r.C, r.D, r.E, r.F, r.G, r.H⟩

theorem rd_append_left {w} (a b : List (BitVec w)) (i : Nat) (h : i < a.length) : rd (a ++ b) i = rd a i := by
  unfold rd; simp [List.getD, List.getElem?_append_left h]

theorem rd_append_len {w} (a : List (BitVec w)) (x : BitVec w) : rd (a ++ [x]) a.length = x := by
  unfold rd; simp [List.getD]

theorem expand_spec (B : Nat → W32) : ∀ (n j : Nat) (W : List W32), 16 ≤ j → W.length = j →
    (∀ i < j, rd W i = Spec.SM3.W B i) →
    (expand n j W).length = j + n ∧ ∀ i < j + n, rd (expand n j W) i = Spec.SM3.W B i
  | 0, j, W, _, hl, h => ⟨hl, h⟩
  | n + 1, j, W, hj, hl, h => by
    rw [expand]
    have := expand_spec B n (j + 1) (W ++ [P1 (rd W (j - 16) ^^^ rd W (j - 9) ^^^ rotl (rd W (j - 3)) 15) ^^^
      rotl (rd W (j - 13)) 7 ^^^ rd W (j - 6)]) (by omega) (by simp [hl]) (by
        intro i hi
        rcases Nat.lt_succ_iff_lt_or_eq.mp hi with hi | rfl
        · rw [rd_append_left _ _ _ (by omega), h i hi]
        · rw [← hl, rd_append_len, hl, Spec.SM3.W, if_neg (by omega), h _ (by omega), h _ (by omega), h _ (by omega),
            h _ (by omega), h _ (by omega), P1_eq, rotl_eq _ _ (by decide), rotl_eq _ _ (by decide)])
    rw [show j + (n + 1) = j + 1 + n by omega]
    exact this

theorem loadWords_len (d : List Byte) : ∀ n i, (loadWords d n i).length = n
  | 0, _ => rfl
  | n + 1, i => by rw [loadWords, List.length_cons, loadWords_len d n]

theorem rd_loadWords (d : List Byte) : ∀ n i k, k < n → rd (loadWords d n i) k =
    memLoad32BE (rd d (4 * (i + k))) (rd d (4 * (i + k) + 1)) (rd d (4 * (i + k) + 2)) (rd d (4 * (i + k) + 3))
  | 0, _, _, h => by omega
  | n + 1, i, 0, _ => rfl
  | n + 1, i, k + 1, h => by
    have := rd_loadWords d n (i + 1) k (by omega)
    rw [show i + (k + 1) = i + 1 + k by omega, ← this]; rfl

theorem take4 (p : List Byte) (i : Nat) (h : i + 4 ≤ p.length) :
    (p.drop i).take 4 = [rd p i, rd p (i + 1), rd p (i + 2), rd p (i + 3)] := by
  apply List.ext_getElem
  · simp; omega
  · intro k h1 h2
    have hk : k < 4 := by simpa using h2
    rw [List.getElem_take, List.getElem_drop]
    have e : ∀ j (hj : j < p.length), rd p j = p[j] := by intro j hj; simp [rd, List.getD, hj]
    rw [e i (by omega), e (i+1) (by omega), e (i+2) (by omega), e (i+3) (by omega)]
    rcases k with _ | _ | _ | _ | k <;> first | rfl | omega

theorem wordAt_eq (p : List Byte) (i : Nat) (h : i + 4 ≤ p.length) :
    Spec.SM3.wordAt p i = memLoad32BE (rd p i) (rd p (i + 1)) (rd p (i + 2)) (rd p (i + 3)) := by
  unfold Spec.SM3.wordAt
  rw [take4 p i h]
  apply BitVec.eq_of_toNat_eq
  rw [memLoad_toNat]
  simp only [BitVec.toNat_ofNat, beVal, List.foldl_cons, List.foldl_nil, Nat.zero_mul, Nat.zero_add]
  apply Nat.mod_eq_of_lt
  have h0 := (rd p i).isLt
  have h1 := (rd p (i+1)).isLt
  have h2 := (rd p (i+2)).isLt
  have h3 := (rd p (i+3)).isLt
  omega

/-- One `R` is one round, up to the renaming of registers. -/
theorem R_spec (B : Nat → W32) (W : List W32) (ff gg : W32 → W32 → W32 → W32) (j : Nat) (hj : j < 64)
    (hW : ∀ i < 68, rd W i = Spec.SM3.W B i) (hf : ff = Spec.SM3.FF j) (hg : gg = Spec.SM3.GG j)
    (A C D E G H X Y : W32) :
    Spec.SM3.round B j ⟨A, X, C, D, E, Y, G, H⟩ =
      let r := R ff gg W j A X C D E Y G H
      ⟨r.D, r.A, r.B, r.C, r.H, r.E, r.F, r.G⟩ := by
  subst hf hg
  simp only [Spec.SM3.round, R, Spec.SM3.W', T_eq j hj, hW j (by omega), hW (j + 4) (by omega), P0_eq]
  simp only [rotl_eq _ _ (show 12 < 32 by decide), rotl_eq _ _ (show 7 < 32 by decide),
    rotl_eq _ _ (show 9 < 32 by decide), rotl_eq _ _ (show 19 < 32 by decide)]

theorem R4_spec (B : Nat → W32) (W : List W32) (ff gg : W32 → W32 → W32 → W32) (j : Nat) (hj : j + 3 < 64)
    (hW : ∀ i < 68, rd W i = Spec.SM3.W B i) (hf : ∀ k < 4, ff = Spec.SM3.FF (j + k))
    (hg : ∀ k < 4, gg = Spec.SM3.GG (j + k)) (r : Reg) (s : Spec.SM3.State)
    (h : toS r = Spec.SM3.rounds B j s) : toS (R4 ff gg W j r) = Spec.SM3.rounds B (j + 4) s := by
  rw [show j + 4 = j + 3 + 1 from rfl, Spec.SM3.rounds, show j + 3 = j + 2 + 1 from rfl, Spec.SM3.rounds,
    show j + 2 = j + 1 + 1 from rfl, Spec.SM3.rounds, Spec.SM3.rounds, ← h, toS,
    R_spec B W ff gg j (by omega) hW (hf 0 (by omega)) (hg 0 (by omega))]
  dsimp only
  rw [R_spec B W ff gg (j + 1) (by omega) hW (hf 1 (by omega)) (hg 1 (by omega))]
  dsimp only
  rw [R_spec B W ff gg (j + 2) (by omega) hW (hf 2 (by omega)) (hg 2 (by omega))]
  dsimp only
  rw [R_spec B W ff gg (j + 3) (by omega) hW (hf 3 (by omega)) (hg 3 (by omega))]
  rfl

theorem R4loop_spec (B : Nat → W32) (W : List W32) (ff gg : W32 → W32 → W32 → W32)
    (hW : ∀ i < 68, rd W i = Spec.SM3.W B i) (s : Spec.SM3.State) :
    ∀ (n j : Nat) (r : Reg), j + 4 * n ≤ 64 → (∀ k < 4 * n, ff = Spec.SM3.FF (j + k)) →
      (∀ k < 4 * n, gg = Spec.SM3.GG (j + k)) → toS r = Spec.SM3.rounds B j s →
      toS (R4loop ff gg W n j r) = Spec.SM3.rounds B (j + 4 * n) s
  | 0, j, r, _, _, _, h => h
  | n + 1, j, r, hj, hf, hg, h => by
    rw [R4loop, show j + 4 * (n + 1) = j + 4 + 4 * n by omega]
    apply R4loop_spec B W ff gg hW s n (j + 4) _ (by omega)
    · intro k hk; rw [hf (4 + k) (by omega), Nat.add_assoc]
    · intro k hk; rw [hg (4 + k) (by omega), Nat.add_assoc]
    · exact R4_spec B W ff gg j (by omega) hW (fun k hk => hf k (by omega)) (fun k hk => hg k (by omega)) r s h

theorem FF_lo (j : Nat) (h : j < 16) : FF00 = Spec.SM3.FF j := by
  funext x y z; simp only [FF00, Spec.SM3.FF, if_pos h]
theorem GG_lo (j : Nat) (h : j < 16) : GG00 = Spec.SM3.GG j := by
  funext x y z; simp only [GG00, Spec.SM3.GG, if_pos h]
theorem FF_hi (j : Nat) (h : ¬ j < 16) : FF16 = Spec.SM3.FF j := by
  funext x y z; simp only [FF16, Spec.SM3.FF, if_neg h]
theorem GG_hi (j : Nat) (h : ¬ j < 16) : GG16 = Spec.SM3.GG j := by
  funext x y z; rw [GG16_eq]; simp only [Spec.SM3.GG, if_neg h]

theorem W_spec (B : Nat → W32) (data : List Byte) (hB : ∀ i < 16, rd (loadWords data 16 0) i = B i) :
    ∀ i < 68, rd (expand 52 16 (loadWords data 16 0)) i = Spec.SM3.W B i := by
  refine (expand_spec B 52 16 (loadWords data 16 0) (by decide) (loadWords_len _ _ _) ?_).2
  intro i hi
  rw [hB i hi, Spec.SM3.W, if_pos hi]

theorem compress_spec (B : Nat → W32) (s : Reg) (data : List Byte)
    (hB : ∀ i < 16, rd (loadWords data 16 0) i = B i) : toS (compress s data) = Spec.SM3.CF (toS s) B := by
  have hW := W_spec B data hB
  have h1 := R4loop_spec B _ FF00 GG00 hW (toS s) 4 0 s (by decide)
    (fun k hk => FF_lo _ (by omega)) (fun k hk => GG_lo _ (by omega)) rfl
  have h2 := R4loop_spec B _ FF16 GG16 hW (toS s) 12 16 _ (by decide)
    (fun k hk => FF_hi _ (by omega)) (fun k hk => GG_hi _ (by omega)) h1
  unfold Spec.SM3.CF
  rw [show (64 : Nat) = 16 + 4 * 12 from rfl, ← h2]
  simp only [compress, toS, Reg.xor, Spec.SM3.State.xor, BitVec.xor_comm]

theorem rd_drop {w} (p : List (BitVec w)) (k i : Nat) : rd (p.drop k) i = rd p (k + i) := by
  simp [rd, List.getD]

theorem compress_block (s : Reg) (p : List Byte) (k : Nat) (h : 64 * k + 64 ≤ p.length) :
    toS (compress s (p.drop (64 * k))) = Spec.SM3.CF (toS s) (fun j => Spec.SM3.wordAt p (64 * k + 4 * j)) := by
  apply compress_spec
  intro i hi
  rw [rd_loadWords _ _ _ _ hi, wordAt_eq _ _ (by omega)]
  simp only [rd_drop, Nat.zero_add, Nat.add_assoc]

theorem compress_pre (s : Reg) (d e : List Byte) (h : 64 ≤ d.length) : compress s (d ++ e) = compress s d := by
  have : loadWords (d ++ e) 16 0 = loadWords d 16 0 := by
    have gen : ∀ n i, 4 * (i + n) ≤ d.length → loadWords (d ++ e) n i = loadWords d n i := by
      intro n
      induction n with
      | zero => intros; rfl
      | succ n ih =>
        intro i hi
        rw [loadWords, loadWords, ih (i + 1) (by omega), rd_append_left _ _ _ (by omega), rd_append_left _ _ _ (by omega),
          rd_append_left _ _ _ (by omega), rd_append_left _ _ _ (by omega)]
    exact gen 16 0 (by omega)
  unfold compress
  rw [this]

theorem compressBlocks_spec (p : List Byte) : ∀ (n k : Nat) (s : Reg), 64 * (k + n) ≤ p.length →
    toS s = Spec.SM3.V p k → toS (compressBlocks compress n s (p.drop (64 * k))) = Spec.SM3.V p (k + n)
  | 0, k, s, _, h => h
  | n + 1, k, s, hl, h => by
    rw [compressBlocks, List.drop_drop, show 64 * k + 64 = 64 * (k + 1) by omega,
      show k + (n + 1) = k + 1 + n by omega]
    apply compressBlocks_spec p n (k + 1) _ (by omega)
    rw [compress_block _ _ _ (by omega), h]; rfl

theorem compressBlocks_add (cf : Reg → List Byte → Reg) : ∀ (m n : Nat) (s : Reg) (d : List Byte),
    compressBlocks cf (m + n) s d = compressBlocks cf n (compressBlocks cf m s d) (d.drop (64 * m))
  | 0, n, s, d => by rw [Nat.zero_add]; rfl
  | m + 1, n, s, d => by
    rw [show m + 1 + n = m + n + 1 by omega, compressBlocks, compressBlocks_add cf m n, compressBlocks, List.drop_drop,
      show 64 * (m + 1) = 64 + 64 * m by omega]

theorem compressBlocks_pre : ∀ (n : Nat) (s : Reg) (d e : List Byte), 64 * n ≤ d.length →
    compressBlocks compress n s (d ++ e) = compressBlocks compress n s d
  | 0, s, d, e, _ => rfl
  | n + 1, s, d, e, h => by
    rw [compressBlocks, compress_pre _ _ _ (by omega), List.drop_append_of_le_length (by omega),
      compressBlocks_pre n _ _ _ (by rw [List.length_drop]; omega)]; rfl

/-- Exact behaviour of `sm3_update_blocks`. -/
theorem updateBlocks_spec (cf : Reg → List Byte → Reg) (ctx : Ctx) (d : List Byte) (n : Nat) :
    updateBlocks cf ctx d n = if ctx.dataBits.toNat + 512 * n < 2 ^ 64 then
      some ⟨compressBlocks cf n ctx.state d, BitVec.ofNat 64 (ctx.dataBits.toNat + 512 * n)⟩ else none := by
  have hb := ctx.dataBits.isLt
  unfold updateBlocks
  by_cases h1 : n > (2 ^ 64 - 1) / 512
  · rw [if_pos h1, if_neg (by omega)]
  · rw [if_neg h1]
    dsimp only
    have e : (BitVec.ofNat 64 (n * 512) + ctx.dataBits).toNat = (n * 512 + ctx.dataBits.toNat) % 2 ^ 64 := by
      rw [BitVec.toNat_add, BitVec.toNat_ofNat, Nat.mod_add_mod]
    have hu : (BitVec.ofNat 64 (n * 512) + ctx.dataBits).ult ctx.dataBits = true ↔
        ¬ ctx.dataBits.toNat + 512 * n < 2 ^ 64 := by
      rw [BitVec.ult, decide_eq_true_iff, e]; omega
    simp only [hu]
    by_cases h2 : ctx.dataBits.toNat + 512 * n < 2 ^ 64
    · rw [if_neg (by omega), if_pos h2]
      congr 2
      apply BitVec.eq_of_toNat_eq
      rw [e, BitVec.toNat_ofNat]; congr 1; omega
    · rw [if_pos h2, if_neg h2]

theorem impl_lawful : (impl compress).Lawful 64 where
  zero s d := by
    have := s.dataBits.isLt
    simp only [impl, updateBlocks_spec, Nat.mul_zero, Nat.add_zero]
    rw [if_pos this]; simp only [compressBlocks, BitVec.ofNat_toNat, BitVec.setWidth_eq]
  split s d m n h := by
    have hb := s.dataBits.isLt
    simp only [impl, updateBlocks_spec]
    by_cases h1 : s.dataBits.toNat + 512 * (m + n) < 2 ^ 64
    · have e : (BitVec.ofNat 64 (s.dataBits.toNat + 512 * m)).toNat = s.dataBits.toNat + 512 * m := by
        rw [BitVec.toNat_ofNat]; omega
      rw [if_pos h1, if_pos (by omega)]
      simp only [Outcome.ok_bind, e]
      rw [if_pos (by omega)]
      dsimp only
      rw [compressBlocks_add, Nat.mul_comm 64 m, show s.dataBits.toNat + 512 * (m + n) = s.dataBits.toNat + 512 * m + 512 * n by omega]
    · rw [if_neg h1]
      by_cases h2 : s.dataBits.toNat + 512 * m < 2 ^ 64
      · have e : (BitVec.ofNat 64 (s.dataBits.toNat + 512 * m)).toNat = s.dataBits.toNat + 512 * m := by
          rw [BitVec.toNat_ofNat]; omega
        rw [if_pos h2]
        simp only [Outcome.ok_bind, e]
        rw [if_neg (by omega)]
      · rw [if_neg h2]; rfl
  pre s d e n h := by
    simp only [impl, updateBlocks_spec]
    rw [compressBlocks_pre _ _ _ _ (by omega)]

theorem store32_eq (w : W32) : memStore32BE w = toBE 4 w.toNat := by
  have h := w.isLt
  simp only [memStore32BE, toBE, List.nil_append, List.cons_append]
  congr 1
  · apply BitVec.eq_of_toNat_eq; rw [low8, BitVec.toNat_ofNat]; omega
  congr 1
  · apply BitVec.eq_of_toNat_eq; rw [low8, BitVec.toNat_ofNat]; omega
  congr 1
  · apply BitVec.eq_of_toNat_eq; rw [low8, BitVec.toNat_ofNat]; omega
  congr 1
  · apply BitVec.eq_of_toNat_eq; rw [low8, BitVec.toNat_ofNat]; omega

theorem low8_64 (a : W64) (k : Nat) : (((a >>> k) &&& 0xFF#64).setWidth 8).toNat = a.toNat / 2^k % 256 := by
  rw [BitVec.toNat_setWidth, BitVec.toNat_and, BitVec.toNat_ushiftRight]
  rw [show (0xFF#64).toNat = 2^8 - 1 from rfl, Nat.and_two_pow_sub_one_eq_mod, Nat.shiftRight_eq_div_pow,
    Nat.mod_mod]

theorem store64_eq (w : W64) : memStore64BE w = toBE 8 w.toNat := by
  simp only [memStore64BE, toBE, List.nil_append, List.cons_append]
  iterate 8
    congr 1
    · apply BitVec.eq_of_toNat_eq; rw [low8_64, BitVec.toNat_ofNat]; omega

theorem bytes_eq (r : Reg) : r.toList.flatMap memStore32BE = (toS r).bytes := by
  simp only [Reg.toList, toS, Spec.SM3.State.bytes, List.flatMap_cons, List.flatMap_nil, store32_eq]

theorem pad_len (m : List Byte) : (Spec.SM3.pad m).length = m.length + 1 + Spec.SM3.padZeros m.length + 8 := by
  simp only [Spec.SM3.pad, List.length_append, List.length_replicate, toBE_len, List.length_cons, List.length_nil]

/-- Absorb everything, then finish. -/
theorem run_spec (m : List Byte) :
    (absorb 64 (impl compress) init m >>= fun h => finalBlock compress h.st h.buf >>= fun r => .ok r.2) =
      if 8 * m.length < 2 ^ 64 then .ok (Spec.SM3.hash m) else .throw := by
  unfold absorb
  simp only [impl, updateBlocks_spec]
  have h0 : init.dataBits.toNat = 0 := rfl
  rw [h0, Nat.zero_add]
  have hn : m.length / 64 * 64 ≤ m.length := Nat.div_mul_le_self _ _
  by_cases h1 : 512 * (m.length / 64) < 2 ^ 64
  · rw [if_pos h1]
    simp only [Outcome.ok_bind]
    unfold finalBlock
    have eb : (BitVec.ofNat 64 (512 * (m.length / 64))).toNat = 512 * (m.length / 64) := by
      rw [BitVec.toNat_ofNat]; omega
    have hrl : (m.drop (m.length / 64 * 64)).length = m.length % 64 := by rw [List.length_drop]; omega
    have en : (BitVec.ofNat 64 (m.length % 64 * 8) + BitVec.ofNat 64 (512 * (m.length / 64))).toNat =
        8 * m.length % 2 ^ 64 := by
      rw [BitVec.toNat_add, eb, BitVec.toNat_ofNat, Nat.mod_add_mod]; congr 1; omega
    simp only [hrl, BitVec.ult, en, eb, decide_eq_true_iff]
    by_cases h2 : 8 * m.length < 2 ^ 64
    · rw [if_pos h2, if_neg (by omega)]
      have hbuf : m.drop (m.length / 64 * 64) ++ [0x80] ++ List.replicate ((64 + 56 - 1 - m.length % 64) % 64) 0 ++
          memStore64BE (BitVec.ofNat 64 (m.length % 64 * 8) + BitVec.ofNat 64 (512 * (m.length / 64))) =
          (Spec.SM3.pad m).drop (m.length / 64 * 64) := by
        rw [store64_eq, en, Nat.mod_eq_of_lt h2]
        unfold Spec.SM3.pad
        simp only [List.append_assoc]
        rw [List.drop_append_of_le_length hn]
        congr 3
        unfold Spec.SM3.padZeros
        congr 1; omega
      rw [hbuf]
      have hpl := pad_len m
      have hpz := Spec.SM3.padZeros_minimal m.length
      have hbl : ((Spec.SM3.pad m).drop (m.length / 64 * 64)).length = (Spec.SM3.pad m).length - m.length / 64 * 64 :=
        List.length_drop
      rw [if_neg (by rw [hbl]; omega)]
      simp only [Outcome.ok_bind]
      rw [bytes_eq]
      unfold Spec.SM3.hash
      congr 2
      have hN : (Spec.SM3.pad m).length / 64 = m.length / 64 +
          (((Spec.SM3.pad m).drop (m.length / 64 * 64)).length + 63) / 64 := by
        rw [hbl]; omega
      have e1 : compressBlocks compress (m.length / 64) init.state m =
          compressBlocks compress (m.length / 64) init.state (Spec.SM3.pad m) := by
        unfold Spec.SM3.pad
        rw [List.append_assoc, List.append_assoc, compressBlocks_pre _ _ _ _ (by omega)]
      rw [e1, Nat.mul_comm (m.length / 64) 64, ← compressBlocks_add, Nat.mul_comm 64, ← hN]
      have := compressBlocks_spec (Spec.SM3.pad m) ((Spec.SM3.pad m).length / 64) 0 init.state (by omega) rfl
      rw [Nat.mul_zero, List.drop_zero, Nat.zero_add] at this
      exact this
    · rw [if_neg h2, if_pos (by omega)]; rfl
  · rw [if_neg h1, if_neg (by omega)]; rfl

end Verif.Sm3
