import Verif.Proofs.ModeMem
/-!
# C108: mode objects on shared buffers

`run` (Model/ModeMem.lean) executes a program over any number of mode objects and one memory.  `MSpec.run`
(Spec/ModeMem.lean) is what SP 800-38A prescribes, each object being just the octets passed to it since its message was begun.
-/
namespace Verif.Props
open Verif Verif.ModeMem Spec Spec.Modes

/-- **C108.**  Any number of new mode objects, each of its own class and mode, any interleaving of the caller's stores with
calls on them, keys, IVs, inputs and outputs anywhere in one memory: if the caller keeps the rules — stay inside the memory,
give a key, begin every message (with `reset` if octets of the last one are left over), process in place or apart — no call
does anything undefined, the memory ends as SP 800-38A says, and every length and refusal is reported as it should be. -/
theorem C108_history (c : Nat → Cls) (hc : ∀ k, ClsOk (c k)) (xs : List Call) (m : Mem) (objs : Nat → KeyedMode)
    (hn : ∀ k, (objs k).obj.buf = []) (s' : MSpec)
    (h : MSpec.run c xs ⟨m, fun _ => none, fun _ => .clean, []⟩ = some s') :
    ∃ w', run c xs ⟨m, objs, []⟩ = .ok w' ∧ w'.mem = s'.mem ∧ w'.log = s'.log := by
  obtain ⟨w', e, i⟩ := run_ok hc xs (w := ⟨m, objs, []⟩) ⟨rfl, rfl, fun k => ⟨fun f hf => (by cases hf), hn k⟩⟩ h
  exact ⟨w', e, i.mem, i.log⟩

theorem wrm_back {m : Mem} {a n : Nat} {Y : List Byte} (h : a + n ≤ m.length) (hY : Y.length = n) :
    wrm (wrm m a Y) a (rdm m a n) = m := by
  have hl : (wrm m a Y).length = m.length := wrm_len (by omega)
  have hr := rdm_len h
  apply List.ext_getElem?
  intro k
  rw [wrm_get (by omega), wrm_get (by omega), rdm_get, hr, hY]
  split_ifs <;> first | rfl | omega | (congr 1; omega)

theorem inverse_any {C : BCipher} (hC : CipherOk C) (hDE : ∀ x, x.length = C.BS → C.D (C.E x) = x) {e d : Name}
    (hed : inverse e d) (iv : List Byte) (hiv : e = .ecbEnc ∨ e = .ecbDec ∨ iv.length = C.BS) (X : List Byte)
    (hw : wholeBlocks e = true → X.length % C.BS = 0) :
    (out C.E C.D C.BS iv e (blocks C.BS X)).flatten.length = X.length ∧
    (out C.E C.D C.BS iv d (blocks C.BS (out C.E C.D C.BS iv e (blocks C.BS X)).flatten)).flatten = X := by
  have key : ∀ iv : List Byte, iv.length = C.BS →
      (out C.E C.D C.BS iv e (blocks C.BS X)).flatten.length = X.length ∧
      (out C.E C.D C.BS iv d (blocks C.BS (out C.E C.D C.BS iv e (blocks C.BS X)).flatten)).flatten = X := by
    intro iv hiv
    have hsh := blocks_shaped hC.bs X
    obtain ⟨hl, hinv⟩ := mode_inverse hC hDE e d hed iv hiv (blocks C.BS X) hsh (fun hwe => blocks_whole hC.bs (hw hwe))
    refine ⟨by rw [List.length_flatten, hl, ← List.length_flatten, flatten_blocks hC.bs], ?_⟩
    rw [blocks_flatten hC.bs _ (shaped_of_lengths _ _ hl.symm hsh), hinv, flatten_blocks hC.bs]
  rcases hiv with rfl | rfl | hiv
  · cases d <;> simp only [inverse] at hed
    exact key (List.replicate C.BS 0) (by simp)
  · cases d <;> simp only [inverse] at hed
  · exact key iv hiv

/-- **C108**, one buffer: encrypting in place with one object and decrypting in place with another, key and IV lying outside
the buffer, leaves the memory as it was.  (CBC with a cipher that takes several blocks at a time is left out: see C15.) -/
theorem C108_in_place_round_trip (c : Nat → Cls) (hc : ∀ k, ClsOk (c k))
    (hsame : (c 1).BS = (c 0).BS ∧ (c 1).keyLen = (c 0).keyLen ∧ (c 1).sched = (c 0).sched)
    (hinv : inverse (c 0).name (c 1).name) (hp : (c 1).name ≠ .cbcDec ∨ (c 1).PAR = 1)
    (hDE : ∀ key, key.length = (c 0).keyLen → ∀ x, x.length = (c 0).BS → ((c 0).sched key).2 (((c 0).sched key).1 x) = x)
    (m : Mem) (objs : Nat → KeyedMode) (hn : ∀ k, (objs k).obj.buf = []) (q p a n : Nat)
    (hq : q + (c 0).keyLen ≤ m.length) (hiv : p + (c 0).BS ≤ m.length) (ha : a + n ≤ m.length)
    (hqa : q + (c 0).keyLen ≤ a ∨ a + n ≤ q) (hpa : p + (c 0).BS ≤ a ∨ a + n ≤ p)
    (hw : wholeBlocks (c 0).name = true → n % (c 0).BS = 0) :
    ∃ w', run c [.init 0 q p, .final 0 a a n, .init 1 q p, .final 1 a a n] ⟨m, objs, []⟩ = .ok w' ∧ w'.mem = m ∧
      w'.log = [(n, false), (n, false)] := by
  obtain ⟨s1, s2, s3⟩ := hsame
  have hl0 : ivOctets (c 0) ≤ (c 0).BS := by unfold ivOctets; cases (c 0).name <;> simp [wholeBlocks]
  have hl1 : ivOctets (c 1) = ivOctets (c 0) := by
    unfold ivOctets
    rw [s1]
    revert hinv
    cases (c 0).name <;> cases (c 1).name <;> simp [inverse, wholeBlocks]
  have hnd : (c 0).name ≠ .cbcDec := by
    intro h; rw [h] at hinv; revert hinv; cases (c 1).name <;> simp [inverse]
  have hX := rdm_len ha
  generalize hXe : rdm m a n = X at hX
  have hK := rdm_len hq
  generalize hKe : rdm m q (c 0).keyLen = K at hK
  generalize hIe : rdm m p (ivOctets (c 0)) = iv
  have hIV : (c 0).name = .ecbEnc ∨ (c 0).name = .ecbDec ∨ iv.length = (c 0).BS := by
    rw [← hIe]; exact iv_ok (by omega)
  obtain ⟨i1, i2⟩ := inverse_any (C := ⟨(c 0).BS, (c 0).PAR, ((c 0).sched K).1, ((c 0).sched K).2⟩)
    ⟨(hc 0).bs, (hc 0).par, (hc 0).lenE K hK, (hc 0).lenD K hK⟩ (hDE K hK) hinv iv hIV X (by rw [hX]; exact hw)
  simp only at i1 i2
  have hal : (allOut (c 0) ((c 0).sched K) iv X).length = n := by rw [← hX]; exact i1
  have hal2 : allOut (c 1) ((c 0).sched K) iv (allOut (c 0) ((c 0).sched K) iv X) = X := by
    unfold allOut; rw [s1]; exact i2
  generalize hYe : allOut (c 0) ((c 0).sched K) iv X = Y at hal hal2
  have htail : ∀ Z : List Byte, Z.length = n → ¬ (wholeBlocks (c 0).name = true ∧ tail (c 0).BS Z ≠ []) := by
    intro Z hZ ⟨h1, h2⟩
    apply h2
    have := hw h1
    unfold tail
    apply List.drop_eq_nil_of_le
    have hd := Nat.div_add_mod Z.length (c 0).BS
    rw [Nat.mul_comm, hZ] at hd
    rw [hZ]; omega
  have hwn : wholeBlocks (c 1).name = wholeBlocks (c 0).name := by
    revert hinv
    cases (c 0).name <;> cases (c 1).name <;> simp [inverse, wholeBlocks]
  have hml : (wrm m a Y).length = m.length := wrm_len (by omega)
  have r1 : rdm (wrm m a Y) q (c 0).keyLen = K := by
    rw [rdm_wrm_disj (by omega) (by rcases hqa with h | h <;> omega), hKe]
  have r2 : rdm (wrm m a Y) p (ivOctets (c 0)) = iv := by
    rw [rdm_wrm_disj (by omega) (by rcases hpa with h | h <;> omega), hIe]
  have r3 : rdm (wrm m a Y) a n = Y := by
    apply List.ext_getElem?
    intro k
    rw [rdm_get, wrm_get (by omega), hal]
    split_ifs with h1 h2 h3
    · omega
    · congr 1; omega
    · omega
    · exact (List.getElem?_eq_none (by omega)).symm
  have hb : wrm (wrm m a Y) a X = m := by rw [← hXe]; exact wrm_back ha hal
  have hf0 : Fits (c 0) m a a n (tail (c 0).BS ([] : List Byte)).length n :=
    ⟨ha, ha, .inr (.inr ⟨.inl hnd, by simp [tail]⟩)⟩
  have hf1 : Fits (c 1) (wrm m a Y) a a n (tail (c 0).BS ([] : List Byte)).length n :=
    ⟨by rw [hml]; exact ha, by rw [hml]; exact ha, .inr (.inr ⟨hp, by simp [tail]⟩)⟩
  have h : ∃ s', MSpec.run c [.init 0 q p, .final 0 a a n, .init 1 q p, .final 1 a a n]
      ⟨m, fun _ => none, fun _ => .clean, []⟩ = some s' ∧ s'.mem = m ∧ s'.log = [(n, false), (n, false)] := by
    have e1 : ∀ Z : List Byte, (Z.length = n) → ([] ++ Z : List Byte).length - ([] : List Byte).length / (c 0).BS * (c 0).BS = n := by
      intro Z hZ; simp [hZ]
    simp only [MSpec.run, MSpec.call]
    rw [if_pos ⟨hq, by omega, fun h => h⟩]
    simp only [Option.bind_some, Function.update_self]
    rw [hXe, hKe, hIe, e1 X hX, if_pos hf0, if_neg (by rw [List.nil_append]; exact htail X hX)]
    simp only [Option.bind_some, List.nil_append, List.length_nil, Nat.zero_div, Nat.zero_mul, List.drop_zero, hYe, s1, s2, s3, hl1, hml]
    rw [if_pos ⟨hq, by omega, fun h => h⟩]
    simp only [Option.bind_some, Function.update_self, r1, r2, r3, hal, hwn, hal2, List.nil_append, List.length_nil,
      Nat.zero_div, Nat.zero_mul, List.drop_zero, Nat.sub_zero]
    rw [if_pos hf1, if_neg (htail Y hal)]
    exact ⟨_, rfl, hb, rfl⟩
  obtain ⟨s', hs, hm, hlg⟩ := h
  obtain ⟨w', e, h1, h2⟩ := C108_history c hc _ m objs hn s' hs
  exact ⟨w', e, h1.trans hm, h2.trans hlg⟩

/-- A class for the examples: blocks of four octets, two at a time, a key of one octet added to every octet. -/
def addCls (n : Name) (par : Nat) : Cls :=
  ⟨n, 4, par, 1, fun key => (fun x => x.map (· + key.headD 0), fun x => x.map (· - key.headD 0))⟩

theorem addCls_ok (n : Name) (par : Nat) (hp : 0 < par) : ClsOk (addCls n par) :=
  ⟨Nat.succ_pos 3, hp, fun key _ x hx => by simpa [addCls] using hx, fun key _ x hx => by simpa [addCls] using hx⟩

/-- The program of `C108_in_place_round_trip` for CTR: eleven octets at 5, key at 0, counter block at 1. -/
example (m : Mem) (hm : m.length = 16) (objs : Nat → KeyedMode) (hn : ∀ k, (objs k).obj.buf = []) :
    ∃ w', run (fun _ => addCls .ctr 2) [.init 0 0 1, .final 0 5 5 11, .init 1 0 1, .final 1 5 5 11] ⟨m, objs, []⟩ = .ok w' ∧
      w'.mem = m ∧ w'.log = [(11, false), (11, false)] :=
  C108_in_place_round_trip (fun _ => addCls .ctr 2) (fun _ => addCls_ok _ _ (by decide)) ⟨rfl, rfl, rfl⟩ trivial (.inl (by decide))
    (fun key _ x _ => by simp [addCls, List.map_map, Function.comp_def]) m objs hn 0 1 5 11
    (by rw [hm]; decide) (by rw [hm]; decide) (by rw [hm]) (by decide) (by decide) (by intro h; cases h)

/-- Two objects interleaved: object 0 encrypts six octets in CBC in two pieces, object 1 decrypts in CTR what object 0 has
written, a store of the caller changes the input between the calls, and `do_final` of object 0 refuses the ragged message. -/
def twoObjects : List Call :=
  [.init 0 0 1, .init 1 0 1, .update 0 8 5 3, .store 5 [9, 9, 9], .update 0 8 5 2, .final 1 12 8 4, .final 0 16 5 1, .reset 0 1,
    .final 0 8 8 8]

def twoCls (k : Nat) : Cls := if k = 0 then addCls .cbcEnc 2 else addCls .ctr 2

/-- What the caller finds afterwards. -/
def twoAfter : Mem := [3, 10, 17, 24, 31, 9, 9, 9, 40, 49, 58, 9, 13, 29, 17, 53, 115, 122, 129, 136]

example (objs : Nat → KeyedMode) (hn : ∀ k, (objs k).obj.buf = []) :
    ∃ w', run twoCls twoObjects ⟨(List.range 20).map (fun x => BitVec.ofNat 8 (7 * x + 3)), objs, []⟩ = .ok w' ∧
      w'.mem = twoAfter ∧ w'.log = [(0, false), (4, false), (4, false), (0, true), (8, false)] := by
  have h : ((MSpec.run twoCls twoObjects ⟨(List.range 20).map (fun x => BitVec.ofNat 8 (7 * x + 3)), fun _ => none,
      fun _ => .clean, []⟩).map fun s => (s.mem, s.log)) =
      some (twoAfter, [(0, false), (4, false), (4, false), (0, true), (8, false)]) := by decide +kernel
  obtain ⟨s', hs, e⟩ := Option.map_eq_some_iff.1 h
  simp only [Prod.mk.injEq] at e
  obtain ⟨w', hw, h1, h2⟩ := C108_history twoCls (fun k => by
    unfold twoCls; split_ifs <;> exact addCls_ok _ _ (by decide)) twoObjects _ objs hn s' hs
  exact ⟨w', hw, h1.trans e.1, h2.trans e.2⟩

end Verif.Props
