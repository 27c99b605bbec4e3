import Verif.Spec.GcmMem
import Verif.Proofs.GcmHist
import Verif.Proofs.ModeMem
/-! # Helper lemmas: programs over several GCM objects -/
namespace Verif.GcmMem
open Verif Verif.HashMem Spec Spec.Modes Spec.Gcm Verif.Gcm Verif.Ghash
open Verif.ModeMem (tail_len grow)

/-- The state of an encryptor that has been fed `X`. -/
def encAt (E : List Byte → List Byte) (s : St) (iv aad t X : List Byte) : St :=
  { s with counter0 := J0 E iv, counter := inc32^[X.length / 16] (inc32 (J0 E iv)),
           hash := ⟨[], (gctrBlocks E (inc32 (J0 E iv)) (chop 16 (X.length / 16) X)).foldl absorbB
             ((blocks 16 (pad16 aad)).foldl absorbB (ghashInit (hashKey E)))⟩,
           aadLen := aad.length, ctLen := X.length / 16 * 16, tag := t }

/-- The state of a decryptor that has been fed `X`. -/
def decAt (E : List Byte → List Byte) (s : St) (iv aad t X : List Byte) : St :=
  { s with counter0 := J0 E iv, counter := inc32^[X.length / 16] (inc32 (J0 E iv)),
           hash := ⟨[], (chop 16 (X.length / 16) X).foldl absorbB
             ((blocks 16 (pad16 aad)).foldl absorbB (ghashInit (hashKey E)))⟩,
           aadLen := aad.length, ctLen := X.length / 16 * 16, tag := t }

theorem tail_short {X : List Byte} (h : X.length < 16) : tail 16 X = X := by
  unfold tail
  rw [Nat.div_eq_of_lt h, Nat.zero_mul, List.drop_zero]

theorem encAt_short {E : List Byte → List Byte} (s : St) (iv aad t : List Byte) {X : List Byte} (h : X.length < 16) :
    encAt E s iv aad t X = initSt E s iv aad t := by
  have e := Nat.div_eq_of_lt h
  simp only [encAt, initSt, e, Nat.zero_mul, chop, gctrBlocks, List.foldl_nil, Function.iterate_zero, id_eq]

theorem decAt_short {E : List Byte → List Byte} (s : St) (iv aad t : List Byte) {X : List Byte} (h : X.length < 16) :
    decAt E s iv aad t X = initSt E s iv aad t := by
  have e := Nat.div_eq_of_lt h
  simp only [decAt, initSt, e, Nat.zero_mul, chop, List.foldl_nil, Function.iterate_zero, id_eq]

theorem enc_init_inv {E : List Byte → List Byte} (s : St) (iv aad t : List Byte) : EncInv (initSt E s iv aad t) :=
  ⟨inc32_len _ (J0_len iv), rfl, Nat.zero_le _⟩

theorem dec_init_inv {E : List Byte → List Byte} (s : St) (hs : s.stat.length = 16) (iv aad t : List Byte) :
    DecInv (initSt E s iv aad t) :=
  ⟨inc32_len _ (J0_len iv), rfl, Nat.two_pow_pos _, hs⟩

theorem enc_feed {E : List Byte → List Byte} (s : St) (iv aad t X : List Byte) (hX : X.length ≤ maxLen) :
    feed 16 (encStep E) ⟨[], initSt E s iv aad t⟩ X =
      .ok (⟨tail 16 X, encAt E s iv aad t X⟩, ciphertext E iv (whole 16 X)) := by
  unfold feed
  simp only [List.nil_append]
  rw [enc_run _ _ (enc_init_inv s iv aad t), chop_len, if_neg (by
    have := Nat.div_mul_le_self X.length 16
    show ¬ (0 + X.length / 16 * 16 > maxLen)
    omega), Outcome.ok_bind, ct_whole]
  simp only [initSt, encAt, Nat.zero_add]
  rfl

theorem dec_feed {E : List Byte → List Byte} (s : St) (hs : s.stat.length = 16) (iv aad t X : List Byte) (hX : X.length ≤ maxLen) :
    feed 16 (decStep E) ⟨[], initSt E s iv aad t⟩ X =
      .ok (⟨tail 16 X, decAt E s iv aad t X⟩, ciphertext E iv (whole 16 X)) := by
  have hmax := maxLen_lt
  unfold feed
  simp only [List.nil_append]
  rw [dec_run _ _ (dec_init_inv s hs iv aad t), chop_len, if_neg (by
    have := Nat.div_mul_le_self X.length 16
    show ¬ (0 + X.length / 16 * 16 ≥ 2 ^ 64)
    omega), Outcome.ok_bind, ct_whole]
  simp only [initSt, decAt, Nat.zero_add]
  rfl

theorem wh_len {E : List Byte → List Byte} (hE : LenOk 16 E) (iv X : List Byte) :
    (ciphertext E iv (whole 16 X)).length = X.length / 16 * 16 := by rw [ct_len hE, whole_len]

/-- Feeding more to something that was fed `X`. -/
theorem more {step : Step St} {h0 h : ModeObj St} {h' : ModeObj St} {X d w w' : List Byte}
    (e : feed 16 step h0 X = .ok (h, w)) (e' : feed 16 step h0 (X ++ d) = .ok (h', w')) :
    feed 16 step h d = .ok (h', w'.drop w.length) := by
  rw [feed_append (by decide), e] at e'
  simp only [Outcome.ok_bind] at e'
  cases hf : feed 16 step h d with
  | throw => rw [hf] at e'; cases e'
  | ub => rw [hf] at e'; cases e'
  | ok r =>
    rw [hf] at e'
    simp only [Outcome.ok_bind, Outcome.ok.injEq, Prod.mk.injEq] at e'
    obtain ⟨r1, r2⟩ := r
    obtain ⟨e1, e2⟩ := e'
    simp only at e1 e2
    rw [← e2, List.drop_left, e1]

theorem enc_more {E : List Byte → List Byte} (hE : LenOk 16 E) (s : St) (iv aad t X d : List Byte)
    (hX : (X ++ d).length ≤ maxLen) :
    feed 16 (encStep E) ⟨tail 16 X, encAt E s iv aad t X⟩ d = .ok (⟨tail 16 (X ++ d), encAt E s iv aad t (X ++ d)⟩,
      (ciphertext E iv (whole 16 (X ++ d))).drop (X.length / 16 * 16)) := by
  have := more (enc_feed s iv aad t X (by rw [List.length_append] at hX; omega)) (enc_feed (E := E) s iv aad t (X ++ d) hX)
  rw [this, wh_len hE]

theorem dec_more {E : List Byte → List Byte} (hE : LenOk 16 E) (s : St) (hs : s.stat.length = 16) (iv aad t X d : List Byte)
    (hX : (X ++ d).length ≤ maxLen) :
    feed 16 (decStep E) ⟨tail 16 X, decAt E s iv aad t X⟩ d = .ok (⟨tail 16 (X ++ d), decAt E s iv aad t (X ++ d)⟩,
      (ciphertext E iv (whole 16 (X ++ d))).drop (X.length / 16 * 16)) := by
  have := more (dec_feed s hs iv aad t X (by rw [List.length_append] at hX; omega))
    (dec_feed (E := E) s hs iv aad t (X ++ d) hX)
  rw [this, wh_len hE]

theorem encAt_inv {E : List Byte → List Byte} (s : St) (iv aad t X : List Byte) (hX : X.length ≤ maxLen) :
    EncInv (encAt E s iv aad t X) :=
  ⟨incN_len _ _ (inc32_len _ (J0_len iv)), rfl, (Nat.div_mul_le_self _ _).trans hX⟩

theorem decAt_inv {E : List Byte → List Byte} (s : St) (hs : s.stat.length = 16) (iv aad t X : List Byte)
    (hX : X.length ≤ maxLen) : DecInv (decAt E s iv aad t X) :=
  ⟨incN_len _ _ (inc32_len _ (J0_len iv)), rfl, ((Nat.div_mul_le_self _ _).trans hX).trans_lt maxLen_lt, hs⟩

/-- One `update`, whatever the class. -/
theorem update_gen {Inv : St → Prop} {step : Step St} {upd : BlockFn St} (hs : StepOk 16 Inv step)
    (hu : BatchesOk true 16 Inv step upd) {X Z : List Byte} {st st' : St} (hi : Inv st) {m : Mem} {o i n : Nat}
    (hp : Placed true 16 (tail 16 X).length m o i n) (hZ : Z.length = (X ++ rdm m i n).length / 16 * 16)
    (hf : feed 16 step ⟨tail 16 X, st⟩ (rdm m i n) =
      .ok (⟨tail 16 (X ++ rdm m i n), st'⟩, Z.drop (X.length / 16 * 16))) :
    modeUpdate 16 ⟨upd, fun _ _ _ _ => .ub⟩ ⟨tail 16 X, st⟩ m o i n 0 =
      .ok (⟨tail 16 (X ++ rdm m i n), st'⟩, wrm m o (Z.drop (X.length / 16 * 16)),
        (X ++ rdm m i n).length / 16 * 16 - X.length / 16 * 16) := by
  have hBS : 0 < 16 := by decide
  have hu' : BatchesOk true 16 Inv step (⟨upd, fun _ _ _ _ => .ub⟩ : ModeImpl St).upd := hu
  rw [modeUpdate_eq (ip := true) hBS hs hu' ⟨tail 16 X, st⟩ hi (tail_lt hBS X) m o i n 0 hp, hf, Outcome.ok_bind]
  simp only [Outcome.ok.injEq, Prod.mk.injEq, true_and]
  have hg := grow hBS X n
  rw [List.length_drop, hZ]
  split_ifs with hc
  · rw [List.length_append, rdm_len hp.1, hg, Nat.div_eq_of_lt hc.2.2, Nat.zero_mul]
  · rfl

/-- One `do_final`, whatever the class. -/
theorem final_gen {Inv : St → Prop} {step : Step St} {fstep : StepX} {upd : BlockFn St}
    {fin : St → Mem → List Byte → Nat → Outcome (St × Mem × Bool)} (hs : StepOk 16 Inv step)
    (hu : BatchesOk true 16 Inv step upd) (hfs : FStepXOk Inv fstep) (hfin : FinXOk Inv fstep fin) {X Z w : List Byte} {st st' st'' : St} {rej : Bool}
    (hi : Inv st) (hi' : Inv st') {m : Mem} {o i n : Nat}
    (hp : Placed true 16 (tail 16 X).length m o i n) (ho : o + ((X ++ rdm m i n).length - X.length / 16 * 16) ≤ m.length)
    (hZ : Z.length = (X ++ rdm m i n).length / 16 * 16)
    (hf : feed 16 step ⟨tail 16 X, st⟩ (rdm m i n) =
      .ok (⟨tail 16 (X ++ rdm m i n), st'⟩, Z.drop (X.length / 16 * 16)))
    (he : fstep st' (tail 16 (X ++ rdm m i n)) = .ok (st'', w, rej)) :
    finalX upd fin ⟨tail 16 X, st⟩ m o i n 0 =
      .ok (⟨tail 16 (X ++ rdm m i n), st''⟩, wrm m o ((Z ++ w).drop (X.length / 16 * 16)),
        if rej then (X ++ rdm m i n).length / 16 * 16 - X.length / 16 * 16 else (X ++ rdm m i n).length - X.length / 16 * 16,
        rej) := by
  have hk := tail_len (b := 16) (X ++ rdm m i n)
  have hYl : (X ++ rdm m i n).length = X.length + n := by rw [List.length_append, rdm_len hp.1]
  have hmono : X.length / 16 * 16 ≤ (X ++ rdm m i n).length / 16 * 16 :=
    Nat.mul_le_mul_right _ (Nat.div_le_div_right (by omega))
  have hdl : (Z.drop (X.length / 16 * 16)).length = (X ++ rdm m i n).length / 16 * 16 - X.length / 16 * 16 := by
    rw [List.length_drop, hZ]
  have hwl := hfs _ _ _ _ _ hi' (tail_lt (by decide) _) he
  unfold finalX
  rw [update_gen hs hu hi hp hZ hf]
  simp only [Outcome.ok_bind]
  generalize hY : X ++ rdm m i n = Y at *
  rw [hfin st' _ (tail 16 Y) _ hi' (tail_lt (by decide) Y) (by rw [wrm_len (by omega)]; omega), he]
  simp only [Outcome.ok_bind, Outcome.ok.injEq, Prod.mk.injEq, true_and, and_true]
  refine ⟨?_, ?_⟩
  · rw [List.drop_append_of_le_length (by omega), ← hdl, wrm_wrm (by omega)]
  · cases rej
    · simp only [Bool.false_eq_true, if_false]; omega
    · rfl

attribute [local irreducible] absorbB digest lenBlock in
/-- The end of an encryption. -/
theorem enc_end {E : List Byte → List Byte} (hE : LenOk 16 E) (s : St) (iv aad t X : List Byte) (hX : X.length ≤ maxLen) :
    ∃ st w, encTailX E (encAt E s iv aad t X) (tail 16 X) = .ok (st, w, false) ∧
      ciphertext E iv X = ciphertext E iv (whole 16 X) ++ w ∧ st.hash.buf = [] ∧
      st.tag = Spec.Gcm.tag E iv aad (ciphertext E iv X) := by
  have hle := Nat.div_mul_le_self X.length 16
  have hcl := chop_mem (BS := 16) (l := X) (n := X.length / 16) hle
  have hgl := gctrBlocks_len hE (inc32 (J0 E iv)) (inc32_len _ (J0_len iv)) _ hcl
  have hk := tail_len (b := 16) X
  have hc : ¬ ((encAt E s iv aad t X).ctLen + (tail 16 X).length > maxLen) := by
    show ¬ (X.length / 16 * 16 + (tail 16 X).length > maxLen)
    omega
  unfold encTailX encTail
  rw [if_neg hc, Outcome.ok_bind]
  dsimp only [encAt]
  refine ⟨_, _, rfl, ?_, rfl, ?_⟩
  · rw [ct_whole, ct_split]
  · dsimp only
    have hpp : pad16 (ciphertext E iv X) = (gctrBlocks E (inc32 (J0 E iv)) (chop 16 (X.length / 16) X)).flatten ++
        pad16 (xorB (tail 16 X) (E (inc32^[X.length / 16] (inc32 (J0 E iv))))) := by
      rw [ct_split]; exact pad_split _ hgl _
    have tp := tag_parts hE aad (pad16 (ciphertext E iv X)) (pad_len _) (aad.length * 8) (X.length * 8)
    conv at tp => lhs; rw [hpp, pad_blocks _ hgl _ (pad_len _), List.foldl_append]
    unfold Spec.Gcm.tag
    rw [ct_len hE, Nat.mul_comm 8, Nat.mul_comm 8, ← tp]
    have e : X.length / 16 * 16 + (tail 16 X).length = X.length := by omega
    rw [e]

attribute [local irreducible] absorbB digest lenBlock in
/-- The end of a decryption. -/
theorem dec_end {E : List Byte → List Byte} (hE : LenOk 16 E) (s : St) (hst : s.stat.length = 16) (iv aad t X : List Byte)
    (hX : X.length ≤ maxLen) :
    ∃ st w, decTailX E (decAt E s iv aad t X) (tail 16 X) =
        .ok (st, w, decide (tagWith E iv aad X s.stat ≠ t)) ∧
      ciphertext E iv X = ciphertext E iv (whole 16 X) ++ w ∧ st.hash.buf = [] ∧ st.stat = E (J0 E iv) ∧ st.tag = t := by
  have hmax := maxLen_lt
  have hle := Nat.div_mul_le_self X.length 16
  have hcl := chop_mem (BS := 16) (l := X) (n := X.length / 16) hle
  have hk := tail_len (b := 16) X
  have hc : ¬ ((decAt E s iv aad t X).ctLen + (tail 16 X).length ≥ 2 ^ 64) := by
    show ¬ (X.length / 16 * 16 + (tail 16 X).length ≥ 2 ^ 64)
    omega
  unfold decTailX
  rw [if_neg hc]
  dsimp only [decAt]
  have hm : X.length % 16 = (tail 16 X).length % 16 := by omega
  have hrp : (tail 16 X ++ s.stat.take ((16 - (tail 16 X).length % 16) % 16)).length % 16 = 0 := by
    rw [List.length_append, List.length_take, hst]; omega
  have hsp : (chop 16 (X.length / 16) X).flatten ++ tail 16 X = X := by
    unfold tail
    rw [chop_flatten, List.take_append_drop]
  have hpad : X ++ s.stat.take ((16 - X.length % 16) % 16) = (chop 16 (X.length / 16) X).flatten ++
      (tail 16 X ++ s.stat.take ((16 - (tail 16 X).length % 16) % 16)) := by
    rw [← List.append_assoc, hsp, hm]
  have hpm : (X ++ s.stat.take ((16 - X.length % 16) % 16)).length % 16 = 0 := by
    rw [List.length_append, List.length_take, hst]; omega
  have tp := tag_parts hE aad _ hpm (aad.length * 8) (X.length * 8)
  conv at tp => lhs; rw [hpad, pad_blocks _ hcl _ hrp, List.foldl_append]
  have e : X.length / 16 * 16 + (tail 16 X).length = X.length := by omega
  have et : xorB (digest (absorbB ((blocks 16 (tail 16 X ++
      s.stat.take ((16 - (tail 16 X).length % 16) % 16))).foldl absorbB
        ((chop 16 (X.length / 16) X).foldl absorbB ((blocks 16 (pad16 aad)).foldl absorbB (ghashInit (hashKey E)))))
      (lenBlock (aad.length * 8) ((X.length / 16 * 16 + (tail 16 X).length) * 8))))
      (E (J0 E iv)) = tagWith E iv aad X s.stat := by
    unfold tagWith
    rw [e, tp, Nat.mul_comm 8, Nat.mul_comm 8]
  refine ⟨_, _, congrArg Outcome.ok (congrArg₂ Prod.mk rfl (congrArg₂ Prod.mk rfl
    (decide_eq_decide.2 (not_congr (Eq.congr_left et))))), ?_, rfl, rfl, rfl⟩
  rw [ct_whole, ct_split]

end Verif.GcmMem

namespace Verif.GcmMem
open Verif Verif.HashMem Spec Spec.Modes Spec.Gcm Verif.Gcm Verif.Ghash
open Verif.ModeMem (tail_len grow)

/-- What a class must be: batches are not empty, and a key of the right length preserves the block length. -/
structure ClsOk (c : Cls) : Prop where
  par : 0 < c.PAR
  len : ∀ key, key.length = c.keyLen → ∀ x, x.length = 16 → (c.sched key x).length = 16

/-- An encryptor or decryptor as the specification sees it; `at'` is its state inside a message. -/
structure ObjInv (at' : (List Byte → List Byte) → St → List Byte → List Byte → List Byte → List Byte → St)
    (b : Obj) (ph : Phase) (tg : Option (List Byte)) : Prop where
  hash : b.obj.st.hash.buf = []
  tag : ∀ t, tg = some t → b.obj.st.tag = t
  buf : b.obj.buf = ph.left
  short : ph.left.length < 16
  inside : ∀ E iv aad X, ph = .within E iv aad X → b.E = E ∧ LenOk 16 E ∧ X.length ≤ maxLen ∧
    ∃ s, b.obj = ⟨tail 16 X, at' E s iv aad b.obj.st.tag X⟩

structure WInv (w : World) (s : GSpec) : Prop where
  mem : w.mem = s.mem
  log : w.log = s.log
  stat : w.stat = s.pad
  pad : s.pad.length = 16
  enc : ∀ k, ObjInv encAt (w.enc k) (s.enc k) (s.etag k)
  dec : ∀ k, ObjInv decAt (w.dec k) (s.dec k) (s.dtag k)

theorem put_inv {at'} {ob : Nat → Obj} {ph : Nat → Phase} {tg : Nat → Option (List Byte)}
    (h : ∀ k, ObjInv at' (ob k) (ph k) (tg k)) (k : Nat) {b : Obj} {p : Phase} {t : Option (List Byte)}
    (hk : ObjInv at' b p t) :
    ∀ j, ObjInv at' (put ob k b j) (Function.update ph k p j) (Function.update tg k t j) := by
  intro j
  unfold put
  split_ifs with e
  · subst e; rw [Function.update_self, Function.update_self]; exact hk
  · rw [Function.update_of_ne e, Function.update_of_ne e]; exact h j

theorem put_ph {at'} {ob : Nat → Obj} {ph : Nat → Phase} {tg : Nat → Option (List Byte)}
    (h : ∀ k, ObjInv at' (ob k) (ph k) (tg k)) (k : Nat) {b : Obj} {p : Phase} (hk : ObjInv at' b p (tg k)) :
    ∀ j, ObjInv at' (put ob k b j) (Function.update ph k p j) (tg j) := by
  have := put_inv h k hk
  rwa [Function.update_eq_self] at this

theorem put_tg {at'} {ob : Nat → Obj} {ph : Nat → Phase} {tg : Nat → Option (List Byte)}
    (h : ∀ k, ObjInv at' (ob k) (ph k) (tg k)) (k : Nat) {b : Obj} {t : Option (List Byte)} (hk : ObjInv at' b (ph k) t) :
    ∀ j, ObjInv at' (put ob k b j) (ph j) (Function.update tg k t j) := by
  have := put_inv h k hk
  rwa [Function.update_eq_self] at this

/-- What `init` needs and gives. -/
theorem begun_some {c : Cls} (hc : ClsOk c) {m : Mem} {left : List Byte} {q p l a n : Nat} {ph : Phase}
    (h : begun c m left q p l a n = some ph) :
    q + c.keyLen ≤ m.length ∧ p + l ≤ m.length ∧ a + n ≤ m.length ∧ (rdm m a n).length ≤ maxLen ∧
      LenOk 16 (c.sched (rdm m q c.keyLen)) ∧
      ph = .within (c.sched (rdm m q c.keyLen)) (rdm m p l) (rdm m a n) left := by
  unfold begun at h
  split_ifs at h with hb
  obtain ⟨h1, h2, h3, h4⟩ := hb
  simp only [Option.some.injEq] at h
  exact ⟨h1, h2, h3, by rw [rdm_len h3]; exact h4, hc.len _ (rdm_len h1), h.symm⟩

theorem fits_update {m : Mem} {o i n : Nat} {X : List Byte}
    (h : Fits m o i n (tail 16 X).length ((X ++ rdm m i n).length / 16 * 16 - X.length / 16 * 16) (X ++ rdm m i n).length) :
    Placed true 16 (tail 16 X).length m o i n ∧ (X ++ rdm m i n).length ≤ maxLen := by
  obtain ⟨f1, f2, f3, f4⟩ := h
  have hg := grow (b := 16) (by decide) X n
  refine ⟨?_, f4⟩
  rw [List.length_append, rdm_len f1, hg] at f2 f3
  exact ⟨f1, f2, f3.imp_right (Or.imp_right fun b => ⟨rfl, b⟩)⟩

theorem fits_final {m : Mem} {o i n : Nat} {X : List Byte}
    (h : Fits m o i n (tail 16 X).length ((X ++ rdm m i n).length - X.length / 16 * 16) (X ++ rdm m i n).length) :
    Placed true 16 (tail 16 X).length m o i n ∧ o + ((X ++ rdm m i n).length - X.length / 16 * 16) ≤ m.length ∧
      (X ++ rdm m i n).length ≤ maxLen := by
  obtain ⟨f1, f2, f3, f4⟩ := h
  refine ⟨?_, f2, f4⟩
  have hk0 := tail_len (b := 16) X
  have hle := Nat.div_mul_le_self ((tail 16 X).length + n) 16
  rw [List.length_append, rdm_len f1] at f2 f3
  refine ⟨f1, by omega, ?_⟩
  rcases f3 with f3 | f3 | f3
  · exact .inl f3
  · exact .inr (.inl (by omega))
  · exact .inr (.inr ⟨rfl, f3⟩)

theorem log_eq {p q : List Byte} (a b : Nat) :
    ((if decide (p ≠ q) = true then a else b, decide (p ≠ q)) : Nat × Bool) = if p = q then (b, false) else (a, true) := by
  by_cases h : p = q <;> simp [h]

attribute [local irreducible] absorbB digest lenBlock ciphertext gctrBlocks ghashInit tagWith J0 inc32 in
set_option maxHeartbeats 400000 in
theorem call_ok {c : Cls} (hc : ClsOk c) {w : World} {s s' : GSpec} (hi : WInv w s) {x : Call}
    (h : s.call c x = some s') : ∃ w', call c w x = .ok w' ∧ WInv w' s' := by
  obtain ⟨hm, hlg, hst, hpd, he, hd⟩ := hi
  obtain ⟨wm, we, wd, ws, wl⟩ := w
  simp only at hm hlg hst he hd
  subst hm hlg hst
  cases x with
  | store p bs =>
    simp only [GSpec.call] at h
    split_ifs at h with hb
    simp only [Option.some.injEq] at h
    subst h
    exact ⟨_, by simp only [call]; rw [if_pos hb], rfl, rfl, rfl, hpd, he, hd⟩
  | encInit k q p l a n =>
    simp only [GSpec.call, Option.map_eq_some_iff] at h
    obtain ⟨ph, hph, rfl⟩ := h
    obtain ⟨h1, h2, h3, h4, hE, rfl⟩ := begun_some hc hph
    have hk := he k
    refine ⟨_, by
      simp only [call, HashMem.get]
      rw [if_pos h1, Outcome.ok_bind, if_pos h2, Outcome.ok_bind, if_pos h3, Outcome.ok_bind,
        encInit_spec hE _ hk.hash _ _ h4, Outcome.ok_bind], rfl, rfl, rfl, hpd, put_inv he k ?_, hd⟩
    refine ⟨rfl, fun t ht => by simp only [Option.some.injEq] at ht; exact ht, ?_, tail_lt (by decide) _,
      fun E iv aad X hX => ?_⟩
    · show (we k).obj.buf = tail 16 (s.enc k).left; rw [tail_short hk.short, hk.buf]
    · simp only [Phase.within.injEq] at hX
      obtain ⟨rfl, rfl, rfl, rfl⟩ := hX
      refine ⟨rfl, hE, (hk.short.le.trans (by decide)), (we k).obj.st, ?_⟩
      rw [encAt_short _ _ _ _ hk.short, tail_short hk.short, hk.buf]
      rfl
  | encUpdate k o i n =>
    simp only [GSpec.call] at h
    cases hp : s.enc k with
    | idle l => simp [hp] at h
    | within E iv aad X =>
      simp only [hp] at h
      split_ifs at h with hf
      simp only [Option.some.injEq] at h
      subst h
      have hk := he k
      obtain ⟨eE, hE, hX, s0, eo⟩ := hk.inside _ _ _ _ hp
      obtain ⟨hpl, hY⟩ := fits_update hf
      have hu := update_gen (encStep_ok (E := E) hE) (encUpd_ok (C := ⟨16, c.PAR, E, E⟩) rfl hc.par hE)
        (encAt_inv (E := E) s0 iv aad (we k).obj.st.tag X hX) hpl (wh_len hE iv (X ++ rdm s.mem i n)) (enc_more hE s0 iv aad _ X _ hY)
      rw [← eo] at hu
      refine ⟨_, by simp only [call]; rw [eE, hu, Outcome.ok_bind], rfl, rfl, rfl, hpd, put_ph he k ?_, hd⟩
      refine ⟨rfl, hk.tag, rfl, tail_lt (by decide) _, fun E' iv' aad' X' hX' => ?_⟩
      simp only [Phase.within.injEq] at hX'
      obtain ⟨rfl, rfl, rfl, rfl⟩ := hX'
      exact ⟨rfl, hE, hY, s0, rfl⟩
  | encFinal k o i n =>
    simp only [GSpec.call] at h
    cases hp : s.enc k with
    | idle l => simp [hp] at h
    | within E iv aad X =>
      simp only [hp] at h
      split_ifs at h with hf
      simp only [Option.some.injEq] at h
      subst h
      have hk := he k
      obtain ⟨eE, hE, hX, s0, eo⟩ := hk.inside _ _ _ _ hp
      obtain ⟨hpl, ho, hY⟩ := fits_final hf
      obtain ⟨st, w, e1, e2, e3, e4⟩ := enc_end hE s0 iv aad (we k).obj.st.tag (X ++ rdm s.mem i n) hY
      have hu := final_gen (encStep_ok (E := E) hE) (encUpd_ok (C := ⟨16, c.PAR, E, E⟩) rfl hc.par hE) (encTailX_ok hE)
        (encFinX_ok (C := ⟨16, c.PAR, E, E⟩) rfl hE)
        (encAt_inv (E := E) s0 iv aad (we k).obj.st.tag X hX) (encAt_inv s0 iv aad _ _ hY) hpl ho
        (wh_len hE iv (X ++ rdm s.mem i n)) (enc_more hE s0 iv aad _ X _ hY) e1
      rw [← eo, ← e2] at hu
      refine ⟨_, by simp only [call]; rw [eE, hu, Outcome.ok_bind], rfl, rfl, rfl, hpd, put_inv he k ?_, hd⟩
      exact ⟨e3, fun t ht => by simp only [Option.some.injEq] at ht; rw [← ht]; exact e4, rfl, tail_lt (by decide) _,
        fun E' iv' aad' X' hX' => by cases hX'⟩
  | getTag k p =>
    simp only [GSpec.call] at h
    cases ht : s.etag k with
    | none => simp [ht] at h
    | some t =>
      simp only [ht] at h
      split_ifs at h with hb
      simp only [Option.some.injEq] at h
      subst h
      exact ⟨_, by simp only [call]; rw [if_pos hb, (he k).tag t ht], rfl, rfl, rfl, hpd, he, hd⟩
  | decInit k q p l a n =>
    simp only [GSpec.call, Option.map_eq_some_iff] at h
    obtain ⟨ph, hph, rfl⟩ := h
    obtain ⟨h1, h2, h3, h4, hE, rfl⟩ := begun_some hc hph
    have hk := hd k
    refine ⟨_, by
      simp only [call, HashMem.get]
      rw [if_pos h1, Outcome.ok_bind, if_pos h2, Outcome.ok_bind, if_pos h3, Outcome.ok_bind,
        decInit_spec hE _ hk.hash _ _ h4, Outcome.ok_bind], rfl, rfl, rfl, hpd, he, put_ph hd k ?_⟩
    refine ⟨rfl, hk.tag, ?_, tail_lt (by decide) _, fun E iv aad X hX => ?_⟩
    · show (wd k).obj.buf = tail 16 (s.dec k).left; rw [tail_short hk.short, hk.buf]
    · simp only [Phase.within.injEq] at hX
      obtain ⟨rfl, rfl, rfl, rfl⟩ := hX
      refine ⟨rfl, hE, (hk.short.le.trans (by decide)), (wd k).obj.st, ?_⟩
      rw [decAt_short _ _ _ _ hk.short, tail_short hk.short, hk.buf]
      rfl
  | setTag k p =>
    simp only [GSpec.call] at h
    split_ifs at h with hb
    simp only [Option.some.injEq] at h
    subst h
    have hk := hd k
    refine ⟨_, by simp only [call, HashMem.get]; rw [if_pos hb, Outcome.ok_bind], rfl, rfl, rfl, hpd, he, put_tg hd k ?_⟩
    refine ⟨hk.hash, fun t ht => by simp only [Option.some.injEq] at ht; exact ht, hk.buf, hk.short, fun E iv aad X hX => ?_⟩
    obtain ⟨eE, hE, hXl, s0, eo⟩ := hk.inside _ _ _ _ hX
    exact ⟨eE, hE, hXl, s0, by rw [Gcm.setTag, eo]; rfl⟩
  | decUpdate k o i n =>
    simp only [GSpec.call] at h
    cases hp : s.dec k with
    | idle l => simp [hp] at h
    | within E iv aad X =>
      simp only [hp] at h
      split_ifs at h with hf
      simp only [Option.some.injEq] at h
      subst h
      have hk := hd k
      obtain ⟨eE, hE, hX, s0, eo⟩ := hk.inside _ _ _ _ hp
      obtain ⟨hpl, hY⟩ := fits_update hf
      have hv : view s.pad (wd k).obj =
          ⟨tail 16 X, decAt E { s0 with stat := s.pad } iv aad (wd k).obj.st.tag X⟩ := by
        conv_lhs => rw [eo]
        rfl
      have hu := update_gen (decStep_ok (E := E) hE) (decUpd_ok (C := ⟨16, c.PAR, E, E⟩) rfl hc.par hE)
        (decAt_inv (E := E) { s0 with stat := s.pad } hpd iv aad (wd k).obj.st.tag X hX) hpl
        (wh_len hE iv (X ++ rdm s.mem i n)) (dec_more hE { s0 with stat := s.pad } hpd iv aad _ X _ hY)
      rw [← hv] at hu
      refine ⟨_, by simp only [call]; rw [eE, hu, Outcome.ok_bind], rfl, rfl, rfl, hpd, he, put_ph hd k ?_⟩
      refine ⟨rfl, hk.tag, rfl, tail_lt (by decide) _, fun E' iv' aad' X' hX' => ?_⟩
      simp only [Phase.within.injEq] at hX'
      obtain ⟨rfl, rfl, rfl, rfl⟩ := hX'
      exact ⟨rfl, hE, hY, _, rfl⟩
  | decFinal k o i n =>
    simp only [GSpec.call] at h
    cases hp : s.dec k with
    | idle l => simp [hp] at h
    | within E iv aad X =>
      cases ht : s.dtag k with
      | none => simp [hp, ht] at h
      | some t =>
        simp only [hp, ht] at h
        rw [Option.ite_none_right_eq_some] at h
        obtain ⟨hf, h⟩ := h
        simp only [Option.some.injEq] at h
        subst h
        have hk := hd k
        obtain ⟨eE, hE, hX, s0, eo⟩ := hk.inside _ _ _ _ hp
        obtain ⟨hpl, ho, hY⟩ := fits_final hf
        have hv : view s.pad (wd k).obj =
            ⟨tail 16 X, decAt E { s0 with stat := s.pad } iv aad (wd k).obj.st.tag X⟩ := by
          conv_lhs => rw [eo]
          rfl
        obtain ⟨st, w, e1, e2, e3, e4, e5⟩ := dec_end hE { s0 with stat := s.pad } hpd iv aad (wd k).obj.st.tag
          (X ++ rdm s.mem i n) hY
        have hu := final_gen (decStep_ok (E := E) hE) (decUpd_ok (C := ⟨16, c.PAR, E, E⟩) rfl hc.par hE) (decTailX_ok hE)
          (decFinX_ok (C := ⟨16, c.PAR, E, E⟩) rfl)
          (decAt_inv (E := E) { s0 with stat := s.pad } hpd iv aad (wd k).obj.st.tag X hX)
          (decAt_inv { s0 with stat := s.pad } hpd iv aad _ _ hY) hpl ho
          (wh_len hE iv (X ++ rdm s.mem i n)) (dec_more hE { s0 with stat := s.pad } hpd iv aad _ X _ hY) e1
        rw [← hv, ← e2, hk.tag t ht, log_eq] at hu
        refine ⟨_, by simp only [call]; rw [eE, hu, Outcome.ok_bind], rfl, rfl, e4, hE _ (J0_len iv), he, put_ph hd k ?_⟩
        exact ⟨e3, fun t' ht' => e5.trans (hk.tag t' ht'), rfl, tail_lt (by decide) _, fun E' iv' aad' X' hX' => by cases hX'⟩

theorem run_ok {c : Cls} (hc : ClsOk c) (xs : List Call) : ∀ {w : World} {s s' : GSpec}, WInv w s →
    GSpec.run c xs s = some s' → ∃ w', run c xs w = .ok w' ∧ WInv w' s' := by
  induction xs with
  | nil =>
    intro w s s' hi h
    simp only [GSpec.run, Option.some.injEq] at h
    subst h
    exact ⟨w, rfl, hi⟩
  | cons x xs ih =>
    intro w s s' hi h
    simp only [GSpec.run, Option.bind_eq_some_iff] at h
    obtain ⟨s1, h1, h2⟩ := h
    obtain ⟨w1, e1, i1⟩ := call_ok hc hi h1
    obtain ⟨w', e, i'⟩ := ih i1 h2
    exact ⟨w', by simp only [run]; rw [e1, Outcome.ok_bind, e], i'⟩

end Verif.GcmMem
