import Verif.Model.Modes
import Verif.Spec.Modes
import Verif.Proofs.Hash
/-! # Helper lemmas: flat memory, block drivers, and the streaming base class -/
namespace Verif
open Spec.Modes

/-! ## Memory -/

theorem wrm_get {m : Mem} {o : Nat} {bs : List Byte} (h : o + bs.length ≤ m.length) (k : Nat) :
    (wrm m o bs)[k]? = if k < o then m[k]? else if k < o + bs.length then bs[k - o]? else m[k]? := by
  unfold wrm
  have ht : (m.take o).length = o := by simp only [List.length_take]; omega
  by_cases h1 : k < o
  · rw [if_pos h1, List.append_assoc, List.getElem?_append_left (by omega), List.getElem?_take_of_lt h1]
  · rw [if_neg h1]
    by_cases h2 : k < o + bs.length
    · rw [if_pos h2, List.append_assoc, List.getElem?_append_right (by omega), ht,
        List.getElem?_append_left (by omega)]
    · rw [if_neg h2, List.getElem?_append_right (by rw [List.length_append]; omega), List.length_append, ht,
        List.getElem?_drop]
      congr 1; omega

theorem rdm_get (m : Mem) (p n k : Nat) : (rdm m p n)[k]? = if k < n then m[p + k]? else none := by
  unfold rdm
  rw [List.getElem?_take]
  split_ifs
  · rw [List.getElem?_drop]
  · rfl

theorem rdm_len {m : Mem} {p n : Nat} (h : p + n ≤ m.length) : (rdm m p n).length = n := by
  unfold rdm; rw [List.length_take, List.length_drop]; omega

theorem wrm_len {m : Mem} {o : Nat} {bs : List Byte} (h : o + bs.length ≤ m.length) :
    (wrm m o bs).length = m.length := by
  unfold wrm; simp only [List.length_append, List.length_take, List.length_drop]; omega

theorem rdm_wrm_disj {m : Mem} {o p n : Nat} {bs : List Byte} (h : o + bs.length ≤ m.length)
    (hd : p + n ≤ o ∨ o + bs.length ≤ p) : rdm (wrm m o bs) p n = rdm m p n := by
  apply List.ext_getElem?; intro k
  rw [rdm_get, rdm_get]
  split_ifs with hk
  · rw [wrm_get h]
    split_ifs <;> first | rfl | omega
  · rfl

theorem rdm_wrm_same {m : Mem} {o : Nat} {bs : List Byte} (h : o + bs.length ≤ m.length) :
    rdm (wrm m o bs) o bs.length = bs := by
  apply List.ext_getElem?; intro k
  rw [rdm_get]
  split_ifs with hk
  · rw [wrm_get h, if_neg (by omega), if_pos (by omega)]; congr 1; omega
  · rw [List.getElem?_eq_none (by omega)]

theorem wrm_nil (m : Mem) (o : Nat) : wrm m o [] = m := by
  unfold wrm; simp

theorem wrm_wrm {m : Mem} {o : Nat} {a b : List Byte} (h : o + a.length + b.length ≤ m.length) :
    wrm (wrm m o a) (o + a.length) b = wrm m o (a ++ b) := by
  apply List.ext_getElem?; intro k
  have h1 := wrm_len (m := m) (o := o) (bs := a) (by omega)
  rw [wrm_get (by omega), wrm_get (by omega), wrm_get (by rw [List.length_append]; omega), List.length_append]
  by_cases c1 : k < o
  · simp [c1, show k < o + a.length by omega]
  · by_cases c2 : k < o + a.length
    · rw [if_pos c2, if_neg c1, if_pos c2, if_neg c1, if_pos (by omega), List.getElem?_append_left (by omega)]
    · by_cases c3 : k < o + a.length + b.length
      · rw [if_neg c2, if_pos c3, if_neg c1, if_pos (by omega), List.getElem?_append_right (by omega)]
        congr 1; omega
      · rw [if_neg c2, if_neg c3, if_neg c1, if_neg c2, if_neg c1, if_neg (by omega)]

theorem rdm_append (m : Mem) (p a b : Nat) : rdm m p (a + b) = rdm m p a ++ rdm m (p + a) b := by
  unfold rdm; rw [List.take_add, List.drop_drop]

theorem rdm_take (m : Mem) (p n k : Nat) (h : k ≤ n) : (rdm m p n).take k = rdm m p k := by
  unfold rdm; rw [List.take_take, Nat.min_eq_left h]

theorem rdm_drop (m : Mem) (p n k : Nat) : (rdm m p n).drop k = rdm m (p + k) (n - k) := by
  unfold rdm; rw [List.drop_take, List.drop_drop]

theorem Src.read_take (m : Mem) (src : Src) {n k : Nat} (h : k ≤ n) : (src.read m n).take k = src.read m k := by
  cases src with
  | ptr p => exact rdm_take m p n k h
  | buf b => simp only [Src.read, List.take_take, Nat.min_eq_left h]

theorem Src.read_drop (m : Mem) (src : Src) (n k : Nat) : (src.read m n).drop k = (src.adv k).read m (n - k) := by
  cases src with
  | ptr p => exact rdm_drop m p n k
  | buf b => simp only [Src.read, Src.adv, List.drop_take]

/-! ## Block lists -/

/-- First `n` blocks. -/
def chop (BS : Nat) : Nat → List Byte → List (List Byte)
  | 0, _ => []
  | n + 1, l => l.take BS :: chop BS n (l.drop BS)

theorem chop_len (BS n : Nat) (l : List Byte) : (chop BS n l).length = n := by
  induction n generalizing l with
  | zero => rfl
  | succ n ih => simp [chop, ih]

theorem chop_mem {BS n : Nat} {l : List Byte} (h : n * BS ≤ l.length) : ∀ b ∈ chop BS n l, b.length = BS := by
  induction n generalizing l with
  | zero => simp [chop]
  | succ n ih =>
    rw [Nat.succ_mul] at h
    intro b hb
    simp only [chop, List.mem_cons] at hb
    rcases hb with rfl | hb
    · rw [List.length_take]; omega
    · exact ih (by rw [List.length_drop]; omega) b hb

theorem chop_flatten {BS n : Nat} {l : List Byte} : (chop BS n l).flatten = l.take (n * BS) := by
  induction n generalizing l with
  | zero => simp [chop]
  | succ n ih =>
    rw [chop, List.flatten_cons, ih, Nat.succ_mul, Nat.add_comm, List.take_add]

theorem chop_add (BS a b : Nat) (l : List Byte) : chop BS (a + b) l = chop BS a l ++ chop BS b (l.drop (a * BS)) := by
  induction a generalizing l with
  | zero => simp [chop]
  | succ a ih =>
    rw [Nat.succ_add, chop, ih, chop, List.cons_append, List.drop_drop, Nat.succ_mul, Nat.add_comm BS]

theorem chop_append_left {BS n : Nat} {l e : List Byte} (h : n * BS ≤ l.length) : chop BS n (l ++ e) = chop BS n l := by
  induction n generalizing l with
  | zero => rfl
  | succ n ih =>
    rw [Nat.succ_mul] at h
    rw [chop, chop, List.take_append_of_le_length (by omega), List.drop_append_of_le_length (by omega),
      ih (by rw [List.length_drop]; omega)]

theorem flatten_len {BS : Nat} {bl : List (List Byte)} (h : ∀ b ∈ bl, b.length = BS) :
    bl.flatten.length = bl.length * BS := by
  induction bl with
  | nil => simp
  | cons b bs ih =>
    rw [List.flatten_cons, List.length_append, h b (by simp), ih (fun c hc => h c (by simp [hc])),
      List.length_cons, Nat.succ_mul, Nat.add_comm]

theorem mapBlocks_eq {f : List Byte → List Byte} {BS : Nat} {bl : List (List Byte)} (h : ∀ b ∈ bl, b.length = BS) :
    mapBlocks f BS bl.length bl.flatten = (bl.map f).flatten := by
  induction bl with
  | nil => rfl
  | cons b bs ih =>
    have hb := h b (by simp)
    rw [List.length_cons, mapBlocks, List.flatten_cons, ← hb, List.take_left, List.drop_left, hb,
      ih (fun c hc => h c (by simp [hc])), List.map_cons, List.flatten_cons]

/-! ## Mealy machines over blocks -/

abbrev Step (S : Type) := S → List Byte → Outcome (S × List Byte)

def runBlocks {S} (step : Step S) : S → List (List Byte) → Outcome (S × List Byte)
  | s, [] => .ok (s, [])
  | s, b :: bs => step s b >>= fun r => runBlocks step r.1 bs >>= fun r' => .ok (r'.1, r.2 ++ r'.2)

theorem runBlocks_append {S} (step : Step S) (s : S) (a b : List (List Byte)) :
    runBlocks step s (a ++ b) = (runBlocks step s a >>= fun r =>
      runBlocks step r.1 b >>= fun r' => .ok (r'.1, r.2 ++ r'.2)) := by
  induction a generalizing s with
  | nil =>
    simp only [List.nil_append, runBlocks, Outcome.ok_bind]
    cases runBlocks step s b <;> rfl
  | cons x xs ih =>
    simp only [List.cons_append, runBlocks, ih, bind_assoc, Outcome.ok_bind, List.append_assoc]

/-- The step keeps an invariant of the state and writes whole blocks. -/
def StepOk {S} (BS : Nat) (Inv : S → Prop) (step : Step S) : Prop :=
  ∀ s b s' c, Inv s → b.length = BS → step s b = .ok (s', c) → Inv s' ∧ c.length = BS

theorem runBlocks_ok {S} {BS : Nat} {Inv : S → Prop} {step : Step S} (hs : StepOk BS Inv step) :
    ∀ (bl : List (List Byte)) (s s' : S) (w : List Byte), Inv s → (∀ b ∈ bl, b.length = BS) →
      runBlocks step s bl = .ok (s', w) → Inv s' ∧ w.length = bl.length * BS := by
  intro bl
  induction bl with
  | nil =>
    intro s s' w hi _ h
    simp only [runBlocks, Outcome.ok.injEq, Prod.mk.injEq] at h
    obtain ⟨rfl, rfl⟩ := h
    simp [hi]
  | cons b bs ih =>
    intro s s' w hi hl h
    simp only [runBlocks] at h
    cases h1 : step s b with
    | throw => rw [h1] at h; cases h
    | ub => rw [h1] at h; cases h
    | ok r =>
      obtain ⟨s1, c⟩ := r
      rw [h1, Outcome.ok_bind] at h
      obtain ⟨hi1, hc⟩ := hs s b s1 c hi (hl b (by simp)) h1
      cases h2 : runBlocks step s1 bs with
      | throw => simp only [h2] at h; cases h
      | ub => simp only [h2] at h; cases h
      | ok r =>
        obtain ⟨s2, w2⟩ := r
        simp only [h2, Outcome.ok_bind, Outcome.ok.injEq, Prod.mk.injEq] at h
        obtain ⟨rfl, rfl⟩ := h
        obtain ⟨a1, a2⟩ := ih s1 s2 w2 hi1 (fun x hx => hl x (by simp [hx])) h2
        refine ⟨a1, ?_⟩
        rw [List.length_append, hc, a2, List.length_cons, Nat.succ_mul, Nat.add_comm]

/-- `in`/`out` placement for which a block routine is required to work. -/
def SafeAt (inplace : Bool) (src : Src) (o N : Nat) : Prop :=
  match src with
  | .ptr p => p + N ≤ o ∨ o + N ≤ p ∨ (inplace = true ∧ o = p)
  | .buf _ => True

/-- A block routine implements a Mealy machine, for at most `K` blocks per call. -/
def BatchOk {S} (inplace : Bool) (BS : Nat) (Inv : S → Prop) (step : Step S) (f : BlockFn S) (K : Nat) : Prop :=
  ∀ (s : S) (m : Mem) (src : Src) (o : Nat) (bl : List (List Byte)), 0 < bl.length → bl.length ≤ K → Inv s →
    (∀ b ∈ bl, b.length = BS) → src.read m (bl.length * BS) = bl.flatten →
    SafeAt inplace src o (bl.length * BS) → o + bl.length * BS ≤ m.length →
    f s m src o bl.length = (runBlocks step s bl >>= fun r => .ok (r.1, wrm m o r.2))

def BatchesOk {S} (inplace : Bool) (BS : Nat) (Inv : S → Prop) (step : Step S) (f : BlockFn S) : Prop :=
  (∀ s m src o, Inv s → f s m src o 0 = .ok (s, m)) ∧ ∀ K, BatchOk inplace BS Inv step f K

theorem SafeAt.left {ip : Bool} {src : Src} {o N M : Nat} (h : SafeAt ip src o N) (hM : M ≤ N) : SafeAt ip src o M := by
  cases src with
  | buf b => trivial
  | ptr p =>
    simp only [SafeAt] at h ⊢
    rcases h with h | h | h
    · left; omega
    · right; left; omega
    · right; right; exact h

theorem SafeAt.right {ip : Bool} {src : Src} {o N M : Nat} (h : SafeAt ip src o (M + N)) :
    SafeAt ip (src.adv M) (o + M) N := by
  cases src with
  | buf b => trivial
  | ptr p =>
    simp only [SafeAt, Src.adv] at h ⊢
    rcases h with h | h | h
    · left; omega
    · right; left; omega
    · right; right; exact ⟨h.1, by omega⟩

/-- After the first `M` bytes were written, the rest of the source is still intact. -/
theorem SafeAt.read_after {ip : Bool} {src : Src} {o N M : Nat} {m : Mem} {w : List Byte} (h : SafeAt ip src o (M + N))
    (hw : w.length = M) (ho : o + M ≤ m.length) :
    (src.adv M).read (wrm m o w) N = (src.adv M).read m N := by
  cases src with
  | buf b => rfl
  | ptr p =>
    simp only [SafeAt, Src.adv, Src.read] at h ⊢
    apply rdm_wrm_disj (by omega)
    omega

/-- Splitting off the first `k` blocks. -/
theorem split_step {S} {ip : Bool} {BS : Nat} {Inv : S → Prop} {step : Step S} {f g : BlockFn S} {K k : Nat}
    (hs : StepOk BS Inv step) (hf : BatchOk ip BS Inv step f K) (hk : 0 < k) (hkK : k ≤ K)
    {s : S} {m : Mem} {src : Src} {o : Nat} {bl : List (List Byte)} (hkl : k ≤ bl.length) (hi : Inv s)
    (hl : ∀ b ∈ bl, b.length = BS) (hr : src.read m (bl.length * BS) = bl.flatten)
    (hsafe : SafeAt ip src o (bl.length * BS)) (hm : o + bl.length * BS ≤ m.length)
    (hg : ∀ s m src o, Inv s → src.read m ((bl.drop k).length * BS) = (bl.drop k).flatten →
      SafeAt ip src o ((bl.drop k).length * BS) → o + (bl.drop k).length * BS ≤ m.length →
      g s m src o (bl.drop k).length = (runBlocks step s (bl.drop k) >>= fun r => .ok (r.1, wrm m o r.2))) :
    (f s m src o k >>= fun r => g r.1 r.2 (src.adv (k * BS)) (o + k * BS) (bl.length - k)) =
      (runBlocks step s bl >>= fun r => .ok (r.1, wrm m o r.2)) := by
  have hlt : (bl.take k).length = k := by rw [List.length_take]; omega
  have hld : (bl.drop k).length = bl.length - k := List.length_drop
  have hmt : ∀ b ∈ bl.take k, b.length = BS := fun b hb => hl b (List.mem_of_mem_take hb)
  have hmd : ∀ b ∈ bl.drop k, b.length = BS := fun b hb => hl b (List.mem_of_mem_drop hb)
  have htot : bl.length * BS = k * BS + (bl.length - k) * BS := by rw [← Nat.add_mul]; congr 1; omega
  have hft : (bl.take k).flatten.length = k * BS := by rw [flatten_len hmt, hlt]
  have hsplit : bl.flatten = (bl.take k).flatten ++ (bl.drop k).flatten := by
    rw [← List.flatten_append, List.take_append_drop]
  have e1 := hf s m src o (bl.take k) (by omega) (by omega) hi hmt
    (by rw [hlt, ← Src.read_take m src (n := bl.length * BS) (by omega), hr, hsplit, ← hft, List.take_left])
    (by rw [hlt]; exact hsafe.left (by omega)) (by rw [hlt]; omega)
  rw [hlt] at e1
  rw [e1]
  conv_rhs => rw [← List.take_append_drop k bl, runBlocks_append]
  simp only [bind_assoc, Outcome.ok_bind]
  cases h1 : runBlocks step s (bl.take k) with
  | throw => rfl
  | ub => rfl
  | ok r =>
    obtain ⟨s1, w1⟩ := r
    obtain ⟨hi1, hw1⟩ := runBlocks_ok hs _ _ _ _ hi hmt h1
    rw [hlt] at hw1
    simp only [Outcome.ok_bind]
    rw [htot] at hsafe
    rw [← hld, hg s1 (wrm m o w1) (src.adv (k * BS)) (o + k * BS) hi1
      (by
        rw [hld, hsafe.read_after hw1 (by omega)]
        have : (src.adv (k * BS)).read m ((bl.length - k) * BS) = (src.read m (bl.length * BS)).drop (k * BS) := by
          rw [Src.read_drop]; congr 1; omega
        rw [this, hr, hsplit, ← hft, List.drop_left])
      (by rw [hld]; exact hsafe.right) (by rw [hld, wrm_len (by omega)]; omega)]
    cases h2 : runBlocks step s1 (bl.drop k) with
    | throw => rfl
    | ub => rfl
    | ok r =>
      obtain ⟨s2, w2⟩ := r
      obtain ⟨_, hw2⟩ := runBlocks_ok hs _ _ _ _ hi1 hmd h2
      simp only [Outcome.ok_bind]
      rw [← hw1, wrm_wrm (by rw [hw1, hw2, hld]; omega)]

theorem batches_ok {S} {ip : Bool} {BS PAR : Nat} {Inv : S → Prop} {step : Step S} {f : BlockFn S}
    (hP : 0 < PAR) (hs : StepOk BS Inv step) (hf : BatchOk ip BS Inv step f PAR) :
    BatchesOk ip BS Inv step (batches f BS PAR) := by
  constructor
  · intro s m src o _
    unfold batches
    rw [dif_neg (by omega), if_neg (by simp)]
  · intro K s m src o bl
    induction hn : bl.length using Nat.strong_induction_on generalizing s m src o bl with
    | _ n ih =>
      subst hn
      intro h0 hK hi hl hr hsafe hm
      unfold batches
      by_cases hc : 0 < PAR ∧ PAR ≤ bl.length
      · rw [dif_pos hc]
        refine split_step (g := batches f BS PAR) hs hf hP (Nat.le_refl _) hc.2 hi hl hr hsafe hm ?_
        intro s m src o hi hr hsafe hm
        have hld : (bl.drop PAR).length = bl.length - PAR := List.length_drop
        by_cases hz : 0 < (bl.drop PAR).length
        · exact ih _ (by omega) s m src o (bl.drop PAR) rfl hz (by omega) hi
            (fun b hb => hl b (List.mem_of_mem_drop hb)) hr hsafe hm
        · have hnil : bl.drop PAR = [] := List.length_eq_zero_iff.mp (by omega)
          rw [hnil]
          unfold batches
          rw [dif_neg (by simp only [List.length_nil]; omega), if_neg (by simp)]
          simp only [runBlocks, Outcome.ok_bind, wrm_nil]
      · rw [dif_neg hc, if_pos (by omega)]
        exact hf s m src o bl h0 (by omega) hi hl hr hsafe hm

theorem singles_ok {S} {ip : Bool} {BS : Nat} {Inv : S → Prop} {step : Step S} {f : BlockFn S}
    (hs : StepOk BS Inv step) (hf : BatchOk ip BS Inv step f 1) :
    BatchesOk ip BS Inv step (singles f BS) := by
  constructor
  · intro s m src o _; rfl
  · intro K s m src o bl
    induction hn : bl.length generalizing s m src o bl with
    | zero => intro h0; omega
    | succ n ih =>
      intro h0 hK hi hl hr hsafe hm
      have : singles f BS s m src o (n + 1) =
        (f s m src o 1 >>= fun r => singles f BS r.1 r.2 (src.adv (1 * BS)) (o + 1 * BS) (bl.length - 1)) := by
        rw [Nat.one_mul, hn]; rfl
      rw [this]
      rw [← hn] at hr hsafe hm
      refine split_step (g := singles f BS) hs hf Nat.one_pos (Nat.le_refl _) (by omega) hi hl hr hsafe hm ?_
      intro s m src o hi hr hsafe hm
      have hld : (bl.drop 1).length = n := by rw [List.length_drop]; omega
      by_cases hz : 0 < n
      · rw [hld] at hr hsafe hm ⊢
        exact ih s m src o (bl.drop 1) hld hz (by omega) hi (fun b hb => hl b (List.mem_of_mem_drop hb)) hr hsafe hm
      · have hnil : bl.drop 1 = [] := List.length_eq_zero_iff.mp (by omega)
        rw [hnil]
        simp only [singles, List.length_nil, runBlocks, Outcome.ok_bind, wrm_nil]

theorem cipherBlocks_ok {ip : Bool} {BS PAR : Nat} {Inv : List Byte → Prop} {step : Step (List Byte)}
    {f : List Byte → List Byte} (hs : StepOk BS Inv step)
    (hf : ∀ K, BatchOk ip BS Inv step (cipherBatch f BS) K) :
    BatchesOk ip BS Inv step (cipherBlocks f BS PAR) := by
  have S1 := singles_ok hs (hf 1)
  constructor
  · intro s m src o _
    unfold cipherBlocks
    rw [dif_neg (by omega)]; rfl
  · intro K s m src o bl
    induction hn : bl.length using Nat.strong_induction_on generalizing s m src o bl with
    | _ n ih =>
      subst hn
      intro h0 hK hi hl hr hsafe hm
      unfold cipherBlocks
      by_cases hc : 0 < PAR ∧ PAR ≤ bl.length
      · rw [dif_pos hc]
        refine split_step (g := cipherBlocks f BS PAR) hs (hf PAR) hc.1 (Nat.le_refl _) hc.2 hi hl hr hsafe hm ?_
        intro s m src o hi hr hsafe hm
        have hld : (bl.drop PAR).length = bl.length - PAR := List.length_drop
        by_cases hz : 0 < (bl.drop PAR).length
        · exact ih _ (by omega) s m src o (bl.drop PAR) rfl hz (by omega) hi
            (fun b hb => hl b (List.mem_of_mem_drop hb)) hr hsafe hm
        · have hnil : bl.drop PAR = [] := List.length_eq_zero_iff.mp (by omega)
          rw [hnil]
          unfold cipherBlocks
          rw [dif_neg (by simp only [List.length_nil]; omega)]
          simp only [singles, List.length_nil, runBlocks, Outcome.ok_bind, wrm_nil]
      · rw [dif_neg hc]
        exact S1.2 bl.length s m src o bl h0 (Nat.le_refl _) hi hl hr hsafe hm

/-- `final_block` as a function of the state and the buffered tail. -/
def FinOk {S} (BS : Nat) (Inv : S → Prop) (fstep : Step S) (fin : S → Mem → List Byte → Nat → Outcome (S × Mem)) : Prop :=
  ∀ s m r o, Inv s → r.length < BS → o + r.length ≤ m.length →
    fin s m r o = (fstep s r >>= fun x => .ok (x.1, wrm m o x.2))

/-! ## The streaming base class -/

/-- Feeding bytes `X` to an object: new object and output bytes. -/
def feed {S} (BS : Nat) (step : Step S) (h : ModeObj S) (X : List Byte) : Outcome (ModeObj S × List Byte) :=
  let t := h.buf ++ X
  runBlocks step h.st (chop BS (t.length / BS) t) >>= fun r => .ok (⟨t.drop (t.length / BS * BS), r.1⟩, r.2)

theorem feed_ok {S} {BS : Nat} (hBS : 0 < BS) {Inv : S → Prop} {step : Step S} (hs : StepOk BS Inv step)
    {h h' : ModeObj S} {X w : List Byte} (hi : Inv h.st) (hf : feed BS step h X = .ok (h', w)) :
    Inv h'.st ∧ h'.buf.length < BS ∧ w.length = (h.buf.length + X.length) / BS * BS ∧
      h'.buf.length = (h.buf.length + X.length) % BS := by
  unfold feed at hf
  simp only at hf
  cases h1 : runBlocks step h.st (chop BS ((h.buf ++ X).length / BS) (h.buf ++ X)) with
  | throw => rw [h1] at hf; cases hf
  | ub => rw [h1] at hf; cases hf
  | ok r =>
    rw [h1] at hf
    simp only [Outcome.ok_bind, Outcome.ok.injEq, Prod.mk.injEq] at hf
    obtain ⟨rfl, rfl⟩ := hf
    obtain ⟨a, b⟩ := runBlocks_ok hs _ _ _ _ hi (chop_mem (Nat.div_mul_le_self _ _)) h1
    rw [chop_len, List.length_append] at b
    have hd := Nat.div_add_mod (h.buf.length + X.length) BS
    have := Nat.mod_lt (h.buf.length + X.length) hBS
    rw [Nat.mul_comm] at hd
    refine ⟨a, ?_, b, ?_⟩ <;> simp only [List.length_drop, List.length_append] <;> omega

theorem feed_append {S} {BS : Nat} (hBS : 0 < BS) (step : Step S) (h : ModeObj S) (X Y : List Byte) :
    feed BS step h (X ++ Y) = (feed BS step h X >>= fun r => feed BS step r.1 Y >>= fun r' =>
      .ok (r'.1, r.2 ++ r'.2)) := by
  obtain ⟨buf, st⟩ := h
  unfold feed
  simp only [bind_assoc, Outcome.ok_bind]
  rw [← List.append_assoc]
  generalize buf ++ X = t
  have hle : t.length / BS * BS ≤ t.length := Nat.div_mul_le_self _ _
  have hd : (t ++ Y).length / BS = t.length / BS + (t.drop (t.length / BS * BS) ++ Y).length / BS := by
    rw [List.length_append, List.length_append, List.length_drop]
    have : t.length + Y.length = (t.length - t.length / BS * BS + Y.length) + t.length / BS * BS := by omega
    conv_lhs => rw [this]
    rw [Nat.add_mul_div_right _ _ hBS, Nat.add_comm]
  have hdrop : (t ++ Y).drop (t.length / BS * BS) = t.drop (t.length / BS * BS) ++ Y :=
    List.drop_append_of_le_length hle
  rw [hd, chop_add, chop_append_left hle, hdrop, runBlocks_append]
  simp only [bind_assoc, Outcome.ok_bind]
  congr 1; funext r; congr 1; funext r'
  rw [Nat.add_mul, ← List.drop_drop, hdrop]

/-- Placement of `in` and `out` for `update`: `out` must have room for the whole blocks produced; it is disjoint
from `in`, or it trails `in` by exactly the number of buffered bytes. -/
def Placed (inplace : Bool) (BS b : Nat) (m : Mem) (o i inl : Nat) : Prop :=
  i + inl ≤ m.length ∧ o + (b + inl) / BS * BS ≤ m.length ∧
    (i + inl ≤ o ∨ o + (b + inl) / BS * BS ≤ i ∨ (inplace = true ∧ o + b = i))

theorem modeBulk_eq {S} {ip : Bool} {BS : Nat} {Inv : S → Prop} {step : Step S} {I : ModeImpl S}
    (hs : StepOk BS Inv step) (hu : BatchesOk ip BS Inv step I.upd) (s : S) (hi : Inv s)
    (m : Mem) (o i inl : Nat) (hp : Placed ip BS 0 m o i inl) :
    modeBulk BS I s m o i inl = (feed BS step ⟨[], s⟩ (rdm m i inl) >>= fun r =>
      .ok (r.1, wrm m o r.2, o + r.2.length)) := by
  obtain ⟨h1, h2, h3⟩ := hp
  rw [Nat.zero_add] at h2 h3
  have hX := rdm_len h1
  have hle : inl / BS * BS ≤ inl := Nat.div_mul_le_self _ _
  unfold modeBulk feed
  simp only [List.nil_append, hX, bind_assoc, Outcome.ok_bind]
  have hupd : I.upd s m (.ptr i) o (inl / BS) =
      (runBlocks step s (chop BS (inl / BS) (rdm m i inl)) >>= fun r => .ok (r.1, wrm m o r.2)) := by
    by_cases hz : inl / BS = 0
    · rw [hz, hu.1 _ _ _ _ hi]; simp only [chop, runBlocks, Outcome.ok_bind, wrm_nil]
    · have hlen := chop_len BS (inl / BS) (rdm m i inl)
      have := hu.2 (inl / BS) s m (.ptr i) o (chop BS (inl / BS) (rdm m i inl)) (by omega) (by omega) hi
        (chop_mem (by rw [hX]; exact hle))
        (by rw [hlen, chop_flatten]; simp only [Src.read]; rw [rdm_take _ _ _ _ hle])
        (by
          rw [hlen]; simp only [SafeAt]
          rcases h3 with h | h | h
          · left; omega
          · right; left; omega
          · right; right; exact ⟨h.1, by omega⟩)
        (by rw [hlen]; exact h2)
      rw [hlen] at this
      exact this
  rw [hupd]
  cases h4 : runBlocks step s (chop BS (inl / BS) (rdm m i inl)) with
  | throw => rfl
  | ub => rfl
  | ok r =>
    obtain ⟨s1, w⟩ := r
    obtain ⟨_, hw⟩ := runBlocks_ok hs _ _ _ _ hi (chop_mem (by rw [hX]; exact hle)) h4
    rw [chop_len] at hw
    simp only [Outcome.ok_bind, Outcome.ok.injEq, Prod.mk.injEq, ModeObj.mk.injEq, and_true, true_and]
    refine ⟨?_, by rw [hw]⟩
    rw [rdm_drop, rdm_wrm_disj (by omega)]
    omega

/-- `update`: the bytes written, the new object, and the value of `*outl`. -/
theorem modeUpdate_eq {S} {ip : Bool} {BS : Nat} (hBS : 0 < BS) {Inv : S → Prop} {step : Step S} {I : ModeImpl S}
    (hs : StepOk BS Inv step) (hu : BatchesOk ip BS Inv step I.upd) (h : ModeObj S) (hi : Inv h.st)
    (hb : h.buf.length < BS) (m : Mem) (o i inl outl : Nat) (hp : Placed ip BS h.buf.length m o i inl) :
    modeUpdate BS I h m o i inl outl = (feed BS step h (rdm m i inl) >>= fun r =>
      .ok (r.1, wrm m o r.2,
        if inl ≠ 0 ∧ h.buf ≠ [] ∧ h.buf.length + inl < BS then outl else r.2.length)) := by
  obtain ⟨buf, st⟩ := h
  simp only at hb hp hi ⊢
  have hX := rdm_len hp.1
  unfold modeUpdate
  dsimp only
  by_cases h0 : inl = 0
  · rw [if_pos h0]
    subst h0
    unfold feed
    have : rdm m i 0 = [] := by unfold rdm; simp
    simp only [this, List.append_nil, Nat.div_eq_of_lt hb, chop, runBlocks, Outcome.ok_bind, wrm_nil,
      Nat.zero_mul, List.drop_zero, List.length_nil, ne_eq, not_true, false_and, if_false]
  · rw [if_neg h0]
    by_cases hbz : buf.length = 0
    · have hnil : buf = [] := List.length_eq_zero_iff.mp hbz
      subst hnil
      rw [if_pos hbz]
      simp only [List.length_nil] at hp
      rw [modeBulk_eq hs hu st hi m o i inl hp]
      simp only [bind_assoc, Outcome.ok_bind, ne_eq, not_true, false_and, and_false, if_false,
        Nat.add_sub_cancel_left]
    · rw [if_neg hbz]
      have hne : buf ≠ [] := fun e => hbz (by rw [e]; rfl)
      obtain ⟨p1, p2, p3⟩ := hp
      by_cases hfill : BS - buf.length > inl
      · simp only [if_pos hfill]
        have hl : (buf ++ rdm m i inl).length < BS := by rw [List.length_append, hX]; omega
        rw [if_neg (by omega)]
        unfold feed
        simp only [Nat.div_eq_of_lt hl, chop, runBlocks, Outcome.ok_bind, wrm_nil, Nat.zero_mul, List.drop_zero]
        rw [if_pos ⟨h0, hne, by omega⟩]
      · simp only [if_neg hfill]
        have hsz : (rdm m i (BS - buf.length)).length = BS - buf.length := rdm_len (by omega)
        have hl : (buf ++ rdm m i (BS - buf.length)).length = BS := by rw [List.length_append, hsz]; omega
        rw [if_pos hl]
        simp only [if_neg (show ¬ (inl ≠ 0 ∧ buf ≠ [] ∧ buf.length + inl < BS) by omega)]
        have hsplitX : rdm m i inl = rdm m i (BS - buf.length) ++ rdm m (i + (BS - buf.length)) (inl - (BS - buf.length)) := by
          rw [← rdm_append]; congr 1; omega
        have hdiv : (buf.length + inl) / BS = (inl - (BS - buf.length)) / BS + 1 := by
          rw [← Nat.add_div_right _ hBS]; congr 1; omega
        have hN : (buf.length + inl) / BS * BS = BS + (inl - (BS - buf.length)) / BS * BS := by
          rw [hdiv, Nat.add_mul]; omega
        rw [hN] at p2 p3
        have hfeed1 : feed BS step ⟨buf, st⟩ (rdm m i (BS - buf.length)) =
            (step st (buf ++ rdm m i (BS - buf.length)) >>= fun r => .ok (⟨[], r.1⟩, r.2)) := by
          unfold feed
          simp only [hl, Nat.div_self hBS, chop, runBlocks, bind_assoc, Outcome.ok_bind, List.append_nil, Nat.one_mul]
          rw [List.take_of_length_le (by omega), List.drop_eq_nil_of_le (by omega)]
        rw [hsplitX, feed_append hBS, hfeed1]
        have e1 := hu.2 1 st m (.buf (buf ++ rdm m i (BS - buf.length))) o [buf ++ rdm m i (BS - buf.length)]
          (by simp) (by simp) hi (by simp only [List.mem_singleton]; rintro b rfl; exact hl)
          (by simp only [Src.read, List.length_singleton, Nat.one_mul, List.flatten_cons, List.flatten_nil,
                List.append_nil]
              exact List.take_of_length_le (by omega))
          trivial (by simp only [List.length_singleton, Nat.one_mul]; omega)
        simp only [List.length_singleton, runBlocks, bind_assoc, Outcome.ok_bind, List.append_nil] at e1
        rw [e1]
        simp only [bind_assoc, Outcome.ok_bind]
        cases h2 : step st (buf ++ rdm m i (BS - buf.length)) with
        | throw => rfl
        | ub => rfl
        | ok r =>
          obtain ⟨s1, c⟩ := r
          obtain ⟨hi1, hc⟩ := hs _ _ _ _ hi hl h2
          simp only [Outcome.ok_bind]
          have hwl : (wrm m o c).length = m.length := wrm_len (by omega)
          rw [modeBulk_eq hs hu s1 hi1 (wrm m o c) (o + BS) (i + (BS - buf.length)) (inl - (BS - buf.length))
            ⟨by rw [hwl]; omega, by rw [hwl, Nat.zero_add]; omega, by
              rw [Nat.zero_add]
              rcases p3 with p | p | p
              · left; omega
              · right; left; omega
              · right; right; exact ⟨p.1, by omega⟩⟩]
          rw [rdm_wrm_disj (by omega) (by
            rcases p3 with p | p | p
            · omega
            · omega
            · omega)]
          simp only [bind_assoc, Outcome.ok_bind]
          cases h3 : feed BS step ⟨[], s1⟩ (rdm m (i + (BS - buf.length)) (inl - (BS - buf.length))) with
          | throw => rfl
          | ub => rfl
          | ok r =>
            obtain ⟨h', w⟩ := r
            obtain ⟨_, _, hw, _⟩ := feed_ok hBS hs hi1 h3
            simp only [List.length_nil, Nat.zero_add, rdm_len (m := m) (p := i + (BS - buf.length))
              (n := inl - (BS - buf.length)) (by omega)] at hw
            simp only [Outcome.ok_bind, Outcome.ok.injEq, Prod.mk.injEq, true_and]
            refine ⟨?_, ?_⟩
            · rw [← hc, wrm_wrm (by omega)]
            · rw [List.length_append]; omega

end Verif
