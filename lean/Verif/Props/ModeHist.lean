import Verif.Proofs.ModeHist
/-!
# C89: mode objects used for message after message

`modeHist` (Model/ModeHist.lean) runs a list of messages on one object: each is begun with `init` or `reset`, streamed in any
chunks, and finished, refused or abandoned.  `expected` (Spec/ModeHist.lean) processes each message by itself as SP 800-38A
prescribes.
-/
namespace Verif.Props
open Verif Spec Spec.Modes

/-- The key functions of an object. -/
def keyOf (k : KeyedMode) := (k.E, k.D)

/-- The object has a key that fits its block size. -/
def KeyFits (b : Nat) (k : KeyedMode) : Prop :=
  (∀ x, x.length = b → (k.E x).length = b) ∧ (∀ x, x.length = b → (k.D x).length = b)

/-- C89: what the caller sees of every message, for every mode, cipher and history: it is processed as SP 800-38A prescribes,
but together with what the previous message left over if it was begun with `init`.  No call fails otherwise than by refusing
an ECB or CBC message that is not whole blocks, and nothing outside the output is written. -/
theorem C89_history_exact (n : Name) (BS PAR : Nat) (hBS : 0 < BS) (hP : 0 < PAR) (as : List ModeMsg) :
    ∀ (k : KeyedMode), KeyFits BS k → k.obj.buf.length < BS → HistOk (decide (n ≠ .cbcDec ∨ PAR = 1)) BS k.obj.buf as →
      modeHist (modeImpl · n) BS PAR k as = .ok (actual BS n (keyOf k) k.obj.buf as) := by
  induction as with
  | nil => intro k _ _ _; rfl
  | cons a as ih =>
    intro k hk hb ⟨h1, h2, h3, h4⟩
    obtain ⟨E, D, buf, st⟩ := k
    have hk' : KeyFits BS (KeyedMode.begin ⟨E, D, buf, st⟩ a.begin) := by
      cases hbg : a.begin with
      | init E' D' iv => exact h2 E' D' iv hbg
      | reset iv => exact hk
    have hobj : (KeyedMode.begin ⟨E, D, buf, st⟩ a.begin).obj = ⟨a.begin.carry buf, a.begin.iv⟩ := by
      cases a.begin <;> rfl
    have hkey : keyOf (KeyedMode.begin ⟨E, D, buf, st⟩ a.begin) = a.begin.key (E, D) := by
      cases a.begin <;> rfl
    have hc : (a.begin.carry buf).length < BS := by
      cases a.begin with
      | init => exact hb
      | reset => exact hBS
    simp only [modeHist, actual, keyOf]
    rw [hobj, ← hkey]
    generalize KeyedMode.begin ⟨E, D, buf, st⟩ a.begin = k' at hk'
    obtain ⟨st', hm⟩ := msg_spec (C := ⟨BS, PAR, k'.E, k'.D⟩) ⟨hBS, hP, hk'.1, hk'.2⟩ n a.begin.iv h1 (a.begin.carry buf) hc
      a.m a.o a.i a.ns a.last h3
    rw [hm, Outcome.ok_bind]
    dsimp only
    have e := ih ⟨k'.E, k'.D, ⟨tail BS (a.begin.carry buf ++ a.text), st'⟩⟩ hk' (tail_lt hBS _) h4
    unfold ModeMsg.text ModeMsg.len at e ⊢
    rw [e, Outcome.ok_bind]
    rfl

/-- If no message is begun with `init` while bytes are left over, what happens is what is expected. -/
theorem actual_eq_expected (b : Nat) (n : Name) (as : List ModeMsg) :
    ∀ k buf, (∀ a ∈ as.head?, a.begin.carry buf = []) → List.IsChain (fun a a' => a'.begin.carry (tail b a.text) = []) as →
      actual b n k buf as = expected b n k as := by
  induction as with
  | nil => intros; rfl
  | cons a as ih =>
    intro k buf h0 hch
    simp only [actual, expected]
    rw [h0 a (by simp), List.nil_append]
    congr 1
    cases as with
    | nil => rfl
    | cons a' as =>
      rw [List.isChain_cons_cons] at hch
      exact ih _ _ (by intro x hx; simp only [List.head?_cons, Option.mem_def, Option.some.injEq] at hx; rw [← hx]; exact hch.1) hch.2

/-- C89: if every message is begun with `reset`, each is processed by itself, whatever the object was used for before:
messages abandoned half-way, ragged ones, refused ones. -/
theorem C89_reset_each (n : Name) (BS PAR : Nat) (hBS : 0 < BS) (hP : 0 < PAR) (as : List ModeMsg) (k : KeyedMode)
    (hk : KeyFits BS k) (hb : k.obj.buf.length < BS) (hr : ∀ a ∈ as, ∃ iv, a.begin = .reset iv)
    (ho : HistOk (decide (n ≠ .cbcDec ∨ PAR = 1)) BS k.obj.buf as) :
    modeHist (modeImpl · n) BS PAR k as = .ok (expected BS n (keyOf k) as) := by
  rw [C89_history_exact n BS PAR hBS hP as k hk hb ho, actual_eq_expected]
  · intro a ha
    obtain ⟨iv, e⟩ := hr a (List.mem_of_mem_head? ha)
    rw [e]; rfl
  · clear ho
    induction as with
    | nil => exact List.IsChain.nil
    | cons a as ih =>
      cases as with
      | nil => exact List.isChain_singleton _
      | cons a' as =>
        rw [List.isChain_cons_cons]
        obtain ⟨iv, e⟩ := hr a' (by simp)
        exact ⟨by rw [e]; rfl, ih (fun x hx => hr x (List.mem_cons_of_mem _ hx))⟩

/-- C89 (partial): with `init` as well, if every message is whole blocks (an abandoned one up to where it was abandoned) and
the object starts empty.  Missing: other lengths, for which `init` does not begin a new message — see
`C89_init_carries_over_violated`. -/
theorem C89_init_whole_partial (n : Name) (BS PAR : Nat) (hBS : 0 < BS) (hP : 0 < PAR) (as : List ModeMsg) (k : KeyedMode)
    (hk : KeyFits BS k) (hb : k.obj.buf = []) (hw : ∀ a ∈ as, a.len % BS = 0)
    (ho : HistOk (decide (n ≠ .cbcDec ∨ PAR = 1)) BS k.obj.buf as) :
    modeHist (modeImpl · n) BS PAR k as = .ok (expected BS n (keyOf k) as) := by
  have hcarry : ∀ b : Begin, b.carry [] = [] := by intro b; cases b <;> rfl
  rw [C89_history_exact n BS PAR hBS hP as k hk (by rw [hb]; exact hBS) ho, actual_eq_expected]
  · intro a _
    rw [hb, hcarry]
  · rw [hb] at ho
    clear hk hb k
    induction as with
    | nil => exact List.IsChain.nil
    | cons a as ih =>
      have ht : tail BS a.text = [] := by
        have hp := ho.2.2.1.1
        have hlen : a.text.length = a.len := rdm_len hp
        have := hw a (by simp)
        rw [← hlen] at this
        exact drop_full this
      have ho' := ho.2.2.2
      rw [hcarry, List.nil_append, ht] at ho'
      cases as with
      | nil => exact List.isChain_singleton _
      | cons a' as =>
        rw [List.isChain_cons_cons]
        exact ⟨by rw [ht]; exact hcarry _, ih (fun x hx => hw x (List.mem_cons_of_mem _ hx)) ho'⟩

/-- C89 fails for `init`, for every cipher and every pair of messages the first of which is not whole blocks (CFB, OFB, CTR:
finished or abandoned; ECB, CBC: abandoned or refused): the second message, under its new key, is processed with the tail of
the first in front, and the caller is told to have received more octets than the message has. -/
theorem C89_init_carries_over_violated (n : Name) (BS PAR : Nat) (hBS : 0 < BS) (hP : 0 < PAR) (k : KeyedMode) (hk : KeyFits BS k)
    (hb : k.obj.buf = []) (a a' : ModeMsg) (E D : List Byte → List Byte) (iv : List Byte) (ha' : a'.begin = .init E D iv)
    (hr : a.len % BS ≠ 0) (hl : a'.last.isSome) (ho : HistOk (decide (n ≠ .cbcDec ∨ PAR = 1)) BS [] [a, a'])
    (hw : wholeBlocks n = true → (a.len % BS + a'.len) % BS = 0) :
    ∃ r, modeHist (modeImpl · n) BS PAR k [a, a'] =
        .ok [r, (wrm a'.m a'.o (out E D BS iv n (blocks BS (tail BS a.text ++ a'.text))).flatten,
          a'.o + (a.len % BS + a'.len), false)] ∧
      (tail BS a.text).length = a.len % BS ∧
      modeHist (modeImpl · n) BS PAR k [a, a'] ≠ .ok (expected BS n (keyOf k) [a, a']) := by
  have hcarry : ∀ b : Begin, b.carry [] = [] := by intro b; cases b <;> rfl
  have hlen : a.text.length = a.len := rdm_len ho.2.2.1.1
  have hlen' : a'.text.length = a'.len := by
    have := ho.2.2.2.2.2.1.1
    exact rdm_len this
  have htl : (tail BS a.text).length = a.len % BS := by
    unfold tail
    rw [List.length_drop, hlen]
    have h1 := Nat.div_add_mod a.len BS
    rw [Nat.mul_comm] at h1
    omega
  have hx := C89_history_exact n BS PAR hBS hP [a, a'] k hk (by rw [hb]; exact hBS) (by rw [hb]; exact ho)
  have htn : wholeBlocks n = true → tail BS (tail BS a.text ++ a'.text) = [] := by
    intro h
    have := hw h
    apply drop_full
    rw [List.length_append, htl, hlen']
    exact this
  simp only [actual, hb, hcarry, List.nil_append] at hx
  rw [ha'] at hx
  simp only [Begin.key, Begin.carry, Begin.iv] at hx
  rw [effect.eq_def E D, if_pos ⟨hl, htn⟩, List.length_append, htl, hlen'] at hx
  refine ⟨_, hx, htl, ?_⟩
  rw [hx]
  intro e
  have e := Outcome.ok.inj e
  simp only [expected, ha', Begin.key, Begin.iv] at e
  have e2 := (List.cons.inj (List.cons.inj e).2).1
  unfold effect at e2
  have hle : a'.text.length / BS * BS ≤ a'.text.length := Nat.div_mul_le_self _ _
  split_ifs at e2 with hc
  · have := congrArg (fun x => x.2.1) e2
    dsimp only at this
    omega
  · have := congrArg (fun x => x.2.1) e2
    dsimp only at this
    omega

/-- Without an exception `modeFinalExc` is the `do_final` of C08–C16, and it throws when that does. -/
theorem C89_final_agrees {S} (BS : Nat) (I : ModeImpl S) (h : ModeObj S) (m : Mem) (o i inl outl : Nat) :
    modeFinal BS I h m o i inl outl = (modeFinalExc BS I h m o i inl outl >>= fun r =>
      if r.2.2.2 then .throw else .ok (r.1, r.2.1, r.2.2.1)) := by
  unfold modeFinal modeFinalExc
  cases modeUpdate BS I h m o i inl outl with
  | throw => rfl
  | ub => rfl
  | ok u =>
    simp only [Outcome.ok_bind]
    cases I.fin u.1.st u.2.1 u.1.buf (o + u.2.2) with
    | throw => rfl
    | ub => rfl
    | ok r => rfl

/-- A toy cipher: 4-byte blocks, xor with the key. -/
def xkey (c : Byte) : List Byte → List Byte := fun x => x.map (· ^^^ c)

theorem xkey_len (c : Byte) (x : List Byte) (h : x.length = 4) : (xkey c x).length = 4 := by simpa [xkey] using h

/-- The hypotheses are met by a history with a ragged, an abandoned and a finished message. -/
example : modeHist (modeImpl · .ctr) 4 2 ⟨xkey 1, xkey 1, ⟨[], [0, 0, 0, 0]⟩⟩
    [⟨.reset [0, 0, 0, 7], [1, 2, 3, 4, 5, 0, 0, 0, 0, 0], 5, 0, [3], some 2⟩,
     ⟨.reset [0, 0, 0, 9], [1, 2, 3, 4, 5, 0, 0, 0, 0, 0], 5, 0, [2], none⟩,
     ⟨.reset [0, 0, 0, 8], [1, 2, 3, 4, 5, 6, 7, 8, 0], 4, 0, [], some 4⟩] =
    .ok (expected 4 .ctr (xkey 1, xkey 1)
    [⟨.reset [0, 0, 0, 7], [1, 2, 3, 4, 5, 0, 0, 0, 0, 0], 5, 0, [3], some 2⟩,
     ⟨.reset [0, 0, 0, 9], [1, 2, 3, 4, 5, 0, 0, 0, 0, 0], 5, 0, [2], none⟩,
     ⟨.reset [0, 0, 0, 8], [1, 2, 3, 4, 5, 6, 7, 8, 0], 4, 0, [], some 4⟩]) := by
  refine C89_reset_each .ctr 4 2 (by decide) (by decide) _ _ ⟨xkey_len 1, xkey_len 1⟩ (by decide) ?_ ?_
  · intro a ha
    simp only [List.mem_cons, List.not_mem_nil, or_false] at ha
    rcases ha with rfl | rfl | rfl <;> exact ⟨_, rfl⟩
  · refine ⟨rfl, ?_, ⟨by decide, by decide, Or.inl (by decide)⟩, rfl, ?_, ⟨by decide, by decide, Or.inl (by decide)⟩, rfl, ?_,
      ⟨by decide, by decide, Or.inl (by decide)⟩, trivial⟩ <;> (intro E D iv h; cases h)

/-- And those of `C89_init_carries_over_violated`: five octets, then three under another key: eight come out. -/
example : ∃ r, modeHist (modeImpl · .ctr) 4 2 ⟨xkey 1, xkey 1, ⟨[], [0, 0, 0, 0]⟩⟩
    [⟨.reset [0, 0, 0, 7], [1, 2, 3, 4, 5, 0, 0, 0, 0, 0], 5, 0, [3], some 2⟩,
     ⟨.init (xkey 2) (xkey 2) [0, 0, 0, 9], [1, 2, 3, 0, 0, 0, 0, 0], 3, 0, [], some 3⟩] =
    .ok [r, (wrm [1, 2, 3, 0, 0, 0, 0, 0] 3 (out (xkey 2) (xkey 2) 4 [0, 0, 0, 9] .ctr (blocks 4 [5, 1, 2, 3])).flatten, 7, false)] := by
  obtain ⟨r, h, -, -⟩ := C89_init_carries_over_violated .ctr 4 2 (by decide) (by decide) ⟨xkey 1, xkey 1, ⟨[], [0, 0, 0, 0]⟩⟩
    ⟨xkey_len 1, xkey_len 1⟩ rfl
    ⟨.reset [0, 0, 0, 7], [1, 2, 3, 4, 5, 0, 0, 0, 0, 0], 5, 0, [3], some 2⟩
    ⟨.init (xkey 2) (xkey 2) [0, 0, 0, 9], [1, 2, 3, 0, 0, 0, 0, 0], 3, 0, [], some 3⟩ (xkey 2) (xkey 2) [0, 0, 0, 9] rfl
    (by decide) rfl
    ⟨rfl, by (intro E D iv h; cases h), ⟨by decide, by decide, Or.inl (by decide)⟩, rfl,
      by (intro E D iv h; cases h; exact ⟨xkey_len 2, xkey_len 2⟩), ⟨by decide, by decide, Or.inl (by decide)⟩, trivial⟩
    (by intro h; cases h)
  exact ⟨r, h⟩

end Verif.Props
