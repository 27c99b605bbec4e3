import Verif.Model.Dump
import Verif.Proofs.Asn1
import Verif.Proofs.Modes3
/-!
# Lemmas for `asn1_dump` and `memdump`
-/
namespace Verif.Dump
open Verif.Asn1 Verif.Spec.Dump Verif.Spec.Der Verif.Spec.Modes

/-- The text of a list of lines. -/
def text (ls : List Line) : List Tok := ls.flatMap Line.text

theorem text_append (a b : List Line) : text (a ++ b) = text a ++ text b := List.flatMap_append

theorem text_cons (a : Line) (b : List Line) : text (a :: b) = a.text ++ text b := List.flatMap_cons

theorem blocks_nil (b : Nat) : blocks b [] = [] := by unfold blocks; simp

theorem blocks_cons {b : Nat} (hb : 0 < b) {l : List Byte} (hl : l ≠ []) :
    blocks b l = l.take b :: blocks b (l.drop b) := by
  rw [blocks, dif_neg (by simp only [hl, or_false]; omega)]

theorem bodyToks_blocks (d : Nat) : ∀ (n : Nat) (v : List Byte), v.length ≤ n → ∀ i, i % 8 = 0 →
    bodyToks d i v ++ (if v.length % 8 ≠ 0 then [Tok.nl] else []) = text ((blocks 8 v).map (.data (d + 1))) := by
  intro n
  induction n using Nat.strong_induction_on with
  | _ n ih =>
    intro v hv i hi
    have e1 : (i + 1) % 8 = 1 := by omega
    have e2 : (i + 1 + 1) % 8 = 2 := by omega
    have e3 : (i + 1 + 1 + 1) % 8 = 3 := by omega
    have e4 : (i + 1 + 1 + 1 + 1) % 8 = 4 := by omega
    have e5 : (i + 1 + 1 + 1 + 1 + 1) % 8 = 5 := by omega
    have e6 : (i + 1 + 1 + 1 + 1 + 1 + 1) % 8 = 6 := by omega
    have e7 : (i + 1 + 1 + 1 + 1 + 1 + 1 + 1) % 8 = 7 := by omega
    match v with
    | [] => rw [blocks_nil]; rfl
    | [a] => rw [blocks_cons (by decide) (by simp)]; simp [bodyToks, blocks_nil, text, Line.text, hi]
    | [a, b] => rw [blocks_cons (by decide) (by simp)]; simp [bodyToks, blocks_nil, text, Line.text, hi, e1]
    | [a, b, c] => rw [blocks_cons (by decide) (by simp)]; simp [bodyToks, blocks_nil, text, Line.text, hi, e1, e2]
    | [a, b, c, e] =>
      rw [blocks_cons (by decide) (by simp)]; simp [bodyToks, blocks_nil, text, Line.text, hi, e1, e2, e3]
    | [a, b, c, e, f] =>
      rw [blocks_cons (by decide) (by simp)]; simp [bodyToks, blocks_nil, text, Line.text, hi, e1, e2, e3, e4]
    | [a, b, c, e, f, g] =>
      rw [blocks_cons (by decide) (by simp)]; simp [bodyToks, blocks_nil, text, Line.text, hi, e1, e2, e3, e4, e5]
    | [a, b, c, e, f, g, h] =>
      rw [blocks_cons (by decide) (by simp)]; simp [bodyToks, blocks_nil, text, Line.text, hi, e1, e2, e3, e4, e5, e6]
    | a :: b :: c :: e :: f :: g :: h :: k :: v =>
      rw [blocks_cons (by decide) (by simp)]
      have := ih v.length (by simp only [List.length_cons] at hv; omega) v (le_refl _)
        (i + 1 + 1 + 1 + 1 + 1 + 1 + 1 + 1) (by omega)
      simp only [List.take_succ_cons, List.take_zero, List.drop_succ_cons, List.drop_zero, List.map_cons, text_cons]
      rw [← this]
      have el : (a :: b :: c :: e :: f :: g :: h :: k :: v).length % 8 = v.length % 8 := by
        simp only [List.length_cons]; omega
      rw [el]
      simp [bodyToks, Line.text, hi, e1, e2, e3, e4, e5, e6, e7]

theorem fields_toNat (b : Byte) : (fields b).1.toNat / 64 = b.toNat / 64 ∧
    (fields b).2.1.toNat / 32 = b.toNat / 32 % 2 ∧ (fields b).2.2.toNat = b.toNat % 32 ∧
    ((fields b).2.1 = 0x20 ↔ b.toNat / 32 % 2 = 1) := by revert b; decide +kernel

theorem headToks_eq {buf : Mem} {p n d : Nat} {b : Byte} {l : List Byte} (h : Has buf p (b :: l)) :
    headToks buf p d ⟨(fields b).1, (fields b).2.1, (fields b).2.2, n, p + 1 + l.length⟩ =
      (Line.node d (b :: l) n).text := by
  obtain ⟨h1, h2, h3, -⟩ := fields_toNat b
  unfold headToks Line.text
  have e : p + 1 + l.length - p = (b :: l).length := by rw [List.length_cons]; omega
  simp only [e, h.rdm, h1, h2, h3, List.headD_cons]

theorem Has.cancel {buf : Mem} {p : Nat} {a b : List Byte} (ha : Has buf p a) (hb : Has buf p b)
    (hl : a.length ≤ b.length) : ∃ r, b = a ++ r := by
  obtain ⟨s, hs⟩ := ha
  obtain ⟨t, ht⟩ := hb
  rw [ht] at hs
  refine ⟨b.drop a.length, ?_⟩
  have := congrArg (List.take a.length) hs
  rw [List.take_left, List.take_append_of_le_length hl] at this
  rw [← this, List.length_take, Nat.min_eq_left hl, List.take_append_drop]

theorem szSub_add {a b : Nat} (h : a + b < 2 ^ 64) : szSub (a + b) a = b := by unfold szSub; omega

theorem dump_shape {d : Nat} {bs : List Byte} {ls : List Line} {fin : Bool} (h : Shape d bs ls fin) :
    ∀ (buf : Mem) (p f : Nat), Has buf p bs → bs.length < f → bs.length < 2 ^ 64 →
      ∃ c, dump buf f p bs.length d = .ret (text ls) c ∧ (c = 0 ↔ fin = true) := by
  induction h with
  | nil d =>
    intro buf p f hb hf _
    obtain ⟨f, rfl⟩ : ∃ g, f = g + 1 := ⟨f - 1, by have : ([] : List Byte).length = 0 := rfl; omega⟩
    exact ⟨0, by simp [dump, text], by simp⟩
  | bad d bs h0 h =>
    intro buf p f hb hf _
    obtain ⟨f, rfl⟩ : ∃ g, f = g + 1 := ⟨f - 1, by omega⟩
    have hne : bs.length ≠ 0 := by rw [Ne, List.length_eq_zero_iff]; exact h0
    rcases decTlv_cases (hb.le h0) with ⟨b, l, n, h1, h2, h3, h4⟩ | ⟨c, hc, hc'⟩
    · obtain ⟨r, hr⟩ := Has.cancel h1 hb (by rw [List.length_cons]; omega)
      exact absurd ⟨b, l, n, r, hr, h2, h3⟩ h
    · refine ⟨c, ?_, ?_⟩
      · rw [dump, if_neg hne, hc]; rfl
      · rcases hc' with rfl | rfl <;> decide
  | prim d b l v rest ls fin hb hp hl hr ih =>
    intro buf p f hH hf hlt
    obtain ⟨f, rfl⟩ : ∃ g, f = g + 1 := ⟨f - 1, by omega⟩
    have elen : (b :: l ++ v ++ rest).length = 1 + l.length + v.length + rest.length := by
      simp only [List.length_append, List.length_cons]; omega
    rw [elen] at hf hlt
    have hle := hH.le (by simp)
    rw [elen] at hle
    have hH1 : Has buf p (b :: l ++ v) := hH.left
    have hHh : Has buf p (b :: l) := hH1.left
    have hHv : Has buf (p + 1 + l.length) v := by
      have := hH1.right; rwa [List.length_cons, show p + (l.length + 1) = p + 1 + l.length by omega] at this
    have hHr : Has buf (p + (1 + l.length + v.length)) rest := by
      have := hH.right
      rwa [List.length_append, List.length_cons, show l.length + 1 = 1 + l.length by omega] at this
    obtain ⟨c, h1, h2⟩ := ih buf _ f hHr (by omega) (by omega)
    refine ⟨c, ?_, h2⟩
    rw [dump, elen, if_neg (by omega), decTlv_ok hHh hb hl (by omega)]
    have hpc : ¬ (fields b).2.1 = 0x20 := by rw [(fields_toNat b).2.2.2]; omega
    simp only [hpc, if_false]
    unfold prim
    rw [if_pos (by omega), hHv.rdm, Nat.mod_eq_of_lt (show 1 + l.length + v.length < 2 ^ 64 by omega), szSub_add hlt, h1]
    dsimp only
    rw [headToks_eq hHh, bodyToks_blocks d v.length v (le_refl _) 0 rfl, List.cons_append, text_cons, text_append,
      List.append_assoc]
  | cons d b l v rest ls₁ fin₁ ls fin hb hp hl hv hr ihv ih =>
    intro buf p f hH hf hlt
    obtain ⟨f, rfl⟩ : ∃ g, f = g + 1 := ⟨f - 1, by omega⟩
    have elen : (b :: l ++ v ++ rest).length = 1 + l.length + v.length + rest.length := by
      simp only [List.length_append, List.length_cons]; omega
    rw [elen] at hf hlt
    have hH1 : Has buf p (b :: l ++ v) := hH.left
    have hHh : Has buf p (b :: l) := hH1.left
    have hHv : Has buf (p + 1 + l.length) v := by
      have := hH1.right; rwa [List.length_cons, show p + (l.length + 1) = p + 1 + l.length by omega] at this
    have hHr : Has buf (p + (1 + l.length + v.length)) rest := by
      have := hH.right
      rwa [List.length_append, List.length_cons, show l.length + 1 = 1 + l.length by omega] at this
    obtain ⟨c', h1', -⟩ := ihv buf _ f hHv (by omega) (by omega)
    obtain ⟨c, h1, h2⟩ := ih buf _ f hHr (by omega) (by omega)
    refine ⟨c, ?_, h2⟩
    rw [dump, elen, if_neg (by omega), decTlv_ok hHh hb hl (by omega)]
    have hpc : (fields b).2.1 = 0x20 := by rw [(fields_toNat b).2.2.2]; omega
    simp only [hpc, if_true]
    rw [h1', Nat.mod_eq_of_lt (show 1 + l.length + v.length < 2 ^ 64 by omega), szSub_add hlt, h1]
    dsimp only
    rw [← hpc, headToks_eq hHh, List.cons_append, text_cons, text_append, List.append_assoc]

theorem Valid.shape {d : Nat} {bs : List Byte} {ls : List Line} (h : Valid d bs ls) : Shape d bs ls true := by
  induction h with
  | nil d => exact .nil d
  | prim d b l v rest ls hb hp hl _ ih => exact .prim d b l v rest ls true hb hp hl ih
  | cons d b l v rest ls₁ ls hb hp hl _ _ ihv ih => exact .cons d b l v rest ls₁ true ls true hb hp hl ihv ih

theorem octets_append (a b : List Tok) : octets (a ++ b) = octets a ++ octets b := List.filterMap_append

theorem octets_hex (l : List Byte) : octets (l.map .hex) = l := by
  induction l with
  | nil => rfl
  | cons a l ih => rw [List.map_cons]; exact congrArg (a :: ·) ih

theorem octets_node (d : Nat) (h : List Byte) (n : Nat) : octets (Line.node d h n).text = h := by
  unfold Line.text
  rw [octets_append, octets_append]
  have : octets (Tok.ind d :: h.map .hex) = h := octets_hex h
  rw [this]; simp [octets]

theorem octets_data (d : Nat) (h : List Byte) : octets (Line.data d h).text = h := by
  unfold Line.text
  rw [octets_append]
  have : octets (Tok.ind d :: h.map .hex) = h := octets_hex h
  rw [this]; simp [octets]

theorem octets_blocks (d : Nat) (n : Nat) : ∀ v : List Byte, v.length ≤ n →
    octets (text ((blocks 8 v).map (.data d))) = v := by
  induction n with
  | zero =>
    intro v hv
    obtain rfl : v = [] := List.length_eq_zero_iff.mp (by omega)
    rw [blocks_nil]; rfl
  | succ n ih =>
    intro v hv
    by_cases h0 : v = []
    · subst h0; rw [blocks_nil]; rfl
    · rw [blocks_cons (by decide) h0, List.map_cons, text_cons, octets_append, octets_data, ih, List.take_append_drop]
      have := List.length_pos_iff.mpr h0
      rw [List.length_drop]; omega

theorem octets_valid {d : Nat} {bs : List Byte} {ls : List Line} (h : Valid d bs ls) : octets (text ls) = bs := by
  induction h with
  | nil d => rfl
  | prim d b l v rest ls hb hp hl _ ih =>
    rw [List.cons_append, text_cons, text_append, octets_append, octets_append, octets_node,
      octets_blocks _ v.length v (le_refl _), ih, List.append_assoc]
  | cons d b l v rest ls₁ ls hb hp hl _ _ ihv ih =>
    rw [List.cons_append, text_cons, text_append, octets_append, octets_append, octets_node, ihv, ih, List.append_assoc]

/-! ## memdump -/

theorem items_eq (fmt : Byte → List Char) (sep : List Char) : ∀ bs, items fmt sep bs = itemColumn fmt sep bs
  | [] => rfl
  | b :: bs => by
    have := items_eq fmt sep bs
    unfold items
    rw [this]; simp [itemColumn]

theorem ascii_eq (bs : List Byte) : ascii bs = asciiColumn bs := by
  unfold ascii asciiColumn
  congr 1
  apply List.map_congr_left
  intro b _
  unfold isprint asciiChar
  by_cases h : 32 ≤ b.toNat ∧ b.toNat ≤ 126
  · rw [if_pos h, if_pos (by simp only [Bool.and_eq_true, decide_eq_true_eq]; omega)]
  · rw [if_neg h, if_neg (by simp only [Bool.and_eq_true, decide_eq_true_eq]; omega)]

/-- One row: the items, blanks, and the ASCII column if asked for. -/
def rowText (fmt : Byte → List Char) (sep : List Char) (dec : Bool) (pad : Nat) (r : List Byte) : List Char :=
  itemColumn fmt sep r ++ List.replicate pad ' ' ++ (if dec then asciiColumn r else [])

theorem itemColumn_len {fmt : Byte → List Char} {sep : List Char} {w : Nat} (hw : ∀ b, (fmt b).length = w) :
    ∀ r, (itemColumn fmt sep r).length = r.length * (w + sep.length)
  | [] => by simp [itemColumn]
  | b :: r => by
    have := itemColumn_len (sep := sep) hw r
    have e : itemColumn fmt sep (b :: r) = fmt b ++ sep ++ itemColumn fmt sep r := by simp [itemColumn]
    rw [e, List.length_append, List.length_append, hw, this, List.length_cons]; ring

theorem intercalate_cons (s a b : List Char) (l : List (List Char)) :
    List.intercalate s (a :: b :: l) = a ++ s ++ List.intercalate s (b :: l) := by
  simp [List.intercalate, List.intersperse]

theorem intercalate_one (s a : List Char) : List.intercalate s [a] = a := by simp [List.intercalate]

/-- The loops print the rows separated by line breaks; a full row gets no padding. -/
theorem lines_rows (fmt : Byte → List Char) (sep : List Char) (dec : Bool) {m : Nat} (hm : 0 < m) : ∀ (n : Nat)
    (data : List Byte), data.length ≤ n → ∀ lc, lines fmt sep dec m data lc =
      List.intercalate ['\n'] ((blocks m data).map fun r => rowText fmt sep dec
        (if r.length < m then
          (if data.length < m then lc else
            (itemColumn fmt sep ((data.drop (data.length / m * m - m)).take m)).length) - (itemColumn fmt sep r).length
         else 0) r) := by
  intro n
  induction n with
  | zero =>
    intro data hd lc
    obtain rfl : data = [] := List.length_eq_zero_iff.mp (by omega)
    rw [blocks_nil, lines, dif_neg (by simp; omega)]; rfl
  | succ n ih =>
    intro data hd lc
    by_cases hge : m ≤ data.length
    · have hne : data ≠ [] := by rintro rfl; simp at hge; omega
      rw [lines, dif_pos ⟨hm, hge⟩, blocks_cons hm hne]
      have htl : (data.take m).length = m := by rw [List.length_take]; omega
      have hdl : (data.drop m).length = data.length - m := List.length_drop
      simp only [items_eq, ascii_eq]
      rw [ih _ (by omega)]
      by_cases hr : data.drop m = []
      · rw [hr, blocks_nil]
        rw [List.map_nil, List.map_cons, List.map_nil, intercalate_one, if_neg (show ¬ ¬ ([] : List Byte).length = 0 by simp)]
        simp only [htl, lt_irrefl, if_false, rowText, List.replicate_zero, List.append_nil]
        exact List.append_nil _
      · have hpos : 0 < (data.drop m).length := List.length_pos_iff.mpr hr
        rw [if_pos (show ¬ (data.drop m).length = 0 by omega)]
        obtain ⟨r0, rs, e⟩ : ∃ r0 rs, blocks m (data.drop m) = r0 :: rs := ⟨_, _, blocks_cons hm hr⟩
        have hcongr : ((blocks m (data.drop m)).map fun r => rowText fmt sep dec
              (if r.length < m then
                (if (data.drop m).length < m then (itemColumn fmt sep (data.take m)).length else
                  (itemColumn fmt sep (((data.drop m).drop ((data.drop m).length / m * m - m)).take m)).length) -
                    (itemColumn fmt sep r).length
               else 0) r) =
            ((blocks m (data.drop m)).map fun r => rowText fmt sep dec
              (if r.length < m then
                (if data.length < m then lc else
                  (itemColumn fmt sep ((data.drop (data.length / m * m - m)).take m)).length) -
                    (itemColumn fmt sep r).length
               else 0) r) := by
          apply List.map_congr_left
          intro r _
          congr 2
          rw [if_neg (show ¬ data.length < m by omega)]
          by_cases hlt : (data.drop m).length < m
          · rw [if_pos hlt]
            have : data.length / m = 1 := by
              apply Nat.div_eq_of_lt_le <;> omega
            rw [this, Nat.one_mul, Nat.sub_self, List.drop_zero]
          · rw [if_neg hlt, List.drop_drop]
            have e1 : data.length / m = (data.length - m) / m + 1 := by
              rw [← Nat.add_div_right _ hm]; congr 1; omega
            have e2 : m ≤ (data.length - m) / m * m := by
              have : 1 ≤ (data.length - m) / m := (Nat.one_le_div_iff hm).mpr (by omega)
              calc m = 1 * m := (Nat.one_mul m).symm
                _ ≤ _ := Nat.mul_le_mul_right _ this
            rw [hdl, e1, Nat.add_mul, Nat.one_mul]
            have e3 : m + ((data.length - m) / m * m - m) = (data.length - m) / m * m + m - m := by omega
            rw [e3]
        rw [hcongr]
        generalize hF : (fun r => rowText fmt sep dec
              (if r.length < m then
                (if data.length < m then lc else
                  (itemColumn fmt sep ((data.drop (data.length / m * m - m)).take m)).length) -
                    (itemColumn fmt sep r).length
               else 0) r) = F
        have hF0 : F (data.take m) = itemColumn fmt sep (data.take m) ++ (if dec then asciiColumn (data.take m) else []) := by
          rw [← hF]; simp only [htl, lt_irrefl, if_false, rowText, List.replicate_zero, List.append_nil]
        rw [e, List.map_cons, List.map_cons, List.map_cons, intercalate_cons, hF0]
    · rw [lines, dif_neg (by omega)]
      by_cases h0 : data = []
      · subst h0; rw [blocks_nil]; rfl
      · have hpos : 0 < data.length := List.length_pos_iff.mpr h0
        rw [if_pos (show ¬ data.length = 0 by omega), blocks_cons hm h0, List.drop_eq_nil_of_le (show data.length ≤ m by omega), blocks_nil,
          List.take_of_length_le (show data.length ≤ m by omega), List.map_cons, List.map_nil, intercalate_one]
        simp only [items_eq, ascii_eq]
        rw [if_pos (show data.length < m by omega), if_pos (show data.length < m by omega)]; rfl

theorem blocks_all {m : Nat} (hm : 0 < m) (n : Nat) : ∀ data : List Byte, data.length ≤ n →
    (blocks m data).flatten = data ∧ ∀ r ∈ blocks m data, 0 < r.length ∧ r.length ≤ m := by
  induction n with
  | zero =>
    intro data hd
    obtain rfl : data = [] := List.length_eq_zero_iff.mp (by omega)
    rw [blocks_nil]; exact ⟨rfl, fun r hr => by cases hr⟩
  | succ n ih =>
    intro data hd
    by_cases h0 : data = []
    · subst h0; rw [blocks_nil]; exact ⟨rfl, fun r hr => by cases hr⟩
    · have hpos : 0 < data.length := List.length_pos_iff.mpr h0
      obtain ⟨i1, i2⟩ := ih (data.drop m) (by rw [List.length_drop]; omega)
      rw [blocks_cons hm h0]
      refine ⟨by rw [List.flatten_cons, i1, List.take_append_drop], fun r hr => ?_⟩
      rcases List.mem_cons.mp hr with rfl | hr
      · rw [List.length_take]; omega
      · exact i2 r hr

theorem blocks_join {m : Nat} (hm : 0 < m) (data : List Byte) : (blocks m data).flatten = data :=
  (blocks_all hm data.length data (le_refl _)).1

theorem blocks_pos {m : Nat} (hm : 0 < m) (data : List Byte) : ∀ r ∈ blocks m data, 0 < r.length :=
  fun r hr => ((blocks_all hm data.length data (le_refl _)).2 r hr).1

theorem blocks_le {m : Nat} (hm : 0 < m) (data : List Byte) : ∀ r ∈ blocks m data, r.length ≤ m :=
  fun r hr => ((blocks_all hm data.length data (le_refl _)).2 r hr).2

end Verif.Dump
