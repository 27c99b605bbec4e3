import Verif.Proofs.Dump
/-!
# Properties C74, C75: the structured dump of BER octets and the hex dump of memory
-/
namespace Verif.Props
open Verif.Dump Verif.Spec.Dump Verif.Spec.Der Verif.Spec.Modes

/-! ## C74: asn1_dump -/

/-- C74: on octets in which every element keeps its contents inside the enclosing element, the dump ends after at most
one step per octet, reads nothing outside the octets, prints exactly the lines of the element tree (in the order of the
octets, each at its depth, contents eight to a line), and returns 0 exactly if the outermost sequence could be read to
its end.  Partial: for an element that claims more contents than there are, see the three theorems below. -/
theorem C74_dump_partial (bs : List Byte) (ls : List Line) (fin : Bool) (h : Shape 0 bs ls fin)
    (hl : bs.length < 2 ^ 64) (fuel : Nat) (hf : bs.length < fuel) :
    ∃ c, asn1Dump fuel bs = .ret (ls.flatMap Line.text) c ∧ (c = 0 ↔ fin = true) := by
  have := dump_shape h bs 0 fuel ⟨[], by simp⟩ hf hl
  exact this

/-- C74: a well-formed encoding is dumped completely: the dump returns 0 and the octets it prints are the octets it was
given, in their order, each once. -/
theorem C74_dump_valid (bs : List Byte) (ls : List Line) (h : Valid 0 bs ls) (hl : bs.length < 2 ^ 64) (fuel : Nat)
    (hf : bs.length < fuel) :
    asn1Dump fuel bs = .ret (ls.flatMap Line.text) 0 ∧ octets (ls.flatMap Line.text) = bs := by
  obtain ⟨c, h1, h2⟩ := C74_dump_partial bs ls true (Dump.Valid.shape h) hl fuel hf
  rw [h2.2 rfl] at h1
  exact ⟨h1, octets_valid h⟩

/-- C74 fails: the octets of a primitive element are printed without checking that they exist (asn1_dump.cpp 44-51). -/
theorem C74_overread_violated : ∃ bs : List Byte, ∀ fuel, bs.length < fuel → asn1Dump fuel bs = .oob := by
  refine ⟨[0x04, 0x05], fun fuel hf => ?_⟩
  obtain ⟨f, rfl⟩ : ∃ g, fuel = g + 1 := ⟨fuel - 1, by omega⟩
  unfold asn1Dump dump
  rfl

/-- C74 fails: an error inside a constructed element is not reported (asn1_dump.cpp 40): these octets are not a
well-formed encoding, and the dump returns 0. -/
theorem C74_nested_error_violated : ∃ bs : List Byte, (∀ ls, ¬ Valid 0 bs ls) ∧ ∃ out, asn1Dump 4 bs = .ret out 0 := by
  refine ⟨[0x30, 0x01, 0x1f], ?_, _, rfl⟩
  have len1 : ∀ {b : Byte} {t v rest l : List Byte} {n : Nat}, b.toNat < 128 → LenOctets 8 l n →
      b :: t = l ++ v ++ rest → l = [b] ∧ n = b.toNat := by
    intro b t v rest l n hb hl e
    cases hl with
    | short c _ => simp only [List.cons_append, List.cons.injEq] at e; rw [e.1]; exact ⟨rfl, rfl⟩
    | long k ds h1 h2 h3 =>
      simp only [List.cons_append, List.cons.injEq] at e
      rw [e.1, BitVec.toNat_ofNat] at hb; omega
  have inner : ∀ d ls, ¬ Valid d [0x1f] ls := by
    intro d ls h
    generalize hx : ([0x1f] : List Byte) = x at h
    cases h with
    | nil => cases hx
    | prim _ b l v rest ls hb _ _ _ =>
      simp only [List.cons_append, List.cons.injEq] at hx
      rw [← hx.1] at hb; exact hb rfl
    | cons _ b l v rest _ ls hb _ _ _ _ =>
      simp only [List.cons_append, List.cons.injEq] at hx
      rw [← hx.1] at hb; exact hb rfl
  intro ls h
  generalize hx : ([0x30, 0x01, 0x1f] : List Byte) = x at h
  cases h with
  | nil => cases hx
  | prim _ b l v rest ls hb hp hl _ =>
    simp only [List.cons_append, List.cons.injEq] at hx
    rw [← hx.1] at hp; revert hp; decide
  | cons _ b l v rest ls₁ ls hb hp hl hv _ =>
    simp only [List.cons_append, List.cons.injEq] at hx
    obtain ⟨e1, e2⟩ := len1 (by decide) hl hx.2
    rw [e1] at hx
    simp only [List.cons_append, List.nil_append, List.cons.injEq, true_and] at hx
    have hv1 : v = [0x1f] := by
      cases v with
      | nil => simp at e2
      | cons a v =>
        simp only [List.cons_append, List.cons.injEq] at hx
        have := hx.2.2
        have hv0 : v = [] := by
          rcases List.append_eq_nil_iff.mp this.symm with ⟨h, _⟩; exact h
        rw [← hx.2.1, hv0]
    rw [hv1] at hv
    exact inner _ _ hv

/-- C74 fails: the length octets of an outer element can make the number of octets to advance by wrap around to 0; on
these eleven octets the dump prints the same two elements for ever. -/
theorem C74_termination_violated : ∃ bs : List Byte, bs.length = 11 ∧ ∀ fuel, asn1Dump fuel bs = .running := by
  refine ⟨[0x30, 0x88, 0xff, 0xff, 0xff, 0xff, 0xff, 0xff, 0xff, 0xf6, 0x1f], rfl, fun fuel => ?_⟩
  unfold asn1Dump
  induction fuel with
  | zero => rfl
  | succ f ih =>
    rw [dump]
    have e : Asn1.decTlv [0x30, 0x88, 0xff, 0xff, 0xff, 0xff, 0xff, 0xff, 0xff, 0xf6, 0x1f] 0 11 =
        .ok (⟨0, 0x20, 0x10, 2 ^ 64 - 10, 10⟩, 0) := by decide +kernel
    simp only [List.length_cons, List.length_nil] at ih ⊢
    rw [if_neg (by decide), e]
    simp only [if_true]
    cases f with
    | zero => rfl
    | succ g =>
      have e2 : dump [0x30, 0x88, 0xff, 0xff, 0xff, 0xff, 0xff, 0xff, 0xff, 0xf6, 0x1f] (g + 1) 10 (2 ^ 64 - 10) (0 + 1) =
          .ret [] (-2) := by
        rw [dump, if_neg (by decide)]; rfl
      rw [e2]
      have e3 : Asn1.szSub (0 + 1 + 1 + 1 + 1 + 1 + 1 + 1 + 1 + 1 + 1 + 1) 0 = 0 + 1 + 1 + 1 + 1 + 1 + 1 + 1 + 1 + 1 + 1 + 1 := by
        decide
      dsimp only
      rw [e3, Nat.add_zero, ih]

/-- A SEQUENCE of an INTEGER and a ten-octet OCTET STRING is a well-formed encoding. -/
example : Valid 0 [0x30, 0x0f, 0x02, 0x01, 0x05, 0x04, 0x0a, 1, 2, 3, 4, 5, 6, 7, 8, 9, 10]
    [.node 0 [0x30, 0x0f] 15, .node 1 [0x02, 0x01] 1, .data 2 [5], .node 1 [0x04, 0x0a] 10,
     .data 2 [1, 2, 3, 4, 5, 6, 7, 8], .data 2 [9, 10]] := by
  have b1 : blocks 8 [5] = [[5]] := by simp [blocks]
  have b2 : blocks 8 [1, 2, 3, 4, 5, 6, 7, 8, 9, 10] = [[1, 2, 3, 4, 5, 6, 7, 8], [9, 10]] := by simp [blocks]
  have i2 := Valid.prim 1 0x04 [0x0a] [1, 2, 3, 4, 5, 6, 7, 8, 9, 10] [] [] (by decide) (by decide)
    (.short 0x0a (by decide)) (.nil 1)
  have i1 := Valid.prim 1 0x02 [0x01] [5] _ _ (by decide) (by decide) (.short 0x01 (by decide)) i2
  have o := Valid.cons 0 0x30 [0x0f] _ [] _ [] (by decide) (by decide) (.short 0x0f (by decide)) i1 (.nil 0)
  rw [b1, b2] at o
  exact o

/-- Octets after the first element that are no header: the dump stops there and reports it. -/
example : Shape 0 [0x05, 0x00, 0x1f] [.node 0 [0x05, 0x00] 0] false := by
  have h : NoHeader [0x1f] := by
    rintro ⟨b, l, n, rest, e, hb, _⟩
    simp only [List.cons_append, List.cons.injEq] at e
    rw [← e.1] at hb; exact hb rfl
  have := Shape.prim 0 0x05 [0x00] [] [0x1f] [] false (by decide) (by decide) (.short 0 (by decide))
    (.bad 0 _ (by simp) h)
  rw [Dump.blocks_nil] at this
  exact this

/-! ## C75: memdump -/

/-- C75: the text printed is the prefix, the rows separated by line breaks, and the end string, with the defaults for
null arguments; the rows are the data cut into `maxline` bytes, each printed as its items and separators, possibly
blanks, and the ASCII column if asked for.  Only a last, shorter row is followed by blanks. -/
theorem C75_rows (data : List Byte) (m : Nat) (hm : 0 < m) (fmt : Option (Byte → List Char)) (dec : Bool)
    (sep pre fin : Option (List Char)) :
    ∃ pad : List Byte → Nat, (∀ r, r.length = m → pad r = 0) ∧
      memdump data m fmt dec sep pre fin = some (pre.getD [] ++ List.intercalate ['\n'] ((blocks m data).map fun r =>
        itemColumn (fmt.getD hex2) (sep.getD [' ']) r ++ List.replicate (pad r) ' ' ++
          (if dec then asciiColumn r else [])) ++ fin.getD []) := by
  unfold memdump
  rw [if_neg (by omega), lines_rows _ _ _ hm data.length data (le_refl _)]
  exact ⟨_, fun r hr => if_neg (by omega), rfl⟩

/-- C75: if every item has the same width, the ASCII columns are aligned: with at least one full row, the item part of
every row is blank-padded to `maxline` items. -/
theorem C75_aligned (data : List Byte) (m w : Nat) (hm : 0 < m) (hd : m ≤ data.length) (fmt : Byte → List Char)
    (hw : ∀ b, (fmt b).length = w) (dec : Bool) (sep : List Char) (pre fin : Option (List Char)) :
    ∃ row : List Byte → List Char, (∀ r ∈ blocks m data, (row r).length = m * (w + sep.length)) ∧
      (∀ r, row r = itemColumn fmt sep r ++ List.replicate ((m - r.length) * (w + sep.length)) ' ') ∧
      memdump data m (some fmt) dec (some sep) pre fin = some (pre.getD [] ++ List.intercalate ['\n']
        ((blocks m data).map fun r => row r ++ (if dec then asciiColumn r else [])) ++ fin.getD []) := by
  refine ⟨fun r => itemColumn fmt sep r ++ List.replicate ((m - r.length) * (w + sep.length)) ' ', ?_, fun r => rfl, ?_⟩
  · intro r hr
    have hle : r.length ≤ m := blocks_le hm data r hr
    simp only [List.length_append, List.length_replicate]
    rw [itemColumn_len hw, ← Nat.add_mul]; congr 1; omega
  · unfold memdump
    rw [if_neg (by omega), lines_rows _ _ _ hm data.length data (le_refl _)]
    simp only [Option.getD_some]
    congr 4
    apply List.map_congr_left
    intro r hr
    have hle : r.length ≤ m := blocks_le hm data r hr
    unfold rowText
    congr 3
    rw [if_neg (show ¬ data.length < m by omega), itemColumn_len hw, itemColumn_len hw]
    have hfull : ((data.drop (data.length / m * m - m)).take m).length = m := by
      rw [List.length_take, List.length_drop]
      have h1 := Nat.div_mul_le_self data.length m
      have h2 : m ≤ data.length / m * m := by
        have : 1 ≤ data.length / m := (Nat.one_le_div_iff hm).mpr hd
        calc m = 1 * m := (Nat.one_mul m).symm
          _ ≤ _ := Nat.mul_le_mul_right _ this
      omega
    rw [hfull, ← Nat.sub_mul]
    by_cases h : r.length < m
    · rw [if_pos h]
    · rw [if_neg h, show m - r.length = 0 by omega, Nat.zero_mul]

/-- C75: every byte is in exactly one row, in order, and the rows hold `maxline` bytes, the last one at most that. -/
theorem C75_rows_cover (data : List Byte) (m : Nat) (hm : 0 < m) :
    (blocks m data).flatten = data ∧ ∀ r ∈ blocks m data, 0 < r.length ∧ r.length ≤ m :=
  ⟨blocks_join hm data, fun r hr => ⟨blocks_pos hm data r hr, blocks_le hm data r hr⟩⟩

/-- C75: a `maxline` of zero ends the process, whatever the other arguments. -/
theorem C75_maxline_zero (data : List Byte) (m : Nat) (fmt : Option (Byte → List Char)) (dec : Bool)
    (sep pre fin : Option (List Char)) : memdump data m fmt dec sep pre fin = none ↔ m = 0 := by
  unfold memdump; by_cases h : m = 0 <;> simp [h]

/-- The default format on five bytes, two to a row. -/
example : memdump [0x41, 0x00, 0x7f, 0x7e, 0xab] 2 none true none none (some ['\n']) =
    some "41 00    A.\n7f 7e    .~\nab       .\n".toList := by
  unfold memdump
  rw [if_neg (by decide), lines, dif_pos (by decide)]
  dsimp only
  rw [lines, dif_pos (by decide)]
  dsimp only
  rw [lines, dif_neg (by decide)]
  decide

end Verif.Props
