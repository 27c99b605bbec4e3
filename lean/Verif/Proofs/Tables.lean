import Verif.Model.Word
/-! # Whole-table checks in list form, lifted to entries -/
namespace Verif

theorem tab_getD {α β} (T : Array α) (S : Array β) (f : β → α) (h : T.toList = S.toList.map f) 
    (hS : S.size = 256) (b : Byte) (z : α) (z' : β) : T.getD b.toNat z = f (S.getD b.toNat z') := by
  have hi : b.toNat < S.size := by rw [hS]; exact b.isLt
  generalize b.toNat = i at hi
  have hs : T.size = S.size := by rw [← Array.length_toList, h, List.length_map, Array.length_toList]
  have h1 : T[i]? = (S[i]?).map f := by rw [← Array.getElem?_toList, h, List.getElem?_map, Array.getElem?_toList]
  rw [Array.getD_eq_getD_getElem?, Array.getD_eq_getD_getElem?, h1, Array.getElem?_eq_getElem hi]
  rfl

theorem tab_byte {α} (T : Array α) (f : Byte → α)
    (h : T.toList = (List.range 256).map fun i => f (BitVec.ofNat 8 i)) (b : Byte) (z : α) : T.getD b.toNat z = f b := by
  have h1 : T[b.toNat]? = some (f b) := by
    rw [← Array.getElem?_toList, h, List.getElem?_map, List.getElem?_range b.isLt]
    simp
  rw [Array.getD_eq_getD_getElem?, h1]
  rfl

end Verif
