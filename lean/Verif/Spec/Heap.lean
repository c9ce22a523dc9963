import Verif.Model.Heap

/-! Specifications at the level of memory: which cells exist, which are the same. -/

namespace GkrMimc

variable {F : Type}

/-- A usable header: the length is within the capacity, and unless the capacity is 0 the array has been allocated. -/
structure Valid (h : Heap F) (s : Slice) : Prop where
  len : s.len ≤ s.cap
  arr : 0 < s.cap → s.arr < h.next

/-- All the cells that exist in `h` are the same in `h'`. -/
structure Frame (h h' : Heap F) : Prop where
  next : h.next ≤ h'.next
  extra : h'.extra = h.extra
  cells : ∀ a < h.next, h'.cells a = h.cells a

/-- The first `size` cells of `d` and `x` are the same cells in the same order, or do not overlap. -/
def NoOverlap (d x : Slice) (size : Nat) : Prop :=
  d.arr = x.arr → d.off = x.off ∨ d.off + size ≤ x.off ∨ x.off + size ≤ d.off

/-- The first `size` cells do not overlap. -/
def SepCells (x y : Slice) (size : Nat) : Prop := x.arr = y.arr → x.off + size ≤ y.off ∨ y.off + size ≤ x.off

end GkrMimc
