import Verif.Model.ConcGkr
import Verif.Spec.Heap

/-! What values are in memory, when cells hold elements or headers. -/

namespace GkrMimc

variable {F : Type}

/-- The slice `s` holds the elements `xs`. -/
def HoldsVec (h : Heap (Cell F)) (s : Slice) (xs : List F) : Prop := Valid h s ∧ h.vals s = xs.map Cell.elem

/-- The slice of slices `s` holds `xss`. -/
def HoldsTables (h : Heap (Cell F)) (s : Slice) (xss : List (List F)) : Prop :=
  Valid h s ∧ ∃ ds : List Slice, h.vals s = ds.map Cell.hdr ∧ List.Forall₂ (HoldsVec h) ds xss

/-- The slice of slices of slices `s` holds `v`. -/
def HoldsLayers (h : Heap (Cell F)) (s : Slice) (v : List (List (List F))) : Prop :=
  Valid h s ∧ ∃ ds : List Slice, h.vals s = ds.map Cell.hdr ∧ List.Forall₂ (HoldsTables h) ds v

/-- All the tables of `s` are in different arrays, none of which exists in `h0`. -/
def NewTables (h0 h : Heap (Cell F)) (s : Slice) : Prop :=
  ∃ ds : List Slice, h.vals s = ds.map Cell.hdr ∧ (ds.map Slice.arr).Nodup ∧ ∀ d ∈ ds, h0.next ≤ d.arr

/-- The tables of a round hold `vL`, `vR`, `eq` and `statics`; no two of them share an array, and none is in an array of `h0`. -/
structure PreparedTables (h0 h : Heap (Cell F)) (t : RoundTables) (vL vR eq statics : List (List F)) : Prop where
  valid : Valid h t.vL ∧ Valid h t.vR ∧ Valid h t.eq ∧ Valid h t.statics
  tables : ∃ dl dr de ds : List Slice,
    (h.vals t.vL = dl.map Cell.hdr ∧ h.vals t.vR = dr.map Cell.hdr ∧ h.vals t.eq = de.map Cell.hdr ∧ h.vals t.statics = ds.map Cell.hdr) ∧
    (List.Forall₂ (HoldsVec h) dl vL ∧ List.Forall₂ (HoldsVec h) dr vR ∧ List.Forall₂ (HoldsVec h) de eq ∧ List.Forall₂ (HoldsVec h) ds statics) ∧
    (dl ++ dr ++ de ++ ds).Pairwise (fun x y => 0 < x.cap → 0 < y.cap → x.arr ≠ y.arr) ∧
    ∀ d ∈ dl ++ dr ++ de ++ ds, 0 < d.cap → h0.next ≤ d.arr

/-- All the layers have the same number of tables, and the tables of a layer have the same length. -/
def EvenLayers (k : Nat) (vs : List (List (List F))) : Prop := ∀ tabs ∈ vs, tabs.length = k ∧ ∃ n, ∀ t ∈ tabs, t.length = n

end GkrMimc
