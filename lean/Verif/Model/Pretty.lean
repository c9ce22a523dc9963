import Verif.Model.Field
import Verif.Go
import Mathlib.Data.ZMod.ValMinAbs

/-! Model of the printing functions of common/common.go. `Element.String()` of gurvy is the decimal representation of the
canonical representative; Go's `len` of a string counts bytes, which for these ASCII strings is the number of
characters. -/

namespace GkrMimc

/-- `Element.String()` (gurvy, outside /repo): the decimal representation of the canonical representative. -/
def frDecimal (x : Fr) : String := Nat.repr x.val

/-- `common.PrettyStringFr`, common/common.go:10-21. -/
def prettyStringFr (x : Fr) : String :=
  let negXStr := frDecimal (-x)
  let xStr := frDecimal x
  if xStr.length ≤ negXStr.length then xStr else "-" ++ negXStr

/-- `common.FrSliceToString`, common/common.go:24-31. -/
def frSliceToString (slice : List Fr) : String :=
  slice.foldl (fun res x => res ++ (prettyStringFr x ++ ", ")) "[" ++ "]"

/-- `common.UintSliceToString`, common/common.go:34-41. -/
def uintSliceToString (slice : List Nat) : String :=
  slice.foldl (fun res x => res ++ (Nat.repr x ++ ", ")) "[" ++ "]"

/-- `common.IntSliceToString`, common/common.go:44-51. -/
def intSliceToString (slice : List Int) : String :=
  slice.foldl (fun res x => res ++ (Int.repr x ++ ", ")) "[" ++ "]"

/-- `BookKeepingTable.String`, polynomial/book_keeping.go:16-18. -/
def tableString (table : List Fr) : String := "table = " ++ frSliceToString table

/-- `common.FrToGenericArray`, common/common.go:54-60: a new slice with the same elements. -/
def frToGenericArray (slice : List Fr) : Go (List (Option Fr)) :=
  forN slice.length (List.replicate slice.length none) fun i res => do
    let x ← idx slice i
    setIdx res i (some x)

/-- `common.Uint64ToFr`, common/common.go:84-88. -/
def uint64ToFr (x : UInt64) : Fr := (x.toNat : Fr)

end GkrMimc
