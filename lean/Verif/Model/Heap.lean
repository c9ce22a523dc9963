import Verif.Model.Gkr
import Mathlib.Logic.Function.Basic

/-!
Memory-level model: slices are headers into backing arrays, so that aliasing, spare capacity and in-place writes are visible.
The first part models Go's slices; the second part the functions of /repo that write into tables or append to slices.
Field elements are arrays of four words, copied by assignment, so a cell holds an element.
-/

namespace GkrMimc

/-- A slice header. A nil slice has length and capacity 0. -/
structure Slice where
  arr : Nat
  off : Nat
  len : Nat
  cap : Nat
deriving DecidableEq, Repr

/-- The nil slice. -/
def Slice.nil : Slice := ⟨0, 0, 0, 0⟩

/-- Memory: arrays `0, …, next-1` have been allocated, `cells a i` is cell `i` of array `a`. `extra a` is the spare capacity
that `append` gives to array `a` when it allocates it: an arbitrary growth policy. -/
structure Heap (F : Type) where
  cells : Nat → Nat → F
  next : Nat
  extra : Nat → Nat

variable {F : Type}

/-- Cell `i` of a slice, no bounds check. -/
def Heap.get (h : Heap F) (s : Slice) (i : Nat) : F := h.cells s.arr (s.off + i)

/-- Write cell `i` of a slice, no bounds check. -/
def Heap.put (h : Heap F) (s : Slice) (i : Nat) (v : F) : Heap F :=
  { h with cells := Function.update h.cells s.arr (Function.update (h.cells s.arr) (s.off + i) v) }

/-- `s[i]` (read). -/
def Heap.load (h : Heap F) (s : Slice) (i : Nat) : Go F :=
  if i < s.len then .ok (h.get s i) else .error .index

/-- `s[i] = v`. -/
def Heap.store (h : Heap F) (s : Slice) (i : Nat) (v : F) : Go (Heap F) :=
  if i < s.len then .ok (h.put s i v) else .error .index

/-- A new array with the given contents. -/
def Heap.alloc (h : Heap F) (contents : Nat → F) : Heap F :=
  { h with cells := Function.update h.cells h.next contents, next := h.next + 1 }

/-- `make([]fr.Element, n)`. -/
def Heap.make [Zero F] (h : Heap F) (n : Nat) : Slice × Heap F := (⟨h.next, 0, n, n⟩, h.alloc fun _ => 0)

/-- `s[a:b]`. -/
def Slice.sub (s : Slice) (a b : Nat) : Go Slice :=
  if a ≤ b ∧ b ≤ s.cap then .ok ⟨s.arr, s.off + a, b - a, s.cap - a⟩ else .error .slice

/-- `copy(dst, src)`; overlapping slices are handled as by memmove. -/
def Heap.copy (h : Heap F) (dst src : Slice) : Heap F :=
  { h with cells := Function.update h.cells dst.arr fun j =>
      if dst.off ≤ j ∧ j < dst.off + min dst.len src.len then h.get src (j - dst.off) else h.cells dst.arr j }

/-- `append(s, t...)`: in place if the capacity of `s` suffices, else in a new array. -/
def Heap.append [Zero F] (h : Heap F) (s t : Slice) : Slice × Heap F :=
  let n := s.len + t.len
  if n ≤ s.cap then (⟨s.arr, s.off, n, s.cap⟩, h.copy ⟨s.arr, s.off + s.len, t.len, s.cap - s.len⟩ t)
  else (⟨h.next, 0, n, n + h.extra h.next⟩,
    h.alloc fun j => if j < s.len then h.get s j else if j < n then h.get t (j - s.len) else 0)

/-- The contents of a slice. -/
def Heap.vals (h : Heap F) (s : Slice) : List F := (List.range s.len).map (h.get s)

variable [Field F]

/-! ### polynomial/book_keeping.go -/

/-- `Fold`, polynomial/book_keeping.go:38-49; returns the new header of `bkt.Table`. -/
def foldH (h : Heap F) (bkt : Slice) (r : F) : Go (Slice × Heap F) := do
  let mid := bkt.len / 2
  let bottom ← bkt.sub 0 mid
  let top ← bkt.sub mid bkt.len
  let h ← forN bottom.len h fun i h => do
    let t ← h.load top i
    let b ← h.load bottom i
    let h ← h.store top i (t - b)
    let t ← h.load top i
    let h ← h.store top i (t * r)
    let b ← h.load bottom i
    let t ← h.load top i
    h.store bottom i (b + t)
  let bkt ← bkt.sub 0 mid
  return (bkt, h)

/-- `DeepCopy`, polynomial/book_keeping.go:75-79. -/
def deepCopyH (h : Heap F) (bkt : Slice) : Slice × Heap F :=
  let m := h.make bkt.len
  (m.1, m.2.copy m.1 bkt)

/-- `Evaluate`, polynomial/book_keeping.go:85-92. -/
def evaluateH (h : Heap F) (bkt coordinates : Slice) : Go (F × Heap F) := do
  let s ← forN coordinates.len (deepCopyH h bkt) fun i s => do
    let r ← s.2.load coordinates i
    foldH s.2 s.1 r
  let v ← s.2.load s.1 0
  return (v, s.2)

/-- `EvaluateLeftAndRight`, polynomial/book_keeping.go:98-112. -/
def evaluateLeftAndRightH (h : Heap F) (bkt hPrime hL hR : Slice) : Go ((F × F) × Heap F) := do
  let (bkCopyLeft, h) := deepCopyH h bkt
  let (bkCopyRight, h) := deepCopyH h bkt
  let (coordinatesLeft, h) := h.append Slice.nil hL
  let (coordinatesLeft, h) := h.append coordinatesLeft hPrime
  let (coordinatesRight, h) := h.append Slice.nil hR
  let (coordinatesRight, h) := h.append coordinatesRight hPrime
  let l ← evaluateH h bkCopyLeft coordinatesLeft
  let r ← evaluateH l.2 bkCopyRight coordinatesRight
  return ((l.1, r.1), r.2)

/-- `LinearCombinationOfBookKeepingTables`, polynomial/book_keeping.go:116-133. -/
def linearCombinationH (h : Heap F) (bkt0 bkt1 : Slice) (a0 a1 : F) : Go (Slice × Heap F) := do
  let h ← forN bkt1.len h fun i h => do
    let x ← h.load bkt0 i
    let h ← h.store bkt0 i (x * a0)
    let y ← h.load bkt1 i
    let h ← h.store bkt1 i (y * a1)
    let y ← h.load bkt1 i
    let x ← h.load bkt0 i
    h.store bkt1 i (y + x)
  return (bkt1, h)

/-- "Reallocate the table if necessary" and "resize the destination table", polynomial/book_keeping.go:142-147, 166-171,
195-201. -/
def resizeH (h : Heap F) (dst : Slice) (size : Nat) : Go (Slice × Heap F) := do
  let m := if dst.cap < size then h.make size else (dst, h)
  let d ← m.1.sub 0 size
  return (d, m.2)

/-- `Add`, polynomial/book_keeping.go:136-152; returns the new header of the receiver. -/
def addH (h : Heap F) (dst left right : Slice) : Go (Slice × Heap F) := do
  let size := left.len
  if right.len ≠ size then .error (.explicit "Left and right do not have the right size")
  else do
    let m ← resizeH h dst size
    let h ← forN size m.2 fun i h => do
      let l ← h.load left i
      let r ← h.load right i
      h.store m.1 i (l + r)
    return (m.1, h)

/-- The parallel loop of two methods of `BookKeepingTable`, run chunk after chunk: in Sub,
polynomial/book_keeping.go:173-184, in Mul, polynomial/book_keeping.go:203-213. All schedules are in `Props/Heap.lean`. -/
def chunkLoopH (chunks : List ChunkRange) (h : Heap F) (d : Slice) (f : Heap F → Nat → Go F) : Go (Heap F) :=
  forEach chunks h fun c h =>
    forFrom (fun i h => do let v ← f h i; h.store d i v) c.begin_ (c.end_ - c.begin_) h

/-- `Sub`, polynomial/book_keeping.go:155-185. -/
def subH (h : Heap F) (dst left right : Slice) (nCore : Int) : Go (Slice × Heap F) := do
  let size := left.len
  let chunks ← intoChunkRanges nCore size
  newSemaphore nCore
  if right.len ≠ size then .error (.explicit "Left and right do not have the right size")
  else do
    let m ← resizeH h dst size
    let h ← chunkLoopH chunks m.2 m.1 fun h i => do
      let l ← h.load left i
      let r ← h.load right i
      return l - r
    return (m.1, h)

/-- `Mul`, polynomial/book_keeping.go:188-214. -/
def mulH (h : Heap F) (dst : Slice) (lambda : F) (x : Slice) (nCore : Int) : Go (Slice × Heap F) := do
  let size := x.len
  let chunks ← intoChunkRanges nCore size
  newSemaphore nCore
  let m ← resizeH h dst size
  let h ← chunkLoopH chunks m.2 m.1 fun h i => do
    let v ← h.load x i
    return v * lambda
  return (m.1, h)

/-- `bkt.Table[i].Sub(&left.Table[i], &right.Table[i])`, polynomial/book_keeping.go:177, for indices in range. -/
def subWriteH (d left right : Slice) (i : Nat) (h : Heap F) : Heap F := h.put d i (h.get left i - h.get right i)

/-- `bkt.Table[i].Mul(&x.Table[i], &lambda)`, polynomial/book_keeping.go:207, for indices in range. -/
def mulWriteH (d x : Slice) (lambda : F) (i : Nat) (h : Heap F) : Heap F := h.put d i (h.get x i * lambda)

end GkrMimc
