import Verif.Go

/-! Model of `common/math.go`, `common/chunks.go`. -/

namespace GkrMimc

/-- `common.Min`, common/math.go:4-9. -/
def goMin (a b : Int) : Int := if a ≤ b then a else b

/-- `common.Max`, common/math.go:12-17. -/
def goMax (a b : Int) : Int := if a ≥ b then a else b

/-- The loop of `Log2Floor`, common/math.go:22-24: `for i := a; i > 1; i = i >> 1 { res++ }`. -/
def log2FloorLoop (i : Int) (res : Nat) : Nat :=
  if h : i > 1 then log2FloorLoop (i >>> 1) (res + 1) else res
termination_by i.toNat
decreasing_by
  have : i >>> 1 = i / 2 := by simp [Int.shiftRight_eq_div_pow]
  omega

/-- `common.Log2Floor`, common/math.go:20-26. -/
def log2Floor (a : Int) : Nat := log2FloorLoop a 0

/-- `common.Log2Ceil`, common/math.go:29-35. -/
def log2Ceil (a : Int) : Nat :=
  let floor := log2Floor a
  if a ≠ ((1 <<< floor : Nat) : Int) then floor + 1 else floor

/-- `common.MinChunkSize`, common/chunks.go:4. -/
def minChunkSize : Nat := 4096

/-- `common.MaxChunkPerCore`, common/chunks.go:7. -/
def maxChunkPerCore : Nat := 1

/-- `common.ChunkRange`, common/chunks.go:10-12 (both ends are non-negative in all uses). -/
structure ChunkRange where
  begin_ : Nat
  end_ : Nat
deriving DecidableEq, Repr

/-- The loop of `IntoChunkRanges`, common/chunks.go:27-30: fills `chunkRanges[i]`, `Begin += chunkSize`. -/
def chunkRangesLoop (N chunkSize : Nat) : Nat → Nat → List ChunkRange
  | 0, _ => []
  | k + 1, begin_ =>
    { begin_ := begin_, end_ := (goMin N (begin_ + chunkSize : Nat)).toNat } ::
      chunkRangesLoop N chunkSize k (begin_ + chunkSize)

/-- `common.IntoChunkRanges`, common/chunks.go:16-33.
`N` is a slice length in every caller, hence a natural number; `nCore` is any Go int.
Go's `/` truncates toward zero (`Int.tdiv`). -/
def intoChunkRanges (nCore : Int) (N : Nat) : Go (List ChunkRange) :=
  if (maxChunkPerCore : Int) * nCore = 0 then .error .divZero
  else
    let chunkSize : Nat :=
      (goMax (minChunkSize : Int) (Int.tdiv N ((maxChunkPerCore : Int) * nCore))).toNat
    let nChunks := N / chunkSize
    let nChunks := if nChunks * chunkSize < N then nChunks + 1 else nChunks
    .ok (chunkRangesLoop N chunkSize nChunks 0)

/-- The part of `common.NewSemaphore(n)` (common/semaphore.go:9-15) that is visible to sequential code:
`make(chan struct{}, n)` panics for a negative size. The channel itself is modelled in `Model/Conc*.lean`. -/
def newSemaphore (n : Int) : Go Unit :=
  if n < 0 then .error .makeNeg else .ok ()

/-- Entering a parallel section with a semaphore of `n` tokens and `jobs` goroutines that each `Acquire` first:
with `n = 0` and at least one job everybody blocks for ever (derived in `Props/Conc*.lean`). -/
def semaphoreSection (n : Int) (jobs : Nat) : Go Unit :=
  if n < 0 then .error .makeNeg
  else if n = 0 ∧ 0 < jobs then .error .deadlock
  else .ok ()

end GkrMimc
