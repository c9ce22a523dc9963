/-
The fragment of Go that the models are written in: panics as values, slices as lists, counted loops.
This file models the Go language, not a file of /repo.
-/

namespace GkrMimc

/-- The ways a call in the modelled code fails to return.
`index`: index out of range; `slice`: slice bounds out of range; `divZero`: integer divide by zero;
`makeNeg`: `make` with a negative size; `explicit`: a `panic("…")` statement of the source;
`deadlock`: all goroutines blocked (the Go runtime then aborts the process). -/
inductive Abort where
  | index
  | slice
  | divZero
  | makeNeg
  | explicit (msg : String)
  | deadlock
deriving DecidableEq, Repr

/-- Result of running Go code: a value, or an abort. -/
abbrev Go (α : Type _) := Except Abort α

instance {α : Type _} [DecidableEq α] : DecidableEq (Go α) := fun a b =>
  match a, b with
  | .ok x, .ok y => if h : x = y then isTrue (h ▸ rfl) else isFalse (fun e => h (Except.ok.inj e))
  | .error x, .error y =>
    if h : x = y then isTrue (h ▸ rfl) else isFalse (fun e => h (Except.error.inj e))
  | .ok _, .error _ => isFalse (fun e => by cases e)
  | .error _, .ok _ => isFalse (fun e => by cases e)

/-- `xs[i]` (read). -/
def idx {α : Type _} (xs : List α) (i : Nat) : Go α :=
  match xs[i]? with
  | some x => .ok x
  | none => .error .index

/-- `xs[i] = v`. -/
def setIdx {α : Type _} (xs : List α) (i : Nat) (v : α) : Go (List α) :=
  if i < xs.length then .ok (xs.set i v) else .error .index

/-- `xs[i] = f(xs[i])`, e.g. `xs[i].Add(&xs[i], &v)`. -/
def modIdx {α : Type _} (xs : List α) (i : Nat) (f : α → α) : Go (List α) :=
  match xs[i]? with
  | some x => .ok (xs.set i (f x))
  | none => .error .index

/-- Go integer division of non-negative integers. -/
def goDiv (a b : Nat) : Go Nat :=
  if b = 0 then .error .divZero else .ok (a / b)

/-- Go subtraction of non-negative ints whose result is only used as a slice bound or a `make` size:
a negative result makes that use panic with slice bounds out of range. -/
def goSubBound (a b : Nat) : Go Nat :=
  if b ≤ a then .ok (a - b) else .error .slice

/-- `xs[:n]` for a slice whose capacity equals its length. -/
def sliceTo {α : Type _} (xs : List α) (n : Nat) : Go (List α) :=
  if n ≤ xs.length then .ok (xs.take n) else .error .slice

/-- `xs[n:]`. -/
def sliceFrom {α : Type _} (xs : List α) (n : Nat) : Go (List α) :=
  if n ≤ xs.length then .ok (xs.drop n) else .error .slice

/-- `xs[a:b]` for a slice whose capacity equals its length. -/
def sliceBetween {α : Type _} (xs : List α) (a b : Nat) : Go (List α) :=
  if a ≤ b ∧ b ≤ xs.length then .ok ((xs.take b).drop a) else .error .slice

/-- `for i := k; i < k+n; i++ { s = body(i, s) }`. -/
def forFrom {σ : Type _} (body : Nat → σ → Go σ) : Nat → Nat → σ → Go σ
  | _, 0, s => .ok s
  | k, n + 1, s =>
    match body k s with
    | .ok s' => forFrom body (k + 1) n s'
    | .error e => .error e

/-- `for i := 0; i < n; i++ { s = body(i, s) }`. -/
def forN {σ : Type _} (n : Nat) (s : σ) (body : Nat → σ → Go σ) : Go σ :=
  forFrom body 0 n s

/-- `for _, x := range xs { s = body(x, s) }`. -/
def forEach {α σ : Type _} (xs : List α) (s : σ) (body : α → σ → Go σ) : Go σ :=
  match xs with
  | [] => .ok s
  | x :: xs =>
    match body x s with
    | .ok s' => forEach xs s' body
    | .error e => .error e

/-- `res := make([]T, n); for i := range res { res[i] = f(i) }`: a slice filled index by index. -/
def genM {β : Type _} (f : Nat → Go β) : Nat → Nat → Go (List β)
  | _, 0 => .ok []
  | k, n + 1 =>
    match f k with
    | .ok y =>
      match genM f (k + 1) n with
      | .ok ys => .ok (y :: ys)
      | .error e => .error e
    | .error e => .error e

/-- `genM` from index 0. -/
def gen {β : Type _} (n : Nat) (f : Nat → Go β) : Go (List β) := genM f 0 n

/-- `for i, x := range xs { res[i] = f(x) }` -/
def mapGo {α β : Type _} (f : α → Go β) : List α → Go (List β)
  | [] => .ok []
  | x :: xs =>
    match f x with
    | .ok y =>
      match mapGo f xs with
      | .ok ys => .ok (y :: ys)
      | .error e => .error e
    | .error e => .error e

end GkrMimc
