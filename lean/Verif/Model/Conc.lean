import Verif.Go
import Mathlib.Logic.Function.Basic
import Mathlib.Logic.Relation

/-!
A small semantics of Go's goroutines, channels and wait groups. This file models the Go language and the two methods of
`common.Semaphore` (common/semaphore.go); the concurrent functions of /repo are programs over it (`Model/ConcPool.lean`,
`Model/ConcProve.lean`).

* Code of a goroutine is a `Prog`, in continuation-passing style: every operation that other goroutines can observe is one
  constructor; local computations (a `Go` value) run between two operations.
* A configuration has any number of goroutines; a step is one operation of any goroutine that is not blocked. All schedules
  are the paths of `Step`.
* A panic of any goroutine ends the whole process (`crashed`).
* Channels: a send on a full channel blocks, on a closed one panics; a receive takes the oldest value, gives `none` (Go's
  zero value) on a closed empty channel, else blocks; a channel of capacity 0 hands over directly (`Rendezvous`).
* `M` is memory shared between goroutines (slices that several goroutines write); one access is one step.
-/

namespace GkrMimc

/-- What a memory operation does: read or write a cell of an array, or allocate. -/
inductive Access where
  | read (arr i : Nat)
  | write (arr i : Nat)
  | alloc

/-- Code of a goroutine; `V` is the type of the values sent on channels and returned. -/
inductive Prog (M V : Type) : Type where
  | ret (r : V)
  | crash (e : Abort)
  | make (cap : Nat) (k : Nat → Prog M V)
  | send (c : Nat) (v : V) (k : Prog M V)
  | recv (c : Nat) (k : Option V → Prog M V)
  | close (c : Nat) (k : Prog M V)
  | go (p k : Prog M V)
  | wgNew (n : Nat) (k : Nat → Prog M V)
  | wgDone (w : Nat) (k : Prog M V)
  | wgWait (w : Nat) (k : Prog M V)
  | act (f : M → M) (k : Prog M V)
  | mem (a : Access) (f : M → M) (k : M → Prog M V)

/-- A channel: contents (oldest first), capacity, closed or not. -/
structure Chan (V : Type) where
  buf : List V
  cap : Nat
  closed : Bool

/-- A configuration: goroutines, channels and wait groups are numbered in the order of their creation; goroutine 0 is the
caller. -/
structure Conf (M V : Type) where
  gs : Nat → Prog M V
  nG : Nat
  chans : Nat → Chan V
  nC : Nat
  wgs : Nat → Nat
  nW : Nat
  mem : M
  crashed : Option Abort

variable {M V : Type}

/-- Goroutine `i` goes on with `p`. -/
def Conf.goOn (s : Conf M V) (i : Nat) (p : Prog M V) : Conf M V := { s with gs := Function.update s.gs i p }

/-- Channel `c` becomes `ch`. -/
def Conf.setChan (s : Conf M V) (c : Nat) (ch : Chan V) : Conf M V := { s with chans := Function.update s.chans c ch }

/-- The process panics. -/
def Conf.panic (s : Conf M V) (e : Abort) : Conf M V := { s with crashed := some e }

/-- The next operation of goroutine `i`; `none` if it has returned or is blocked. -/
def exec (s : Conf M V) (i : Nat) : Option (Conf M V) :=
  match s.gs i with
  | .ret _ => none
  | .crash e => some (s.panic e)
  | .make cap k => some { s.setChan s.nC ⟨[], cap, false⟩ with gs := Function.update s.gs i (k s.nC), nC := s.nC + 1 }
  | .send c v k =>
    if (s.chans c).closed then some (s.panic (.explicit "send on closed channel"))
    else if (s.chans c).buf.length < (s.chans c).cap then
      some ((s.setChan c { s.chans c with buf := (s.chans c).buf ++ [v] }).goOn i k)
    else none
  | .recv c k =>
    match (s.chans c).buf with
    | v :: rest => some ((s.setChan c { s.chans c with buf := rest }).goOn i (k (some v)))
    | [] => if (s.chans c).closed then some (s.goOn i (k none)) else none
  | .close c k =>
    if (s.chans c).closed then some (s.panic (.explicit "close of closed channel"))
    else some ((s.setChan c { s.chans c with closed := true }).goOn i k)
  | .go p k => some { s with gs := Function.update (Function.update s.gs i k) s.nG p, nG := s.nG + 1 }
  | .wgNew n k =>
    some { s with gs := Function.update s.gs i (k s.nW), wgs := Function.update s.wgs s.nW n, nW := s.nW + 1 }
  | .wgDone w k =>
    if s.wgs w = 0 then some (s.panic (.explicit "sync: negative WaitGroup counter"))
    else some { s with gs := Function.update s.gs i k, wgs := Function.update s.wgs w (s.wgs w - 1) }
  | .wgWait w k => if s.wgs w = 0 then some (s.goOn i k) else none
  | .act f k => some { s with gs := Function.update s.gs i k, mem := f s.mem }
  | .mem _ f k => some { s with gs := Function.update s.gs i (k s.mem), mem := f s.mem }

/-- Goroutine `i` hands a value to goroutine `j` over a channel of capacity 0. -/
def Rendezvous (s s' : Conf M V) : Prop :=
  ∃ i j c v k k', i ≠ j ∧ s.gs i = .send c v k ∧ s.gs j = .recv c k' ∧ (s.chans c).cap = 0 ∧ (s.chans c).closed = false ∧
    s' = (s.goOn i k).goOn j (k' (some v))

/-- One step of any goroutine. -/
def Step (s s' : Conf M V) : Prop :=
  s.crashed = none ∧ ((∃ i, exec s i = some s') ∨ Rendezvous s s')

/-- The configuration in which the caller is about to run `p`. -/
def startOf (p : Prog M V) (m : M) (unit : V) : Conf M V where
  gs := Function.update (fun _ => .ret unit) 0 p
  nG := 1
  chans := fun _ => ⟨[], 0, false⟩
  nC := 0
  wgs := fun _ => 0
  nW := 0
  mem := m
  crashed := none

/-- The configurations that some schedule reaches in `n` steps. -/
inductive ReachIn (s0 : Conf M V) : Nat → Conf M V → Prop
  | zero : ReachIn s0 0 s0
  | step {n : Nat} {s s' : Conf M V} : ReachIn s0 n s → Step s s' → ReachIn s0 (n + 1) s'

/-- The configurations that some schedule reaches. -/
def Reach (s0 s : Conf M V) : Prop := ∃ n, ReachIn s0 n s

/-- Nobody can make a step. -/
def Stuck (s : Conf M V) : Prop := ∀ s', ¬ Step s s'

/-- Goroutine `i` has returned. -/
def Returned (s : Conf M V) (i : Nat) : Prop := ∃ r, s.gs i = .ret r

/-- A goroutine with this code is between `Acquire` and `Release` of semaphore `c`: its next operation on `c` (if any, for
some values received on the way) is a send. -/
def Holds (c : Nat) : Prog M V → Prop
  | .ret _ => False
  | .crash _ => False
  | .make _ k => ∃ n, Holds c (k n)
  | .send c' _ k => c' = c ∨ Holds c k
  | .recv c' k => c' ≠ c ∧ ∃ v, Holds c (k v)
  | .close _ k => Holds c k
  | .go _ k => Holds c k
  | .wgNew _ k => ∃ n, Holds c (k n)
  | .wgDone _ k => Holds c k
  | .wgWait _ k => Holds c k
  | .act _ k => Holds c k
  | .mem _ _ k => ∃ m, Holds c (k m)

/-! ### Building blocks -/

/-- A local computation; its panic is the panic of the goroutine. -/
def liftGo {α : Type} (x : Go α) (k : α → Prog M V) : Prog M V :=
  match x with
  | .ok a => k a
  | .error e => .crash e

/-- A function call: the goroutine runs `p` and goes on with its result. (Goroutines that `p` starts are not affected.) -/
def Prog.andThen (K : V → Prog M V) : Prog M V → Prog M V
  | .ret r => K r
  | .crash e => .crash e
  | .make cap k => .make cap fun n => (k n).andThen K
  | .send c v k => .send c v (k.andThen K)
  | .recv c k => .recv c fun v => (k v).andThen K
  | .close c k => .close c (k.andThen K)
  | .go p k => .go p (k.andThen K)
  | .wgNew n k => .wgNew n fun w => (k w).andThen K
  | .wgDone w k => .wgDone w (k.andThen K)
  | .wgWait w k => .wgWait w (k.andThen K)
  | .act f k => .act f (k.andThen K)
  | .mem a f k => .mem a f fun m => (k m).andThen K

/-- `for i := j; i < j+n; i++ { … }` with local state. -/
def loopP {σ : Type} (body : Nat → σ → (σ → Prog M V) → Prog M V) (k : σ → Prog M V) : Nat → Nat → σ → Prog M V
  | _, 0, s => k s
  | j, n + 1, s => body j s (fun s' => loopP body k (j + 1) n s')

/-- `NewSemaphore`, common/semaphore.go:9-15. -/
def newSemaphoreP (tok : V) (n : Int) (k : Nat → Prog M V) : Prog M V :=
  if n < 0 then .crash .makeNeg
  else .make n.toNat fun c => loopP (fun _ _ next => .send c tok (next ())) (fun _ => k c) 0 n.toNat ()

/-- `Acquire`, common/semaphore.go:23-25. -/
def acquireP (sem : Nat) (k : Prog M V) : Prog M V := .recv sem fun _ => k

/-- `Release`, common/semaphore.go:28-30. -/
def releaseP (sem : Nat) (tok : V) (k : Prog M V) : Prog M V := .send sem tok k

/-- `Close`, common/semaphore.go:18-20. -/
def closeSemP (sem : Nat) (k : Prog M V) : Prog M V := .close sem k

end GkrMimc
