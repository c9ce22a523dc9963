import Verif.Spec.Race

/-! What it means that all schedules of the multi-process benchmark behave well, except for the races on the variable that holds
the result. -/

namespace GkrMimc.Spec

open GkrMimc

variable {C V : Type}

/-- Good configurations: `n` processes, memory `h0` at the start, the result is in cell 0 of array 0. -/
structure GoodBench (n : Nat) (h0 : Heap C) (post : C → Prop) (s : Conf (Heap C) V) : Prop where
  /-- No panic. -/
  alive : s.crashed = none
  /-- No deadlock: if nobody can go on then all the goroutines have returned. -/
  live : Stuck s → ∀ i, Returned s i
  /-- When the caller returns, all have returned, and the result is right. -/
  result : Returned s 0 → (∀ i, Returned s i) ∧ post (s.mem.cells 0 0)
  /-- Nobody reads shared memory, and the only cell that is written is the one of the result. -/
  accesses : ∀ i a f k, s.gs i = .mem a f k → a = .write 0 0
  /-- With one process there are no races. -/
  norace : n ≤ 1 → ¬ Race s
  /-- Nothing else in memory changes. -/
  frame : s.mem.next = h0.next ∧ ∀ a i, ¬ (a = 0 ∧ i = 0) → s.mem.cells a i = h0.cells a i

/-- Under all schedules: at most `bound` steps, and all the configurations are good. -/
def GoodBenchRun (n : Nat) (post : C → Prop) (bound : Nat) (s0 : Conf (Heap C) V) : Prop :=
  ∀ k s, ReachIn s0 k s → k ≤ bound ∧ GoodBench n s0.mem post s

/-- Under all schedules the process panics with `e`: at most `bound` steps, the caller never returns, and a schedule ends in the
panic only. -/
def Panics (e : Abort) (bound : Nat) (s0 : Conf (Heap C) V) : Prop :=
  ∀ k s, ReachIn s0 k s → k ≤ bound ∧ ¬ Returned s 0 ∧ (s.crashed = none ∨ s.crashed = some e) ∧ (Stuck s → s.crashed = some e)

end GkrMimc.Spec
