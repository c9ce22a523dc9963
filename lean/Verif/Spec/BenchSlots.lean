import Verif.Spec.Race

/-! What it means that all schedules of the repaired multi-process benchmark behave well: no exception for races. -/

namespace GkrMimc.Spec

open GkrMimc

variable {C V : Type}

/-- Good configurations: `n` processes, memory `h0` at the start, the results are in the first `n` cells of array 0. -/
structure GoodSlots (n : Nat) (h0 : Heap C) (post : (Nat → C) → Prop) (s : Conf (Heap C) V) : Prop where
  /-- No panic. -/
  alive : s.crashed = none
  /-- No deadlock: if nobody can go on then all the goroutines have returned. -/
  live : Stuck s → ∀ i, Returned s i
  /-- When the caller returns, all have returned, and the results are right. -/
  result : Returned s 0 → (∀ i, Returned s i) ∧ post (s.mem.cells 0)
  /-- Nobody reads shared memory, and only the cells of the results are written. -/
  accesses : ∀ i a f k, s.gs i = .mem a f k → ∃ j < n, a = .write 0 j
  /-- There are no races. -/
  norace : ¬ Race s
  /-- Nothing else in memory changes. -/
  frame : s.mem.next = h0.next ∧ ∀ a i, ¬ (a = 0 ∧ i < n) → s.mem.cells a i = h0.cells a i

/-- Under all schedules: at most `bound` steps, and all the configurations are good. -/
def GoodSlotsRun (n : Nat) (post : (Nat → C) → Prop) (bound : Nat) (s0 : Conf (Heap C) V) : Prop :=
  ∀ k s, ReachIn s0 k s → k ≤ bound ∧ GoodSlots n s0.mem post s

end GkrMimc.Spec
