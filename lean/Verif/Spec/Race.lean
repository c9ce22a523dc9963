import Verif.Spec.Conc
import Verif.Spec.Heap

/-! Data races, and what it means that all the schedules of a program over shared memory behave well when every access to a cell
is a step of its own. -/

namespace GkrMimc.Spec

open GkrMimc

variable {F V : Type}

/-- Two accesses to the same cell, at least one of them a write. -/
def Conflict : Access → Access → Prop
  | .read a i, .write b j => a = b ∧ i = j
  | .write a i, .read b j => a = b ∧ i = j
  | .write a i, .write b j => a = b ∧ i = j
  | _, _ => False

/-- A data race: two goroutines are about to make conflicting accesses. -/
def Race {M : Type} (s : Conf M V) : Prop :=
  ∃ i j a f k b g l, i ≠ j ∧ s.gs i = .mem a f k ∧ s.gs j = .mem b g l ∧ Conflict a b

/-- The labels of the memory operations are right: a read changes nothing and the goroutine learns only the contents of the
cell; a write stores one value in the cell, and the goroutine learns nothing; an allocation changes no cell that exists. -/
def Labelled : Prog (Heap F) V → Prop
  | .ret _ => True
  | .crash _ => True
  | .make _ k => ∀ n, Labelled (k n)
  | .send _ _ k => Labelled k
  | .recv _ k => ∀ v, Labelled (k v)
  | .close _ k => Labelled k
  | .go p k => Labelled p ∧ Labelled k
  | .wgNew _ k => ∀ n, Labelled (k n)
  | .wgDone _ k => Labelled k
  | .wgWait _ k => Labelled k
  | .act _ _ => False
  | .mem (.read a i) f k => (∀ h, f h = h) ∧ (∀ h h', h.cells a i = h'.cells a i → k h = k h') ∧ ∀ h, Labelled (k h)
  | .mem (.write a i) f k =>
    (∃ v, ∀ h, f h = { h with cells := fun b j => if b = a ∧ j = i then v else h.cells b j }) ∧ (∀ h h', k h = k h') ∧
      ∀ h, Labelled (k h)
  | .mem .alloc f k =>
    (∀ h, (f h).next = h.next + 1 ∧ ∀ b, b ≠ h.next → (f h).cells b = h.cells b) ∧ (∀ h h', h.next = h'.next → k h = k h') ∧
      ∀ h, Labelled (k h)

/-- Good configurations of a program that starts with memory `h0` and may write to the arrays in `W` and to new ones. -/
structure GoodMem (W : Set Nat) (h0 : Heap F) (post : Conf (Heap F) V → Prop) (s : Conf (Heap F) V) : Prop where
  /-- No two conflicting accesses at the same time. -/
  norace : ¬ Race s
  /-- No panic. -/
  alive : s.crashed = none
  /-- No deadlock: if nobody can go on then all the goroutines have returned. -/
  live : Stuck s → ∀ i, Returned s i
  /-- When the caller returns, the result is right. -/
  result : Returned s 0 → post s
  /-- A goroutine that is about to send never blocks and never panics. -/
  sends : ∀ i c v k, s.gs i = .send c v k → ∃ s', exec s i = some s' ∧ s'.crashed = none
  /-- Nothing else in memory changes. -/
  frame : h0.next ≤ s.mem.next ∧ ∀ a < h0.next, a ∉ W → s.mem.cells a = h0.cells a

/-- Under all schedules: at most `bound` steps, and all the configurations are good. -/
def GoodMemRun (W : Set Nat) (post : Conf (Heap F) V → Prop) (bound : Nat) (s0 : Conf (Heap F) V) : Prop :=
  ∀ n s, ReachIn s0 n s → n ≤ bound ∧ GoodMem W s0.mem post s

/-- The same at the level of cells: of the cells that exist in `h0`, only those in `W` change. -/
def GoodCellRun (W : Set (Nat × Nat)) (h0 : Heap F) (post : Conf (Heap F) V → Prop) (bound : Nat) (s0 : Conf (Heap F) V) : Prop :=
  ∀ n s, ReachIn s0 n s → n ≤ bound ∧ GoodMem Set.univ h0 post s ∧
    ∀ c : Nat × Nat, c.1 < h0.next → c ∉ W → s.mem.cells c.1 c.2 = h0.cells c.1 c.2

end GkrMimc.Spec
