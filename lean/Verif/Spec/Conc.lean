import Verif.Model.Conc
import Mathlib.Data.Finset.Card

/-! What it means that all schedules of a concurrent function behave well. -/

namespace GkrMimc.Spec

open GkrMimc

variable {M V : Type}

/-- Good configurations of a parallel section with semaphore `sem` and `nCore` cores. -/
structure GoodConf (sem nCore : Nat) (post : Conf M V → Prop) (s : Conf M V) : Prop where
  /-- No panic: no send on a closed channel, no second close, no negative wait group, no failing computation. -/
  alive : s.crashed = none
  /-- No deadlock: if nobody can go on then all the goroutines have returned. -/
  live : Stuck s → ∀ i, Returned s i
  /-- When the caller returns, the result is right. -/
  result : Returned s 0 → post s
  /-- A goroutine that is about to send never blocks and never panics. -/
  sends : ∀ i c v k, s.gs i = .send c v k → ∃ s', exec s i = some s' ∧ s'.crashed = none
  /-- At most `nCore` goroutines are between `Acquire` and `Release`. -/
  excl : ∀ S : Finset Nat, (∀ i ∈ S, 1 ≤ i ∧ Holds sem (s.gs i)) → S.card ≤ nCore

/-- Under all schedules: at most `bound` steps, and all the configurations are good. -/
def GoodRun (sem nCore : Nat) (post : Conf M V → Prop) (bound : Nat) (s0 : Conf M V) : Prop :=
  ∀ n s, ReachIn s0 n s → n ≤ bound ∧ GoodConf sem nCore post s

/-- Under all schedules the section blocks for ever: at most `bound` steps, and the caller never returns. -/
def Deadlocks (bound : Nat) (s0 : Conf M V) : Prop :=
  ∀ n s, ReachIn s0 n s → n ≤ bound ∧ s.crashed = none ∧ ¬ Returned s 0

end GkrMimc.Spec
