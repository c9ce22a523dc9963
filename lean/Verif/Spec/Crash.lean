import Verif.Model.Conc

/-! What it means that a concurrent function panics under all schedules. -/

namespace GkrMimc.Spec

open GkrMimc

variable {M V : Type}

/-- Under all schedules the process ends with a panic in `errs`: at most `bound` steps; as long as there is no panic somebody can go on,
and the caller has not returned. -/
def Crashes (errs : Abort → Prop) (bound : Nat) (s0 : Conf M V) : Prop :=
  ∀ n s, ReachIn s0 n s → n ≤ bound ∧ ((∃ e, s.crashed = some e ∧ errs e) ∨ (s.crashed = none ∧ (∃ s', Step s s') ∧ ¬ Returned s 0))

/-- Under all schedules the process blocks for ever or panics: at most `bound` steps, and without a panic the caller has not returned. -/
def NeverReturns (bound : Nat) (s0 : Conf M V) : Prop :=
  ∀ n s, ReachIn s0 n s → n ≤ bound ∧ (s.crashed = none → ¬ Returned s 0)

end GkrMimc.Spec
