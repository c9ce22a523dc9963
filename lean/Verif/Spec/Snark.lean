import Verif.Model.Snark

/-! Specification of gadgets: when the assertions of a gadget hold. -/

namespace GkrMimc

namespace Cs

variable {F α : Type}

/-- The gadget runs, all its assertions hold, and the result satisfies `Q`. -/
def Sat (x : Cs F α) (Q : α → Prop) : Prop :=
  ∃ (a : α) (eqs : List (F × F)), x = Except.ok (a, eqs) ∧ (∀ e ∈ eqs, e.1 = e.2) ∧ Q a

/-- The gadget runs and all its assertions hold. -/
def Satisfied (x : Cs F α) : Prop := x.Sat fun _ => True

/-- The gadget computes what the native function `y` computes, panics included, and asserts nothing. -/
def Computes (x : Cs F α) (y : Go α) : Prop :=
  x = match y with
    | .ok a => Except.ok (a, [])
    | .error e => Except.error e

end Cs

namespace Spec

/-- The same numbers of variables everywhere. -/
def SameShape {F α β : Type} (c : GkrMimcTestCircuit F α) (d : GkrMimcTestCircuit F β) : Prop :=
  c.proof.sumcheckProofs.map (·.map List.length) = d.proof.sumcheckProofs.map (·.map List.length) ∧
  c.proof.claimsLeft.length = d.proof.claimsLeft.length ∧ c.proof.claimsRight.length = d.proof.claimsRight.length ∧
  c.qInitial.length = d.qInitial.length ∧ c.qInitialprime.length = d.qInitialprime.length ∧
  c.vInput.length = d.vInput.length ∧ c.vOutput.length = d.vOutput.length

end Spec

end GkrMimc
