import Std.Data.String.ToNat
import Verif.Proofs.Gates

/-! Properties C10, C11: gates. -/

namespace GkrMimc

open Polynomial

variable {F : Type} [Field F]

/-- `fr.Element.String()` (dependency gurvy): the decimal representation of the canonical value. -/
def frString (a : Fr) : String := Nat.repr a.val

theorem frString_injective : Function.Injective frString := fun _ _ h =>
  ZMod.val_injective _ (Nat.repr_injective h)

/-- The gates implemented in circuit/gates.go. -/
inductive ShippedGate (toStr : F → String) : Gate F → Prop
  | add : ShippedGate toStr addGate
  | mul : ShippedGate toStr mulGate
  | copy : ShippedGate toStr copyGate
  | cipher (ark : F) : ShippedGate toStr (cipherGate toStr ark)

theorem ShippedGate.lawful {toStr : F → String} {g : Gate F} (h : ShippedGate toStr g) : LawfulGate g := by
  cases h
  · exact addGate_lawful
  · exact mulGate_lawful
  · exact copyGate_lawful
  · exact cipherGate_lawful _ _

/-- C10. `EvalManyVL` and `EvalManyVR` store `Eval` of each pair in the first entries of `res` and leave the rest; the
constraint-system version computes the same function. -/
theorem C10_batch_routes (toStr : F → String) (g : Gate F) (hg : ShippedGate toStr g) :
    (∀ (res vLs : List F) (vR : F), vLs.length ≤ res.length → ∃ out, g.evalManyVL res vLs vR = .ok out ∧
      out.length = res.length ∧ (∀ i (h : i < vLs.length), out[i]? = some (g.eval vLs[i] vR)) ∧
      ∀ i, vLs.length ≤ i → out[i]? = res[i]?) ∧
    (∀ (res : List F) (vL : F) (vRs : List F), vRs.length ≤ res.length → ∃ out, g.evalManyVR res vL vRs = .ok out ∧
      out.length = res.length ∧ (∀ i (h : i < vRs.length), out[i]? = some (g.eval vL vRs[i])) ∧
      ∀ i, vRs.length ≤ i → out[i]? = res[i]?) ∧
    ∀ vL vR, g.gnarkEval vL vR = g.eval vL vR := by
  have hl := hg.lawful
  refine ⟨?_, ?_, hl.gnark⟩
  · intro res vLs vR h
    refine ⟨_, hl.manyVL res vLs vR h, by simp; omega, ?_, ?_⟩
    · intro i hi; rw [List.getElem?_append_left (by simpa using hi)]; simp [hi]
    · intro i hi
      rw [List.getElem?_append_right (by simpa using hi)]
      simp only [List.length_map, List.getElem?_drop]; congr 1; omega
  · intro res vL vRs h
    refine ⟨_, hl.manyVR res vL vRs h, by simp; omega, ?_, ?_⟩
    · intro i hi; rw [List.getElem?_append_left (by simpa using hi)]; simp [hi]
    · intro i hi
      rw [List.getElem?_append_right (by simpa using hi)]
      simp only [List.length_map, List.getElem?_drop]; congr 1; omega

/-- C10. What the functions are. -/
theorem C10_functions (toStr : F → String) (ark vL vR : F) :
    addGate.eval vL vR = vL + vR ∧ mulGate.eval vL vR = vL * vR ∧ copyGate.eval vL vR = vL ∧
      (cipherGate toStr ark).eval vL vR = vL + (vR + ark) ^ 7 := by
  refine ⟨rfl, rfl, rfl, ?_⟩
  show cipherPow (vR + ark) + vL = _
  rw [cipherPow_eq, add_comm]

/-- C10. Gates with equal `ID` are equal (so compute the same function), IDs being decimal as in the code. -/
theorem C10_equal_id (g g' : Gate Fr) (hg : ShippedGate frString g) (hg' : ShippedGate frString g')
    (h : g.id = g'.id) : g = g' := by
  have key : ∀ s t : String, s = t → s.toList.head? = t.toList.head? ∧ s.toList[1]? = t.toList[1]? := by
    rintro s t rfl; exact ⟨rfl, rfl⟩
  cases hg <;> cases hg' <;> first
    | rfl
    | (exfalso; have := key _ _ h; simp [addGate, mulGate, copyGate, cipherGate] at this; done)
    | skip
  rename_i a b
  have h : "CipherGate-" ++ frString a = "CipherGate-" ++ frString b := h
  have : frString a = frString b := by
    have := congrArg String.toList h
    simp only [String.toList_append, List.append_cancel_left_eq] at this
    exact String.toList_injective this
  rw [frString_injective this]

example : (cipherGate frString 5).id = "CipherGate-5" := by decide +kernel
example : (cipherGate frString (5 : Fr)).evalManyVL [0, 0, 9] [1, 2] 3 = .ok [8 ^ 7 + 1, 8 ^ 7 + 2, 9] := by
  decide +kernel

/-- C11. Along lines, `Eval` is a polynomial of degree at most the declared degree. -/
theorem C11_degrees (toStr : F → String) (g : Gate F) (hg : ShippedGate toStr g) :
    (∀ a b r : F, ∃ P : F[X], P.natDegree ≤ g.degHL ∧ ∀ t, P.eval t = g.eval (a + t * b) r) ∧
    (∀ l a b : F, ∃ P : F[X], P.natDegree ≤ g.degHR ∧ ∀ t, P.eval t = g.eval l (a + t * b)) ∧
    (∀ a b c d : F, ∃ P : F[X], P.natDegree ≤ g.degHPrime ∧ ∀ t, P.eval t = g.eval (a + t * b) (c + t * d)) ∧
    g.degHL ≤ 7 ∧ g.degHR ≤ 7 ∧ g.degHPrime ≤ 7 := by
  refine ⟨hg.lawful.degL, hg.lawful.degR, hg.lawful.degP, ?_⟩
  cases hg <;> simp [addGate, mulGate, copyGate, cipherGate]

theorem natDegree_ge_of_agree {Q P : Fr[X]} {d : Nat} (hQ : Q.natDegree = d) (hd : d ≤ 12)
    (h : ∀ t, P.eval t = Q.eval t) : d ≤ P.natDegree := by
  by_contra hlt
  have : P = Q := poly_eq_of_range 13 le_rfl _ _ (by omega) (by omega) fun k _ => h _
  rw [this] at hlt
  omega

/-- C11. The declared degrees are attained (they are not just large): for each gate and each of the three degrees there is a
line on which no polynomial of smaller degree gives the values of `Eval`. -/
theorem C11_degrees_tight (g : Gate Fr) (hg : ShippedGate frString g) :
    (∃ a b r : Fr, ∀ P : Fr[X], (∀ t, P.eval t = g.eval (a + t * b) r) → g.degHL ≤ P.natDegree) ∧
    (∃ l a b : Fr, ∀ P : Fr[X], (∀ t, P.eval t = g.eval l (a + t * b)) → g.degHR ≤ P.natDegree) ∧
    ∃ a b c d : Fr, ∀ P : Fr[X], (∀ t, P.eval t = g.eval (a + t * b) (c + t * d)) → g.degHPrime ≤ P.natDegree := by
  have hX : ∀ c : Fr, (X + C c : Fr[X]).natDegree = 1 := natDegree_X_add_C
  cases hg
  · refine ⟨⟨0, 1, 0, fun P h => natDegree_ge_of_agree (hX 0) (Nat.le_of_ble_eq_true rfl) fun t => ?_⟩,
      ⟨0, 0, 1, fun P h => natDegree_ge_of_agree (hX 0) (Nat.le_of_ble_eq_true rfl) fun t => ?_⟩,
      ⟨0, 1, 0, 0, fun P h => natDegree_ge_of_agree (hX 0) (Nat.le_of_ble_eq_true rfl) fun t => ?_⟩⟩ <;>
    · rw [h]; simp [addGate]
  · refine ⟨⟨0, 1, 1, fun P h => natDegree_ge_of_agree (hX 0) (Nat.le_of_ble_eq_true rfl) fun t => ?_⟩,
      ⟨1, 0, 1, fun P h => natDegree_ge_of_agree (hX 0) (Nat.le_of_ble_eq_true rfl) fun t => ?_⟩,
      ⟨0, 1, 0, 1, fun P h => natDegree_ge_of_agree (natDegree_X_pow 2) (Nat.le_of_ble_eq_true rfl) fun t => ?_⟩⟩
    · rw [h]; simp [mulGate]
    · rw [h]; simp [mulGate]
    · rw [h]; simp [mulGate, pow_two]
  · refine ⟨⟨0, 1, 0, fun P h => natDegree_ge_of_agree (hX 0) (Nat.le_of_ble_eq_true rfl) fun t => ?_⟩,
      ⟨0, 0, 1, fun P _ => Nat.zero_le _⟩,
      ⟨0, 1, 0, 0, fun P h => natDegree_ge_of_agree (hX 0) (Nat.le_of_ble_eq_true rfl) fun t => ?_⟩⟩ <;>
    · rw [h]; simp [copyGate]
  · rename_i ark
    have h7 : ((X + C ark : Fr[X]) ^ 7).natDegree = 7 := by rw [natDegree_pow, hX]
    refine ⟨⟨0, 1, 0, fun P h => natDegree_ge_of_agree (hX (ark ^ 7)) (Nat.le_of_ble_eq_true rfl) fun t => ?_⟩,
      ⟨0, 0, 1, fun P h => natDegree_ge_of_agree h7 (Nat.le_of_ble_eq_true rfl) fun t => ?_⟩,
      ⟨0, 0, 0, 1, fun P h => natDegree_ge_of_agree h7 (Nat.le_of_ble_eq_true rfl) fun t => ?_⟩⟩ <;>
    · rw [h, (C10_functions frString ark _ _).2.2.2]; simp

example : ShippedGate frString (cipherGate frString 3) := .cipher 3

end GkrMimc
