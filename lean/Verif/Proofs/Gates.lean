import Verif.Proofs.Tables
import Verif.Proofs.Lagrange
import Verif.Model.Circuit

/-! Gates: batch evaluation, degrees. -/

set_option linter.unusedSectionVars false

namespace GkrMimc

open Polynomial

variable {F : Type} [Field F]

/-- What the provers rely on in a gate: the batch methods fill the destination with `Eval`, the circuit version is
`Eval`, and the declared degrees bound the degree of `Eval` along lines. -/
structure LawfulGate (g : Gate F) : Prop where
  manyVL : ∀ (res vLs : List F) (vR : F), vLs.length ≤ res.length →
    g.evalManyVL res vLs vR = .ok (vLs.map (fun vL => g.eval vL vR) ++ res.drop vLs.length)
  manyVR : ∀ (res : List F) (vL : F) (vRs : List F), vRs.length ≤ res.length →
    g.evalManyVR res vL vRs = .ok (vRs.map (fun vR => g.eval vL vR) ++ res.drop vRs.length)
  gnark : ∀ vL vR, g.gnarkEval vL vR = g.eval vL vR
  degL : ∀ a b r : F, ∃ P : F[X], P.natDegree ≤ g.degHL ∧ ∀ t, P.eval t = g.eval (a + t * b) r
  degR : ∀ l a b : F, ∃ P : F[X], P.natDegree ≤ g.degHR ∧ ∀ t, P.eval t = g.eval l (a + t * b)
  degP : ∀ a b c d : F, ∃ P : F[X], P.natDegree ≤ g.degHPrime ∧ ∀ t, P.eval t = g.eval (a + t * b) (c + t * d)

/-- A loop `for i := range xs { res[i] = f(xs[i]) }` on a destination that is long enough. -/
theorem forN_map (xs res : List F) (f : F → F) (h : xs.length ≤ res.length) :
    forN xs.length res (fun i res => do let x ← idx xs i; setIdx res i (f x)) =
      .ok (xs.map f ++ res.drop xs.length) := by
  have := forN_eq (body := fun i res => do let x ← idx xs i; setIdx res i (f x))
    (fun k => (xs.take k).map f ++ res.drop k) xs.length (by
      intro i hi
      rw [idx_ok hi, ok_bind, setIdx_ok (by simp; omega)]
      congr 1
      have hl : ((xs.take i).map f).length = i := by simp; omega
      rw [List.set_append_right _ _ (by omega), hl, Nat.sub_self, List.drop_eq_getElem_cons (by omega),
        List.set_cons_zero, List.take_succ_eq_append_getElem hi, List.map_append, List.append_assoc]
      rfl)
  simpa using this

theorem forN_const (xs res : List F) (v : F) (h : xs.length ≤ res.length) :
    forN xs.length res (fun i res => setIdx res i v) =
      .ok (xs.map (fun _ => v) ++ res.drop xs.length) := by
  rw [← forN_map xs res (fun _ => v) h]
  apply forN_congr
  intro i hi s
  rw [idx_ok hi, ok_bind]

theorem cipherPow_eq (x : F) : cipherPow x = x ^ 7 := by unfold cipherPow; ring

/-- The affine polynomial `a + b X`. -/
noncomputable def affine (a b : F) : F[X] := C a + X * C b

theorem affine_eval (a b t : F) : (affine a b).eval t = a + t * b := by simp only [affine, eval_add, eval_mul, eval_X, eval_C]

theorem affine_natDegree (a b : F) : (affine a b).natDegree ≤ 1 := by
  unfold affine
  refine (natDegree_add_le _ _).trans ?_
  simp only [natDegree_C]
  refine max_le (by omega) ((natDegree_mul_le).trans ?_)
  simp

theorem addGate_lawful : LawfulGate (addGate (F := F)) where
  manyVL res vLs vR h := forN_map vLs res (fun vL => vL + vR) h
  manyVR res vL vRs h := forN_map vRs res (fun vR => vL + vR) h
  gnark _ _ := rfl
  degL a b r := ⟨affine a b + C r, (natDegree_add_le _ _).trans (by
    simp only [natDegree_C]; exact max_le (affine_natDegree a b) (by omega)),
    fun t => by simp [affine_eval, addGate]⟩
  degR l a b := ⟨C l + affine a b, (natDegree_add_le _ _).trans (by
    simp only [natDegree_C]; exact max_le (by omega) (affine_natDegree a b)),
    fun t => by simp [affine_eval, addGate]⟩
  degP a b c d := ⟨affine a b + affine c d, (natDegree_add_le _ _).trans
    (max_le (affine_natDegree a b) (affine_natDegree c d)), fun t => by simp [affine_eval, addGate]⟩

theorem mulGate_lawful : LawfulGate (mulGate (F := F)) where
  manyVL res vLs vR h := forN_map vLs res (fun vL => vL * vR) h
  manyVR res vL vRs h := forN_map vRs res (fun vR => vL * vR) h
  gnark _ _ := rfl
  degL a b r := ⟨affine a b * C r, (natDegree_mul_C_le _ _).trans (affine_natDegree a b),
    fun t => by simp [affine_eval, mulGate]⟩
  degR l a b := ⟨affine a b * C l, (natDegree_mul_C_le _ _).trans (affine_natDegree a b),
    fun t => by simp [affine_eval, mulGate, mul_comm]⟩
  degP a b c d := ⟨affine a b * affine c d, (natDegree_mul_le).trans (by
    have := affine_natDegree a b; have := affine_natDegree c d; simp only [mulGate]; omega),
    fun t => by simp [affine_eval, mulGate]⟩

theorem copyGate_lawful : LawfulGate (copyGate (F := F)) where
  manyVL res vLs vR h := by
    simp only [copyGate, goCopy]
    rw [List.take_of_length_le h]; simp
  manyVR res vL vRs h := forN_const vRs res vL h
  gnark _ _ := rfl
  degL a b r := ⟨affine a b, affine_natDegree a b, fun t => by simp [affine_eval, copyGate]⟩
  degR l a b := ⟨C l, by simp, fun t => by simp [copyGate]⟩
  degP a b c d := ⟨affine a b, affine_natDegree a b, fun t => by simp [affine_eval, copyGate]⟩

theorem affine_pow_natDegree (a b : F) (n : Nat) : (affine a b ^ n).natDegree ≤ n := by
  refine (natDegree_pow_le).trans ?_
  have := affine_natDegree a b
  calc n * (affine a b).natDegree ≤ n * 1 := Nat.mul_le_mul_left _ this
    _ = n := by omega

theorem cipherGate_lawful (toStr : F → String) (ark : F) : LawfulGate (cipherGate toStr ark) where
  manyVL res vLs vR h := by
    have := forN_map vLs res (fun vL => cipherPow (vR + ark) + vL) h
    simpa [cipherGate] using this
  manyVR res vL vRs h := forN_map vRs res (fun vR => cipherPow (vR + ark) + vL) h
  gnark _ _ := rfl
  degL a b r := ⟨C (cipherPow (r + ark)) + affine a b, (natDegree_add_le _ _).trans (by
    simp only [natDegree_C]; exact max_le (by omega) (affine_natDegree a b)),
    fun t => by simp [affine_eval, cipherGate]⟩
  degR l a b := ⟨affine (a + ark) b ^ 7 + C l, (natDegree_add_le _ _).trans (by
    simp only [natDegree_C]; exact max_le (affine_pow_natDegree _ _ _) (by omega)),
    fun t => by simp [affine_eval, cipherGate, cipherPow_eq]; ring⟩
  degP a b c d := ⟨affine (c + ark) d ^ 7 + affine a b, (natDegree_add_le _ _).trans
    (max_le (affine_pow_natDegree _ _ _) ((affine_natDegree a b).trans (by simp [cipherGate]))),
    fun t => by simp [affine_eval, cipherGate, cipherPow_eq]; ring⟩

end GkrMimc
