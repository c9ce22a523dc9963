import Verif.Proofs.Lagrange

/-! Property C08: interpolation inverts evaluation. -/

namespace GkrMimc

open Finset Polynomial

variable {F : Type} [Field F]

/-- C08. `EvaluatePolynomial(c, x) = ∑ c_i x^i`. -/
theorem C08_evaluatePolynomial (c : List F) (hc : c ≠ []) (x : F) :
    evaluatePolynomial c x = .ok (∑ i : Fin c.length, c[i] * x ^ (i : Nat)) := by
  obtain ⟨n, hn⟩ : ∃ n, c.length = n + 1 := ⟨c.length - 1, by
    have := List.length_pos_of_ne_nil hc; omega⟩
  have : c = tab (n + 1) (fun i => c.getD i 0) := by rw [← hn]; exact eq_tab c 0
  conv_lhs => rw [this]
  rw [evaluatePolynomial_tab, ← hn, Finset.sum_range]
  congr 1
  apply Finset.sum_congr rfl
  intro i _
  simp

/-- C08. It panics on the empty slice. -/
theorem C08_evaluatePolynomial_empty (x : F) : evaluatePolynomial [] x = .error .index := rfl

/-- C08. On `1 ≤ n ≤ 12` values, `InterpolateOnRange` returns `n` coefficients whose polynomial takes the given values
on `0..n-1`, and it is the only list of `n` coefficients doing so. -/
theorem C08_interpolateOnRange [SmallCasts F] (values : List F) (h1 : 1 ≤ values.length) (h12 : values.length ≤ 12) :
    ∃ c, interpolateOnRange values = .ok c ∧ c.length = values.length ∧
      (∀ k (hk : k < values.length), evaluatePolynomial c (k : F) = .ok values[k]) ∧
      ∀ c' : List F, c'.length = values.length →
        (∀ k (hk : k < values.length), evaluatePolynomial c' (k : F) = .ok values[k]) → c' = c := by
  set n := values.length with hn
  have hv : values = tab n (fun i => values.getD i 0) := eq_tab values 0
  have hget : ∀ k (hk : k < n), values[k] = values.getD k 0 := by intro k hk; simp [hn ▸ hk]
  refine ⟨_, by rw [hv, interpolateOnRange_tab n h12], by simp [hn], ?_, ?_⟩
  · intro k hk
    rw [evaluatePolynomial_coeff n _ (interp_natDegree n h1 _), interp_eval n (by omega) _ k hk, hget k hk]
  · intro c' hl he
    let Q : F[X] := ∑ i ∈ range n, monomial i (c'.getD i 0)
    have hc : ∀ m < n, Q.coeff m = c'.getD m 0 := by
      intro m hm
      simp [Q, coeff_monomial, hm]
    have hQ : Q.natDegree < n := by
      refine lt_of_le_of_lt (natDegree_sum_le_of_forall_le (n := n - 1) _ _ ?_) (by omega)
      intro i hi
      exact (natDegree_monomial_le _).trans (by have := mem_range.1 hi; omega)
    have hc' : c' = tab n Q.coeff := by
      apply tab_eq_of hl
      intro i hi
      rw [hc i (by omega)]; simp [hi]
    rw [hc']
    congr 2
    apply poly_eq_of_range n (by omega) _ _ hQ (interp_natDegree n h1 _)
    intro k hk
    rw [interp_eval n (by omega) _ k hk]
    have := he k hk
    rw [hc', evaluatePolynomial_coeff n _ hQ, hget k hk] at this
    exact Except.ok.inj this

/-- C08. More than 12 values panic. -/
theorem C08_interpolateOnRange_panics (values : List F) (h : 12 < values.length) :
    interpolateOnRange values = .error .index := interpolateOnRange_err values h

/-- C08 for the field of the code. -/
theorem C08_interpolateOnRange_fr (values : List Fr) (h1 : 1 ≤ values.length) (h12 : values.length ≤ 12) :
    ∃ c, interpolateOnRange values = .ok c ∧ c.length = values.length ∧
      (∀ k (hk : k < values.length), evaluatePolynomial c (k : Fr) = .ok values[k]) ∧
      ∀ c' : List Fr, c'.length = values.length →
        (∀ k (hk : k < values.length), evaluatePolynomial c' (k : Fr) = .ok values[k]) → c' = c :=
  C08_interpolateOnRange values h1 h12

/-- Three values: `1 + X^2`. -/
example : evaluatePolynomial ([1, 0, 1] : List Fr) ((0 : Nat) : Fr) = .ok 1 ∧
    evaluatePolynomial ([1, 0, 1] : List Fr) ((1 : Nat) : Fr) = .ok 2 ∧
    evaluatePolynomial ([1, 0, 1] : List Fr) ((2 : Nat) : Fr) = .ok 5 := by decide +kernel

example : interpolateOnRange ([1, 2, 5] : List Fr) = .ok [1, 0, 1] := by
  obtain ⟨c, hc, _, _, hu⟩ := C08_interpolateOnRange ([1, 2, 5] : List Fr) (by simp) (by simp)
  rw [hc, ← hu [1, 0, 1] rfl]
  decide +kernel

end GkrMimc
