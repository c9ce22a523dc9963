import Verif.Proofs.GoLemmas
import Verif.Model.Polynomial
import Verif.Model.Field
import Mathlib.Algebra.Polynomial.Eval.Degree
import Mathlib.Algebra.Polynomial.BigOperators
import Mathlib.Algebra.Polynomial.Roots
import Mathlib.Algebra.BigOperators.Group.Finset.Basic
import Mathlib.Tactic.Ring
import Mathlib.Tactic.LinearCombination

/-! Interpolation and univariate evaluation, related to Mathlib polynomials. -/

set_option linter.unusedSectionVars false

namespace GkrMimc

open Finset Polynomial

/-- The integers `0..12` are distinct in the field. -/
class SmallCasts (F : Type) [Field F] : Prop where
  inj : ∀ i j : Nat, i < 13 → j < 13 → (i : F) = (j : F) → i = j

instance : SmallCasts Fr where
  inj := by
    intro i j hi hj h
    rw [ZMod.natCast_eq_natCast_iff'] at h
    have h13 : 13 ≤ frModulus := by decide
    rwa [Nat.mod_eq_of_lt (by omega), Nat.mod_eq_of_lt (by omega)] at h

variable {F : Type} [Field F]

theorem evaluatePolynomial_tab (n : Nat) (c : Nat → F) (x : F) :
    evaluatePolynomial (tab (n + 1) c) x = .ok (∑ i ∈ range (n + 1), c i * x ^ i) := by
  unfold evaluatePolynomial
  simp only [tab_length, Nat.add_one_ne_zero, if_false, Nat.add_sub_cancel, idx_tab (show n < n + 1 by omega), ok_bind]
  have := forN_eq (body := fun k result => do
      let c ← idx (tab (n + 1) c) (n + 1 - 2 - k)
      return result * x + c)
    (fun k => ∑ i ∈ range (k + 1), c (n - k + i) * x ^ i) n (by
      intro k hk
      rw [idx_tab (by omega), ok_bind]
      simp only [go_pure]
      congr 1
      rw [Finset.sum_range_succ' _ (k + 1), Finset.sum_mul]
      congr 1
      · apply Finset.sum_congr rfl
        intro i _
        rw [show n - (k + 1) + (i + 1) = n - k + i by omega, pow_succ]
        ring
      · rw [pow_zero, mul_one]; exact congrArg c (by omega))
  simp only [Nat.sub_zero, zero_add, Finset.sum_range_one, pow_zero, mul_one, add_zero, Nat.sub_self] at this
  rw [this]

theorem evaluatePolynomial_coeff (n : Nat) (P : F[X]) (h : P.natDegree < n) (x : F) :
    evaluatePolynomial (tab n P.coeff) x = .ok (P.eval x) := by
  obtain ⟨m, rfl⟩ : ∃ m, n = m + 1 := ⟨n - 1, by omega⟩
  rw [evaluatePolynomial_tab, Polynomial.eval_eq_sum_range' h]

theorem mulBinomial_tab (d i : Nat) (c : Nat → F) :
    mulBinomial d i (tab d c) = .ok (tab d (fun m => (if m = 0 then 0 else c (m - 1)) - (i : F) * c m)) := by
  unfold mulBinomial
  rw [replicate_eq_tab]
  have := forN_eq (body := fun j updated =>
      forN (min 2 (d - j)) updated fun k updated => do
        let a ← idx (tab d c) j
        let b ← idx [-(i : F), 1] k
        modIdx updated (j + k) (fun u => u + a * b))
    (fun j => tab d (fun m => (if 1 ≤ m ∧ m ≤ j then c (m - 1) else 0) - (if m < j then (i : F) * c m else 0))) d (by
      intro j hj
      have h0 : ∀ t : Nat → F, (do
          let a ← idx (tab d c) j
          let b ← idx [-(i : F), 1] 0
          modIdx (tab d t) (j + 0) (fun u => u + a * b)) = .ok (tab d (fun m => if m = j then t j - i * c j else t m)) := by
        intro t
        rw [idx_tab hj, ok_bind, idx_ok (by simp), ok_bind, add_zero, modIdx_tab hj]
        congr 1
        apply tab_congr
        intro m _
        rw [Function.update_apply]
        split
        · subst_vars; simp; ring
        · rfl
      rcases Nat.lt_or_ge (j + 1) d with h1 | h1
      · rw [show min 2 (d - j) = 2 by omega, forN_succ, forN_succ, forN_zero, ok_bind, h0, ok_bind,
          idx_tab hj, ok_bind, idx_ok (by simp), ok_bind, modIdx_tab h1]
        congr 1
        apply tab_congr
        intro m _
        simp only [List.getElem_cons_succ, List.getElem_cons_zero, Function.update_apply]
        by_cases hm : m = j + 1
        · subst hm; simp
        · by_cases hm2 : m = j
          · subst hm2; simp
          · have : (m < j + 1) = (m < j) := by rw [eq_iff_iff]; omega
            have h3 : (m ≤ j + 1) = (m ≤ j) := by rw [eq_iff_iff]; omega
            simp [hm, hm2, this, h3]
      · rw [show min 2 (d - j) = 1 by omega, forN_succ, forN_zero, ok_bind, h0]
        congr 1
        apply tab_congr
        intro m hm
        have h3 : (m ≤ j + 1) = (m ≤ j) := by rw [eq_iff_iff]; omega
        by_cases hm2 : m = j
        · subst hm2; simp
        · have : (m < j + 1) = (m < j) := by rw [eq_iff_iff]; omega
          simp [hm2, this, h3])
  refine Eq.trans (Eq.trans ?_ this) ?_
  · dsimp only
    congr 1
    apply tab_congr
    intro m _
    simp
    intro h1 h2; omega
  · congr 1
    apply tab_congr
    intro m hm
    by_cases h0 : m = 0
    · subst h0; simp [hm]
    · have h1 : 1 ≤ m := by omega
      simp [h0, hm, h1, hm.le]

theorem mulBinomial_coeff (d i : Nat) (P : F[X]) :
    mulBinomial d i (tab d P.coeff) = .ok (tab d (P * (X - C (i : F))).coeff) := by
  rw [mulBinomial_tab]
  congr 1
  apply tab_congr
  intro m _
  rw [mul_sub, coeff_sub, coeff_mul_C]
  cases m with
  | zero => simp [mul_comm]
  | succ m => simp [coeff_mul_X, mul_comm]

/-- `∏_{i<n, i≠l} (X - i)`. -/
noncomputable def skipProd (F : Type) [Field F] (n l : Nat) : F[X] :=
  ∏ i ∈ (range n).filter (· ≠ l), (X - C (i : F))

theorem skipProd_succ (n l : Nat) : skipProd F (n + 1) l =
    if n = l then skipProd F n l else skipProd F n l * (X - C (n : F)) := by
  unfold skipProd
  rw [Finset.range_add_one, Finset.filter_insert, ite_not]
  split
  · rfl
  · rw [Finset.prod_insert (by simp), mul_comm]

theorem skipProd_natDegree (n l : Nat) (hl : l < n) : (skipProd F n l).natDegree < n := by
  unfold skipProd
  refine lt_of_le_of_lt (Polynomial.natDegree_prod_le _ _) ?_
  simp only [natDegree_X_sub_C, sum_const, smul_eq_mul, mul_one]
  calc _ < (range n).card := Finset.card_lt_card (by
        rw [Finset.filter_ssubset]; exact ⟨l, by simpa using hl, by simp⟩)
    _ = n := by simp

theorem skipProd_eval (n l k : Nat) (hk : k < n) (hkl : k ≠ l) : (skipProd F n l).eval (k : F) = 0 := by
  unfold skipProd
  rw [eval_prod]
  apply Finset.prod_eq_zero (i := k) (by simp [hk, hkl])
  simp

theorem skipProd_eval_self [SmallCasts F] (n l : Nat) (hn : n ≤ 13) (hl : l < n) :
    (skipProd F n l).eval (l : F) ≠ 0 := by
  unfold skipProd
  rw [eval_prod, Finset.prod_ne_zero_iff]
  intro i hi h
  simp only [mem_filter, mem_range] at hi
  simp only [eval_sub, eval_X, eval_C, sub_eq_zero] at h
  exact hi.2 (SmallCasts.inj l i (by omega) (by omega) h).symm

/-- The `l`-th Lagrange polynomial on `0..n-1`. -/
noncomputable def lagr (F : Type) [Field F] (n l : Nat) : F[X] :=
  skipProd F n l * C ((skipProd F n l).eval (l : F))⁻¹

theorem lagr_natDegree (n l : Nat) (hl : l < n) : (lagr F n l).natDegree < n :=
  lt_of_le_of_lt (natDegree_mul_C_le _ _) (skipProd_natDegree n l hl)

theorem lagr_eval [SmallCasts F] (n l k : Nat) (hn : n ≤ 13) (hl : l < n) (hk : k < n) :
    (lagr F n l).eval (k : F) = if k = l then 1 else 0 := by
  unfold lagr
  rw [eval_mul, eval_C]
  split
  · subst_vars; exact mul_inv_cancel₀ (skipProd_eval_self n _ hn hl)
  · rw [skipProd_eval n l k hk ‹_›, zero_mul]

theorem lagrangeRow_eq (n l : Nat) (hl : l < n) :
    lagrangeRow (F := F) n l = .ok (tab n (lagr F n l).coeff) := by
  unfold lagrangeRow
  have h0 : setIdx (List.replicate n (0 : F)) 0 1 = .ok (tab n (skipProd F 0 l).coeff) := by
    rw [replicate_eq_tab, setIdx_tab (by omega)]
    congr 1
    apply tab_congr
    intro m _
    simp [skipProd, coeff_one, Function.update_apply]
  have hloop := forN_eq (body := fun i acc => if i = l then (.ok acc : Go (List F)) else mulBinomial n i acc)
    (fun i => tab n (skipProd F i l).coeff) n (by
      intro i _
      rw [skipProd_succ]
      split
      · rfl
      · rw [mulBinomial_coeff])
  rw [h0, ok_bind, hloop, ok_bind, evaluatePolynomial_coeff _ _ (skipProd_natDegree n l hl), ok_bind]
  simp only [go_pure, tab_map]
  congr 1
  apply tab_congr
  intro m _
  unfold lagr
  rw [coeff_mul_C]

theorem getLagrangePolynomial_eq (n : Nat) (hn : n ≤ 12) :
    getLagrangePolynomial (F := F) n = .ok (tab n (fun l => tab n (lagr F n l).coeff)) := by
  unfold getLagrangePolynomial lagrangeCoefficient
  rw [if_pos (by unfold maxDomainSize; omega)]
  apply gen_ok
  intro l hl
  exact lagrangeRow_eq n l hl

/-- The interpolating polynomial. -/
noncomputable def interp (F : Type) [Field F] (n : Nat) (v : Nat → F) : F[X] :=
  ∑ i ∈ range n, lagr F n i * C (v i)

theorem interpolateOnRange_tab (n : Nat) (hn : n ≤ 12) (v : Nat → F) :
    interpolateOnRange (tab n v) = .ok (tab n (interp F n v).coeff) := by
  unfold interpolateOnRange
  simp only [tab_length]
  rw [getLagrangePolynomial_eq n hn, ok_bind, replicate_eq_tab]
  have := forN_eq (body := fun i result => do
      let value ← idx (tab n v) i
      let row ← idx (tab n (fun l => tab n (lagr F n l).coeff)) i
      forN row.length result fun j result => do
        let c ← idx row j
        modIdx result j (fun u => u + c * value))
    (fun k => tab n (∑ i ∈ range k, lagr F n i * C (v i)).coeff) n (by
      intro i hi
      rw [idx_tab hi, ok_bind, idx_tab hi, ok_bind, tab_length]
      have hin := forN_eq (body := fun j result => do
          let c ← idx (tab n (lagr F n i).coeff) j
          modIdx result j (fun u => u + c * v i))
        (fun j => tab n (fun m => (∑ i ∈ range i, lagr F n i * C (v i)).coeff m +
          if m < j then (lagr F n i).coeff m * v i else 0)) n (by
          intro j hj
          rw [idx_tab hj, ok_bind, modIdx_tab hj]
          congr 1
          apply tab_congr
          intro m hm
          by_cases h : m = j
          · subst h; simp
          · have : (m < j + 1) = (m < j) := by rw [eq_iff_iff]; omega
            simp [h, this])
      refine Eq.trans (Eq.trans ?_ hin) ?_
      · congr 1; apply tab_congr; intro m _; simp
      · congr 1; apply tab_congr; intro m hm
        rw [Finset.sum_range_succ, coeff_add, coeff_mul_C]; simp [hm])
  refine Eq.trans (Eq.trans ?_ this) rfl
  rw [show (tab n fun _ => (0 : F)) = tab n (∑ i ∈ range 0, lagr F n i * C (v i)).coeff from
    tab_congr (fun m _ => by simp)]

theorem interp_natDegree (n : Nat) (hn : 0 < n) (v : Nat → F) : (interp F n v).natDegree < n := by
  unfold interp
  refine lt_of_le_of_lt (natDegree_sum_le_of_forall_le (n := n - 1) _ _ ?_) (by omega)
  intro i hi
  have := lagr_natDegree (F := F) n i (mem_range.1 hi)
  exact (natDegree_mul_C_le _ _).trans (by omega)

theorem interp_eval [SmallCasts F] (n : Nat) (hn : n ≤ 13) (v : Nat → F) (k : Nat) (hk : k < n) :
    (interp F n v).eval (k : F) = v k := by
  unfold interp
  rw [eval_finsetSum, Finset.sum_eq_single k]
  · rw [eval_mul, eval_C, lagr_eval n k k hn hk hk, if_pos rfl, one_mul]
  · intro i hi hik
    rw [eval_mul, lagr_eval n i k hn (mem_range.1 hi) hk, if_neg (Ne.symm hik), zero_mul]
  · intro h; simp at h; omega

/-- Two polynomials of degree `< n ≤ 13` agreeing on `0..n-1` are equal. -/
theorem poly_eq_of_range [SmallCasts F] (n : Nat) (hn : n ≤ 13) (P Q : F[X]) (hP : P.natDegree < n)
    (hQ : Q.natDegree < n) (h : ∀ k < n, P.eval (k : F) = Q.eval (k : F)) : P = Q := by
  classical
  rw [← sub_eq_zero]
  by_contra hne
  have hdeg : (P - Q).natDegree < n := lt_of_le_of_lt (natDegree_sub_le _ _) (by omega)
  have hcard : ((range n).image (fun k : Nat => (k : F))).card = n := by
    rw [Finset.card_image_of_injOn, Finset.card_range]
    intro a ha b hb hab
    simp only [coe_range, Set.mem_Iio] at ha hb
    exact SmallCasts.inj a b (by omega) (by omega) hab
  have := Polynomial.card_le_degree_of_subset_roots (p := P - Q)
    (Z := (range n).image (fun k : Nat => (k : F))) (by
      intro x hx
      simp only [Finset.mem_val, mem_image, mem_range] at hx
      obtain ⟨k, hk, rfl⟩ := hx
      rw [mem_roots hne, IsRoot, eval_sub, h k hk, sub_self])
  omega

theorem interp_of_poly [SmallCasts F] (n : Nat) (hn0 : 0 < n) (hn : n ≤ 13) (P : F[X]) (hP : P.natDegree < n) :
    interp F n (fun k => P.eval (k : F)) = P :=
  poly_eq_of_range n hn _ _ (interp_natDegree n hn0 _) hP (fun k hk => interp_eval n hn _ k hk)

/-- Interpolating the values of a polynomial of degree `< n` gives its coefficients. -/
theorem interpolateOnRange_poly [SmallCasts F] (n : Nat) (hn0 : 0 < n) (hn : n ≤ 12) (P : F[X])
    (hP : P.natDegree < n) :
    interpolateOnRange (tab n (fun k => P.eval (k : F))) = .ok (tab n P.coeff) := by
  rw [interpolateOnRange_tab n hn, interp_of_poly n hn0 (by omega) P hP]

theorem interpolateOnRange_err (values : List F) (h : 12 < values.length) :
    interpolateOnRange values = .error .index := by
  unfold interpolateOnRange getLagrangePolynomial maxDomainSize
  simp only
  rw [if_neg (by omega)]
  rfl

end GkrMimc
