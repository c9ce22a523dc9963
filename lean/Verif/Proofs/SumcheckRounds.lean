import Verif.Proofs.SumcheckEvals

/-! The rounds of the sumcheck prover and the verifier's loop. -/

set_option linter.unusedSectionVars false

namespace GkrMimc

open Spec Finset Polynomial

variable {F : Type} [Field F] [DecidableEq F]

/-! Functions given by polynomials of bounded degree. -/

/-- `f` is a polynomial function of degree at most `d`. -/
def PolyLe (d : Nat) (f : F → F) : Prop := ∃ P : F[X], P.natDegree ≤ d ∧ ∀ t, P.eval t = f t

theorem PolyLe.mono {d d' : Nat} {f : F → F} (h : PolyLe d f) (hd : d ≤ d') : PolyLe d' f := by
  obtain ⟨P, h1, h2⟩ := h
  exact ⟨P, h1.trans hd, h2⟩

theorem PolyLe.const (c : F) : PolyLe 0 (fun _ => c) := ⟨C c, by simp, by simp⟩

theorem PolyLe.mul {d d' : Nat} {f g : F → F} (hf : PolyLe d f) (hg : PolyLe d' g) :
    PolyLe (d + d') (fun t => f t * g t) := by
  obtain ⟨P, h1, h2⟩ := hf
  obtain ⟨Q, h3, h4⟩ := hg
  exact ⟨P * Q, natDegree_mul_le.trans (by omega), by simp [h2, h4]⟩

theorem PolyLe.sum {ι : Type} {d : Nat} {s : Finset ι} {f : ι → F → F} (h : ∀ i ∈ s, PolyLe d (f i)) :
    PolyLe d (fun t => ∑ i ∈ s, f i t) := by
  classical
  have h' : ∀ i, ∃ P : F[X], i ∈ s → P.natDegree ≤ d ∧ ∀ t, P.eval t = f i t := by
    intro i
    by_cases hi : i ∈ s
    · obtain ⟨P, hP⟩ := h i hi; exact ⟨P, fun _ => hP⟩
    · exact ⟨0, fun hc => absurd hc hi⟩
  choose P hP using h'
  refine ⟨∑ i ∈ s, P i, natDegree_sum_le_of_forall_le _ _ (fun i hi => (hP i hi).1), ?_⟩
  intro t
  rw [eval_finsetSum]
  exact Finset.sum_congr rfl (fun i hi => (hP i hi).2 t)

theorem PolyLe.foldF (m : Nat) (f : Nat → F) (i : Nat) : PolyLe 1 (fun t => foldF m f t i) :=
  ⟨affine (f i) (f (m + i) - f i), affine_natDegree _ _, fun t => by
    rw [affine_eval]; unfold GkrMimc.foldF; ring⟩

theorem le_foldl_max {α : Type} (d : α → Nat) (xs : List α) : ∀ z, z ≤ xs.foldl (fun m x => max m (d x)) z ∧
    ∀ x ∈ xs, d x ≤ xs.foldl (fun m x => max m (d x)) z := by
  induction xs with
  | nil => intro z; simp
  | cons a xs ih =>
    intro z
    obtain ⟨h1, h2⟩ := ih (max z (d a))
    rw [List.foldl_cons]
    refine ⟨by omega, fun x hx => ?_⟩
    rcases List.mem_cons.1 hx with rfl | hx
    · omega
    · exact h2 x hx

theorem foldSumL_poly (gates : List (Gate F)) (hg : ∀ g ∈ gates, LawfulGate g) (A B n : Nat) (vL vR e : Nat → F)
    (s : Nat → Nat → F) : PolyLe (degL gates) (foldSumL gates A B n vL vR e s) := by
  unfold foldSumL hsum
  refine PolyLe.sum fun h _ => PolyLe.sum fun l _ => PolyLe.sum fun r _ => PolyLe.sum fun i hi => ?_
  have hi := mem_range.1 hi
  refine PolyLe.mul (d := degL gates - 1 + 0) (PolyLe.mul (d := degL gates - 1) ?_ (PolyLe.const (e h)))
    (PolyLe.foldF _ (s i) _) |>.mono (by unfold degL; omega)
  obtain ⟨P, h1, h2⟩ := (hg _ (List.getElem_mem hi)).degL (vL (l * n + h)) (vL (A * n + (l * n + h)) - vL (l * n + h))
    (vR (r * n + h))
  refine ⟨P, h1.trans ?_, fun t => ?_⟩
  · have := (le_foldl_max (fun g : Gate F => g.degHL) gates 0).2 _ (List.getElem_mem hi)
    unfold degL; omega
  · rw [h2]; beta_reduce; rw [gateF_eq hi]; unfold GkrMimc.foldF; rw [mul_comm t]

theorem foldSumR_poly (gates : List (Gate F)) (hg : ∀ g ∈ gates, LawfulGate g) (B n : Nat) (vL vR e : Nat → F)
    (s : Nat → Nat → F) : PolyLe (degR gates) (foldSumR gates B n vL vR e s) := by
  unfold foldSumR hsum
  refine PolyLe.sum fun h _ => PolyLe.sum fun l _ => PolyLe.sum fun r _ => PolyLe.sum fun i hi => ?_
  have hi := mem_range.1 hi
  refine PolyLe.mul (d := degR gates - 1 + 0) (PolyLe.mul (d := degR gates - 1) ?_ (PolyLe.const (e h)))
    (PolyLe.foldF _ (s i) _) |>.mono (by unfold degR; omega)
  obtain ⟨P, h1, h2⟩ := (hg _ (List.getElem_mem hi)).degR (vL (l * n + h)) (vR (r * n + h))
    (vR (B * n + (r * n + h)) - vR (r * n + h))
  refine ⟨P, h1.trans ?_, fun t => ?_⟩
  · have := (le_foldl_max (fun g : Gate F => g.degHR) gates 0).2 _ (List.getElem_mem hi)
    unfold degR; omega
  · rw [h2]; beta_reduce; rw [gateF_eq hi]; unfold GkrMimc.foldF; rw [mul_comm t]

theorem foldSumP_poly (gates : List (Gate F)) (hg : ∀ g ∈ gates, LawfulGate g) (n : Nat) (vL vR e : Nat → F)
    (s : Nat → Nat → F) : PolyLe (degP gates) (foldSumP gates n vL vR e s) := by
  unfold foldSumP hsum
  refine PolyLe.sum fun h _ => PolyLe.sum fun l _ => PolyLe.sum fun r _ => PolyLe.sum fun i hi => ?_
  have hi := mem_range.1 hi
  refine PolyLe.mul (d := degP gates - 1 + 1) (PolyLe.mul (d := degP gates - 1) ?_ (PolyLe.foldF n e h))
    (PolyLe.const (s i (l * 1 + r))) |>.mono (by unfold degP; omega)
  obtain ⟨P, h1, h2⟩ := (hg _ (List.getElem_mem hi)).degP (vL (l * n + h)) (vL (n + (l * n + h)) - vL (l * n + h))
    (vR (r * n + h)) (vR (n + (r * n + h)) - vR (r * n + h))
  refine ⟨P, h1.trans ?_, fun t => ?_⟩
  · have := (le_foldl_max (fun g : Gate F => g.degHPrime) gates 0).2 _ (List.getElem_mem hi)
    unfold degP; omega
  · rw [h2]; beta_reduce; rw [gateF_eq hi]; unfold GkrMimc.foldF; rw [mul_comm t, mul_comm t]

/-! Splitting the sum into halves. -/

theorem foldSumL_split (gates : List (Gate F)) (A B n : Nat) (vL vR e : Nat → F) (s : Nat → Nat → F) :
    hsum gates (2 * A) B n vL vR e s = foldSumL gates A B n vL vR e s 0 + foldSumL gates A B n vL vR e s 1 := by
  unfold foldSumL hsum
  simp only [foldF_zero, foldF_one]
  rw [← Finset.sum_add_distrib]
  apply Finset.sum_congr rfl; intro h _
  rw [two_mul, Finset.sum_range_add]
  congr 1
  apply Finset.sum_congr rfl; intro l _
  apply Finset.sum_congr rfl; intro r _
  apply Finset.sum_congr rfl; intro i _
  rw [show (A + l) * n + h = A * n + (l * n + h) by ring, show (A + l) * B + r = A * B + (l * B + r) by ring]

theorem foldSumR_split (gates : List (Gate F)) (B n : Nat) (vL vR e : Nat → F) (s : Nat → Nat → F) :
    hsum gates 1 (2 * B) n vL vR e s = foldSumR gates B n vL vR e s 0 + foldSumR gates B n vL vR e s 1 := by
  unfold foldSumR hsum
  simp only [foldF_zero, foldF_one, Finset.sum_range_one, zero_mul, zero_add]
  rw [← Finset.sum_add_distrib]
  apply Finset.sum_congr rfl; intro h _
  rw [two_mul, Finset.sum_range_add]
  congr 1
  apply Finset.sum_congr rfl; intro r _
  apply Finset.sum_congr rfl; intro i _
  rw [show (B + r) * n + h = B * n + (r * n + h) by ring]

theorem foldSumP_split (gates : List (Gate F)) (n : Nat) (vL vR e : Nat → F) (s : Nat → Nat → F) :
    hsum gates 1 1 (2 * n) vL vR e s = foldSumP gates n vL vR e s 0 + foldSumP gates n vL vR e s 1 := by
  unfold foldSumP hsum
  simp only [foldF_zero, foldF_one, Finset.sum_range_one, zero_mul, zero_add]
  rw [two_mul, Finset.sum_range_add]

/-! Folding the prover. -/

theorem tab_statics_fold (nG K : Nat) (s : Nat → Nat → F) (r : F) :
    (tab nG (fun i => tab (2 * K) (s i))).map (fold · r) = tab nG (fun i => tab K (foldF K (s i) r)) := by
  rw [tab_map]
  apply tab_congr; intro i _
  rw [fold_tab']

theorem foldHL_mkP (gates : List (Gate F)) (A B n : Nat) (vL vR e : Nat → F) (s : Nat → Nat → F) (r : F) :
    (mkP gates (2 * A) B n vL vR e s).foldHL r =
      mkP gates A B n (foldF (A * n) vL r) vR e (fun i => foldF (A * B) (s i) r) := by
  unfold SProver.foldHL mkP newSProver
  simp only [mul_assoc, fold_tab', tab_statics_fold]

theorem foldHR_mkP (gates : List (Gate F)) (B n : Nat) (vL vR e : Nat → F) (s : Nat → Nat → F) (r : F) :
    (mkP gates 1 (2 * B) n vL vR e s).foldHR r =
      mkP gates 1 B n vL (foldF (B * n) vR r) e (fun i => foldF B (s i) r) := by
  unfold SProver.foldHR mkP newSProver
  simp only [mul_assoc, one_mul, fold_tab', tab_statics_fold]

theorem foldHPrime_mkP (gates : List (Gate F)) (n : Nat) (vL vR e : Nat → F) (s : Nat → Nat → F) (r : F) :
    (mkP gates 1 1 (2 * n) vL vR e s).foldHPrime r =
      mkP gates 1 1 n (foldF n vL r) (foldF n vR r) (foldF n e r) s := by
  unfold SProver.foldHPrime mkP newSProver
  simp only [one_mul, fold_tab']

/-! Generic rounds. -/

theorem rounds_acc (H : List F → F) (evals : SProver F → Go (List F)) (foldX : SProver F → F → SProver F) (k : Nat) :
    ∀ (j : Nat) (p : SProver F) (cs : List (List F)) (qs : List F),
    forFrom (fun _ (s : SProver F × List (List F) × List F) => do
      let e ← evals s.1
      let c ← interpolateOnRange e
      let r := H c
      return (foldX s.1 r, s.2.1 ++ [c], s.2.2 ++ [r])) j k (p, cs, qs) =
    (do
      let x ← rounds H evals foldX k p
      return (x.1, cs ++ x.2.1, qs ++ x.2.2)) := by
  induction k with
  | zero => intro j p cs qs; simp [forFrom, rounds]
  | succ k ih =>
    intro j p cs qs
    unfold rounds forN
    rw [forFrom, forFrom]
    cases he : evals p with
    | error x => simp
    | ok e =>
      simp only [ok_bind]
      cases hc : interpolateOnRange e with
      | error x => simp
      | ok c =>
        simp only [ok_bind, go_pure]
        refine (ih _ _ _ _).trans ?_
        have h2 := ih (0 + 1) (foldX p (H c)) ([] ++ [c]) ([] ++ [H c])
        simp only [go_pure] at h2
        rw [h2]
        cases rounds H evals foldX k (foldX p (H c)) with
        | error x => simp
        | ok y => simp

theorem rounds_zero (H : List F → F) (evals : SProver F → Go (List F)) (foldX : SProver F → F → SProver F)
    (p : SProver F) : rounds H evals foldX 0 p = .ok (p, [], []) := rfl

theorem rounds_succ (H : List F → F) (evals : SProver F → Go (List F)) (foldX : SProver F → F → SProver F) (k : Nat)
    (p : SProver F) :
    rounds H evals foldX (k + 1) p = (do
      let e ← evals p
      let c ← interpolateOnRange e
      let x ← rounds H evals foldX k (foldX p (H c))
      return (x.1, c :: x.2.1, H c :: x.2.2)) := by
  conv_lhs => unfold rounds forN
  rw [forFrom]
  cases he : evals p with
  | error x => simp
  | ok e =>
    simp only [ok_bind]
    cases hc : interpolateOnRange e with
    | error x => simp
    | ok c =>
      simp only [ok_bind, go_pure]
      have h2 := rounds_acc H evals foldX k (0 + 1) (foldX p (H c)) ([] ++ [c]) ([] ++ [H c])
      simp only [go_pure] at h2
      rw [h2]
      simp

/-- The verifier's loop on one more polynomial. -/
theorem verifyLoop_cons (H : List F → F) (c : List F) (cs : List (List F)) (expected : F) (a0 a1 a : F)
    (h0 : evaluatePolynomial c 0 = .ok a0) (h1 : evaluatePolynomial c 1 = .ok a1)
    (hr : evaluatePolynomial c (H c) = .ok a) :
    sumcheckVerifyLoop H (c :: cs) expected = if expected ≠ a0 + a1 then .ok none else do
      let rest ← sumcheckVerifyLoop H cs a
      return rest.map (fun x => (H c :: x.1, x.2)) := by
  rw [sumcheckVerifyLoop, h0, ok_bind, h1, ok_bind]
  split
  · rfl
  · simp only [hr, ok_bind]

/-- One kind of rounds: at level `k+1` the evaluations are those of a polynomial of low degree whose value at `r` is
the sum of the folded prover. -/
structure RoundsOk (n : Nat) (evals : SProver F → Go (List F)) (foldX : SProver F → F → SProver F)
    (Good : Nat → SProver F → Prop) (sum : Nat → SProver F → F) : Prop where
  step : ∀ k p, Good (k + 1) p → ∃ P : F[X], 0 < n ∧ n ≤ 12 ∧ P.natDegree < n ∧
    evals p = .ok (tab n (fun t => P.eval (t : F))) ∧
    (∀ r, P.eval r = sum k (foldX p r)) ∧ sum (k + 1) p = P.eval 0 + P.eval 1 ∧ ∀ r, Good k (foldX p r)

/-- Honest rounds run, and the verifier's loop follows them. -/
theorem rounds_spec [SmallCasts F] (H : List F → F) {n : Nat} {evals : SProver F → Go (List F)}
    {foldX : SProver F → F → SProver F} {Good : Nat → SProver F → Prop} {sum : Nat → SProver F → F}
    (h : RoundsOk n evals foldX Good sum) (k : Nat) : ∀ p, Good k p →
    ∃ cs qs, rounds H evals foldX k p = .ok (qs.foldl foldX p, cs, qs) ∧ qs.length = k ∧
      cs.map List.length = List.replicate k n ∧ Good 0 (qs.foldl foldX p) ∧
      ∀ rest, sumcheckVerifyLoop H (cs ++ rest) (sum k p) = (do
        let x ← sumcheckVerifyLoop H rest (sum 0 (qs.foldl foldX p))
        return x.map (fun y => (qs ++ y.1, y.2))) := by
  induction k with
  | zero =>
    intro p hp
    refine ⟨[], [], rfl, rfl, rfl, hp, ?_⟩
    intro rest
    simp only [List.nil_append, List.foldl_nil]
    cases sumcheckVerifyLoop H rest (sum 0 p) with
    | error e => rfl
    | ok x => simp
  | succ k ih =>
    intro p hp
    obtain ⟨P, hn0, hn, hdeg, hev, hsum, hsplit, hgood⟩ := h.step k p hp
    set c := tab n P.coeff with hc
    have hint : interpolateOnRange (tab n (fun t => P.eval (t : F))) = .ok c := interpolateOnRange_poly n hn0 hn P hdeg
    obtain ⟨cs, qs, hr, hl, hl2, hg0, hv⟩ := ih (foldX p (H c)) (hgood _)
    refine ⟨c :: cs, H c :: qs, ?_, by simp [hl], by simp [hl2, hc, List.replicate_succ], by simpa using hg0, ?_⟩
    · rw [rounds_succ, hev, ok_bind, hint, ok_bind, hr, ok_bind]; rfl
    · intro rest
      rw [List.cons_append, verifyLoop_cons H c (cs ++ rest) _ (P.eval 0) (P.eval 1) (P.eval (H c))
        (evaluatePolynomial_coeff n P hdeg 0) (evaluatePolynomial_coeff n P hdeg 1)
        (evaluatePolynomial_coeff n P hdeg _), if_neg (by rw [hsplit]; exact not_not.2 rfl), hsum, hv rest]
      simp only [List.foldl_cons]
      cases sumcheckVerifyLoop H rest (sum 0 (qs.foldl foldX (foldX p (H c)))) with
      | error e => rfl
      | ok x => cases x <;> simp

end GkrMimc
