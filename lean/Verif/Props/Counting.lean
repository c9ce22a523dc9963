import Verif.Proofs.Counting
import Verif.Props.Snark

/-! Properties C44 and C45: how many challenges let a cheating prover through, if the challenges were drawn at random. -/

set_option linter.unusedSectionVars false

namespace GkrMimc

open Spec Finset Polynomial

variable {F : Type} [Field F] [DecidableEq F] [Fintype F]

/-- C44. For every wrong claim and every prover `P`, adaptive or not, whose polynomials have at most `D + 1` coefficients, with
`D` at least the degrees of the summand: out of the `|F|^n` challenge vectors (`n` rounds), at most `n * D * |F|^(n-1)` make
`Verify` accept with a final claim equal to the summand at the challenge point. -/
theorem C44_sumcheck (gates : List (Gate F)) (hg : ∀ g ∈ gates, LawfulGate g) (bN bG : Nat)
    (vL vR eq : List F) (statics : List (List F)) (claim : F) (P : List F → List F) (D : Nat)
    (hD : ∀ i, summandDeg gates bG i ≤ D) (hP : ∀ pre, (P pre).length ≤ D + 1)
    (hclaim : claim ≠ hypercubeSum gates bN bG vL vR eq statics) :
    count (fun ρ : Fin (2 * bG + bN) → F => ∃ (H : List F → F) (v : SumcheckVerdict F),
      DrawnSumcheck P H (List.ofFn ρ) ∧
      sumcheckVerify H claim (playSumcheck P (List.ofFn ρ)) bG = .ok (some v) ∧
      v.finalClaim = combinator gates (mle vL (v.qL ++ v.qPrime)) (mle vR (v.qR ++ v.qPrime)) (mle eq v.qPrime)
        (statics.map fun t => mle t (v.qL ++ v.qR))) ≤
      (2 * bG + bN) * D * Fintype.card F ^ (2 * bG + bN - 1) := by
  set n := 2 * bG + bN with hn
  have hcount := count_family (F := F) (range n) n id (fun a ha => mem_range.1 ha)
    (fun i pre x => P pre ≠ [] ∧ ∃ Q : F[X], Q.natDegree ≤ D ∧
      (∀ y, Q.eval y = cubeSum (n - 1 - i) (fun b => summand gates bG vL vR eq statics (pre ++ y :: b))) ∧
      polyOf (P pre) ≠ Q ∧ (polyOf (P pre)).eval x = Q.eval x) D (by
      intro i _ pre
      by_cases hc : P pre = []
      · rw [count_false fun x h => h.1 hc]
        exact Nat.zero_le _
      · exact le_trans (count_mono fun x h => h.2) (count_agree _ hc D (hP pre) _))
  rw [card_range] at hcount
  refine le_trans (count_mono ?_) hcount
  rintro ρ ⟨H, v, hdr, hacc, hfin⟩
  have hlen : (playSumcheck P (List.ofFn ρ)).length = n := by simp [playSumcheck]
  obtain ⟨i, hi, Q, q1, q2, q3, q4⟩ := C17_sound H gates hg bN bG vL vR eq statics claim _ v hlen hclaim hacc hfin
  have hne := ((C17_accepts_iff H claim _ bG v).1 hacc).1 _ (List.getElem_mem hi)
  have hi' : i < (List.ofFn ρ).length := by simpa [playSumcheck] using hi
  simp only [playSumcheck_get] at hne q3 q4
  rw [hdr i hi'] at q4
  refine ⟨i, mem_range.2 (hlen ▸ hi), hne, Q, q1.trans (hD i), ?_, q3, q4⟩
  intro y
  rw [q2, hlen, playSumcheck_map P H _ hdr]
  rfl

/-- C44, the bound is sharp and depends on the length of the polynomials, which `Verify` does not check: for every set `S` of
challenges (with `∏ s + ∏ (s - 1)` up to sign not zero) and all wrong claims there is a polynomial with `|S| + 1` coefficients
which `Verify` accepts, with the right final claim, for all challenges in `S`. -/
theorem C44_no_degree_check (S : Finset F) (hS : ∏ s ∈ S, (0 - s) + ∏ s ∈ S, (1 - s) ≠ 0) (f : F → F) (Q : F[X])
    (hQ : ∀ x, Q.eval x = f x) (hd : Q.natDegree ≤ S.card) (claim : F) :
    ∃ c : List F, c.length = S.card + 1 ∧ ∀ H : List F → F, H c ∈ S →
      sumcheckVerify H claim [c] 0 = .ok (some ⟨[H c], [], [], f (H c)⟩) := by
  set Z : F[X] := ∏ s ∈ S, (X - C s) with hZ
  have hZ0 : Z.eval 0 + Z.eval 1 ≠ 0 := by
    rw [hZ, eval_prod, eval_prod]
    simpa using hS
  set δ : F := (claim - f 0 - f 1) / (Z.eval 0 + Z.eval 1) with hδ
  set p : F[X] := Q + C δ * Z with hp
  have hpd : p.natDegree ≤ S.card := by
    refine (natDegree_add_le _ _).trans (max_le hd ((natDegree_C_mul_le _ _).trans ?_))
    rw [hZ, natDegree_prod_of_monic _ _ (fun s _ => monic_X_sub_C s)]
    simp
  set c : List F := (List.range (S.card + 1)).map p.coeff with hc
  have hpc : polyOf c = p := by
    ext i
    unfold polyOf
    rw [finsetSum_coeff]
    simp only [coeff_C_mul, coeff_X_pow, mul_ite, mul_one, mul_zero]
    rw [Finset.sum_ite_eq]
    by_cases hi : i ∈ range c.length
    · rw [if_pos hi]
      have hi' : i < S.card + 1 := by simpa [hc] using hi
      simp [hc, List.getD_eq_getElem?_getD, List.getElem?_range hi']
    · rw [if_neg hi]
      have hi' : S.card < i := by simpa [hc] using hi
      exact (coeff_eq_zero_of_natDegree_lt (by omega)).symm
  refine ⟨c, by simp [hc], fun H hH => ?_⟩
  rw [C17_accepts_iff]
  refine ⟨by simp [hc], ⟨?_, trivial⟩, by simp, rfl, rfl, rfl, ?_⟩
  · rw [hpc, hp]
    simp only [eval_add, eval_mul, eval_C, hQ]
    have : δ * (Z.eval 0 + Z.eval 1) = claim - f 0 - f 1 := by rw [hδ, div_mul_cancel₀ _ hZ0]
    linear_combination this
  · simp only [lastValue]
    rw [hpc, hp]
    have : Z.eval (H c) = 0 := by
      rw [hZ, eval_prod]
      exact prod_eq_zero hH (by simp)
    simp [this, hQ]

/-- The hypotheses of both are met: MiMC gates have degree 8 in the rounds; two challenges. -/
example : (∀ i, summandDeg [cipherGate frString 3, copyGate] 1 i ≤ 8) ∧
    ∏ s ∈ ({2, 3} : Finset Fr), (0 - s) + ∏ s ∈ ({2, 3} : Finset Fr), (1 - s) ≠ 0 := by
  refine ⟨fun i => ?_, by decide +kernel⟩
  unfold summandDeg
  split_ifs <;> decide

/-- A cheating prover that gets through for one challenge: the sum of `x` over `x ∈ {0,1}` is 1, the claim 2, the polynomial 1. -/
example : DrawnSumcheck (fun _ => [1]) (fun _ => (1 : Fr)) [1] ∧
    sumcheckVerify (fun _ => (1 : Fr)) 2 (playSumcheck (fun _ => [1]) [1]) 0 = .ok (some ⟨[1], [], [], 1⟩) ∧
    (2 : Fr) ≠ hypercubeSum [copyGate (F := Fr)] 1 0 [0, 1] [0, 0] [1, 1] [[1]] := by
  refine ⟨?_, by decide +kernel, ?_⟩
  · intro i hi
    obtain rfl : i = 0 := by simpa using hi
    rfl
  · have : hypercubeSum [copyGate (F := Fr)] 1 0 [0, 1] [0, 0] [1, 1] [[1]] = 1 := by
      simp [hypercubeSum, copyGate, Finset.sum_range_succ]
    rw [this]
    decide +kernel

/-- C45. For every wrong value claimed for the outputs at a point `(q, q')` and every adaptive prover whose polynomials have at
most `D + 2` coefficients (`D` bounding the degrees of the gates): out of the `|F|^N` challenge vectors (`N` rounds and
combinations in all) at most `N * (D + 1) * |F|^(N-1)` make all the checks of GKR pass. -/
theorem C45_checks (P : Cheater F) (wiring : List (List (Wire F))) (hne : wiring ≠ [])
    (hw : ∀ ws ∈ wiring, GoodWires ws) (G k m : Nat) (hG : Chained G (newCircuit wiring).layers)
    (ln : Layer F) (hln : (newCircuit wiring).layers[(newCircuit wiring).layers.length - 1]? = some ln)
    (D : Nat) (hD : ∀ ws ∈ wiring, ∀ w ∈ ws, w.gate.degHL ≤ D ∧ w.gate.degHR ≤ D ∧ w.gate.degHPrime ≤ D)
    (hP : ∀ pre, (P.poly pre).length ≤ D + 2)
    (inputs trueOutputs : List (List F)) (hin : WellChunked k (G + m) inputs)
    (htrue : (wiredAssignment (2 ^ m) (newCircuit wiring).layers inputs).getLast? = some trueOutputs)
    (claim : F) (q q' : List F) (hq : q.length = ln.bGOutputs) (hq' : q'.length = m + k)
    (hwrong : claim ≠ mle (interleave (2 ^ k) (2 ^ (ln.bGOutputs + m)) trueOutputs) (q ++ q')) :
    count (fun ρ : Fin (coins (m + k) (newCircuit wiring).layers) → F =>
      ∃ H : List F → F, P.Drawn (m + k) (newCircuit wiring).layers H (List.ofFn ρ) ∧
        GkrConsistent H (m + k) (newCircuit wiring).layers (P.play (m + k) (newCircuit wiring).layers (List.ofFn ρ))
          (interleave (2 ^ k) (2 ^ (G + m)) inputs) ⟨claim, q', chi q⟩) ≤
      coins (m + k) (newCircuit wiring).layers * (D + 1) * Fintype.card F ^ (coins (m + k) (newCircuit wiring).layers - 1) :=
  gkr_count P wiring hne hw G k m hG ln hln D hD hP inputs trueOutputs hin htrue claim q q' hq hq' hwrong

/-- C45 for `gkr.Verifier.Verify`: the same bound for the challenges with which it accepts, for outputs wrong at its initial
point, when no check of a layer fails (line 99 accepts in that case, `C23_negation`). -/
theorem C45_verify (P : Cheater F) (wiring : List (List (Wire F))) (hne : wiring ≠ [])
    (hw : ∀ ws ∈ wiring, GoodWires ws) (G k m : Nat) (hk : 1 ≤ k) (hG : Chained G (newCircuit wiring).layers)
    (ln : Layer F) (hln : (newCircuit wiring).layers[(newCircuit wiring).layers.length - 1]? = some ln)
    (D : Nat) (hD : ∀ ws ∈ wiring, ∀ w ∈ ws, w.gate.degHL ≤ D ∧ w.gate.degHR ≤ D ∧ w.gate.degHPrime ≤ D)
    (hP : ∀ pre, (P.poly pre).length ≤ D + 2)
    (inputs outputs trueOutputs : List (List F)) (hin : WellChunked k (G + m) inputs)
    (hout : WellChunked k (ln.bGOutputs + m) outputs)
    (htrue : (wiredAssignment (2 ^ m) (newCircuit wiring).layers inputs).getLast? = some trueOutputs)
    (hwrong : (outputGoal k m ln outputs).claim ≠ (outputGoal k m ln trueOutputs).claim) :
    count (fun ρ : Fin (coins (m + k) (newCircuit wiring).layers) → F =>
      ∃ H : List F → F, P.Drawn (m + k) (newCircuit wiring).layers H (List.ofFn ρ) ∧
        gkrVerify H (m + k) (newCircuit wiring) (P.play (m + k) (newCircuit wiring).layers (List.ofFn ρ)) inputs outputs =
          .ok true ∧
        ∀ (i : Nat) (l : Layer F), i < (newCircuit wiring).layers.length - 1 → (newCircuit wiring).layers[i]? = some l →
          ValueCheck H l (goalOf H (newCircuit wiring).layers (P.play (m + k) (newCircuit wiring).layers (List.ofFn ρ))
            (outputGoal k m ln outputs) i) (msgOf (P.play (m + k) (newCircuit wiring).layers (List.ofFn ρ)) i)) ≤
      coins (m + k) (newCircuit wiring).layers * (D + 1) * Fintype.card F ^ (coins (m + k) (newCircuit wiring).layers - 1) := by
  refine le_trans (count_mono ?_) (gkr_count P wiring hne hw G k m hG ln hln D hD hP inputs trueOutputs hin htrue
    (outputGoal k m ln outputs).claim (getInitialQPrimeAndQ (m + k) ln.bGOutputs).2 (getInitialQPrimeAndQ (m + k) ln.bGOutputs).1
    (by simp [getInitialQPrimeAndQ]) (by simp [getInitialQPrimeAndQ]) hwrong)
  rintro ρ ⟨H, hdr, hacc, hv⟩
  refine ⟨H, hdr, ?_⟩
  rcases C23_accept_partial H wiring hne hw G k m hk hG ln hln inputs outputs hin hout _ hacc with h | ⟨i, l, h1, h2, _, h4⟩
  · exact h
  · exact absurd (hv i l h1 h2) h4

/-- C45 for circuits of one layer, where line 99 is not reached: no condition but acceptance. -/
theorem C45_single_layer (P : Cheater F) (ws : List (Wire F)) (hw : GoodWires ws) (G k m : Nat) (hk : 1 ≤ k)
    (hG : Chained G (newCircuit [ws]).layers)
    (D : Nat) (hD : ∀ w ∈ ws, w.gate.degHL ≤ D ∧ w.gate.degHR ≤ D ∧ w.gate.degHPrime ≤ D)
    (hP : ∀ pre, (P.poly pre).length ≤ D + 2)
    (inputs outputs trueOutputs : List (List F)) (hin : WellChunked k (G + m) inputs)
    (hout : WellChunked k ((newLayer ws).bGOutputs + m) outputs)
    (htrue : (wiredAssignment (2 ^ m) (newCircuit [ws]).layers inputs).getLast? = some trueOutputs)
    (hwrong : (outputGoal k m (newLayer ws) outputs).claim ≠ (outputGoal k m (newLayer ws) trueOutputs).claim) :
    count (fun ρ : Fin (coins (m + k) (newCircuit [ws]).layers) → F =>
      ∃ H : List F → F, P.Drawn (m + k) (newCircuit [ws]).layers H (List.ofFn ρ) ∧
        gkrVerify H (m + k) (newCircuit [ws]) (P.play (m + k) (newCircuit [ws]).layers (List.ofFn ρ)) inputs outputs =
          .ok true) ≤
      coins (m + k) (newCircuit [ws]).layers * (D + 1) * Fintype.card F ^ (coins (m + k) (newCircuit [ws]).layers - 1) := by
  refine le_trans (count_mono ?_) (C45_verify P [ws] (by simp) (by simpa using hw) G k m hk hG (newLayer ws) rfl D
    (by simpa using hD) hP inputs outputs trueOutputs hin hout htrue hwrong)
  rintro ρ ⟨H, hdr, hacc⟩
  refine ⟨H, hdr, hacc, ?_⟩
  intro i l hi
  simp [newCircuit] at hi

/-- Few points make a non-zero table vanish. -/
theorem count_mle_zero : ∀ (n : Nat) (T : Nat → F), (∃ i < 2 ^ n, T i ≠ 0) →
    count (fun x : Fin n → F => mleF T (List.ofFn x) = 0) ≤ n * Fintype.card F ^ (n - 1) := by
  classical
  intro n
  induction n with
  | zero =>
    rintro T ⟨i, hi, h⟩
    obtain rfl : i = 0 := by simpa using hi
    rw [count_false]
    · simp
    · intro x hx
      apply h
      simpa [mleF, chi_nil] using hx
  | succ n ih =>
    rintro T ⟨i, hi, h⟩
    have hsplit : count (fun x : Fin (n + 1) → F => mleF T (List.ofFn x) = 0) =
        ∑ r : F, count (fun x : Fin n → F => mleF (fun i => T i + (T (2 ^ n + i) - T i) * r) (List.ofFn x) = 0) := by
      rw [count_equiv (Fin.consEquiv (fun _ => F)), count_prod]
      apply sum_congr rfl
      intro r _
      congr 1
      funext x
      have : List.ofFn (Fin.consEquiv (fun _ => F) (r, x)) = r :: List.ofFn x := by
        simp [Fin.consEquiv]
      rw [this, mleF_cons, List.length_ofFn]
    rw [hsplit]
    set B : Finset F := univ.filter fun r => ∀ i < 2 ^ n, T i + (T (2 ^ n + i) - T i) * r = 0 with hB
    have hB1 : B.card ≤ 1 := by
      rw [card_le_one]
      intro r hr s hs
      have hr := (mem_filter.1 hr).2
      have hs := (mem_filter.1 hs).2
      by_contra hne
      have key : ∀ i < 2 ^ n, T i = 0 ∧ T (2 ^ n + i) = 0 := by
        intro i hi
        have h1 := hr i hi
        have h2 := hs i hi
        have h3 : (T (2 ^ n + i) - T i) * (r - s) = 0 := by linear_combination h1 - h2
        have h4 : T (2 ^ n + i) - T i = 0 := (mul_eq_zero.1 h3).resolve_right (sub_ne_zero.2 hne)
        rw [h4, zero_mul, add_zero] at h1
        exact ⟨h1, by linear_combination h4 + h1⟩
      rcases Nat.lt_or_ge i (2 ^ n) with h5 | h5
      · exact h (key i h5).1
      · have h6 := (key (i - 2 ^ n) (by rw [pow_succ] at hi; omega)).2
        rw [Nat.add_sub_cancel' h5] at h6
        exact h h6
    calc _ ≤ ∑ r : F, ((if r ∈ B then Fintype.card F ^ n else 0) + n * Fintype.card F ^ (n - 1)) := by
          apply sum_le_sum
          intro r _
          by_cases hr : r ∈ B
          · rw [if_pos hr]
            refine le_trans (count_le_card _) ?_
            simp
          · rw [if_neg hr, Nat.zero_add]
            apply ih
            simpa [hB] using hr
      _ = B.card * Fintype.card F ^ n + Fintype.card F * (n * Fintype.card F ^ (n - 1)) := by
          rw [sum_add_distrib, sum_const, card_univ, smul_eq_mul, Finset.sum_ite_mem, univ_inter, sum_const, smul_eq_mul]
      _ ≤ 1 * Fintype.card F ^ n + n * Fintype.card F ^ n := by
          apply Nat.add_le_add
          · exact Nat.mul_le_mul_right _ hB1
          · rcases n with _ | n
            · simp
            · rw [Nat.add_sub_cancel, pow_succ]
              apply le_of_eq
              ring
      _ = _ := by rw [Nat.add_sub_cancel]; ring

/-- C45 with a random initial point, as in the protocol (the code takes the constants 1, 2, 3, …, `C25_negation`): for **all** wrong
outputs, and a prover that knows the point, at most `(n + N * (D + 1)) * |F|^(n + N - 1)` of the `|F|^(n+N)` choices of the point
(`n` coordinates) and of the challenges make all the checks pass. -/
theorem C45_random_point (P : List F → Cheater F) (wiring : List (List (Wire F))) (hne : wiring ≠ [])
    (hw : ∀ ws ∈ wiring, GoodWires ws) (G k m : Nat) (hG : Chained G (newCircuit wiring).layers)
    (ln : Layer F) (hln : (newCircuit wiring).layers[(newCircuit wiring).layers.length - 1]? = some ln)
    (D : Nat) (hD : ∀ ws ∈ wiring, ∀ w ∈ ws, w.gate.degHL ≤ D ∧ w.gate.degHR ≤ D ∧ w.gate.degHPrime ≤ D)
    (hP : ∀ pt pre, ((P pt).poly pre).length ≤ D + 2)
    (inputs outputs trueOutputs : List (List F)) (hin : WellChunked k (G + m) inputs)
    (htrue : (wiredAssignment (2 ^ m) (newCircuit wiring).layers inputs).getLast? = some trueOutputs)
    (hwrong : interleave (2 ^ k) (2 ^ (ln.bGOutputs + m)) outputs ≠ interleave (2 ^ k) (2 ^ (ln.bGOutputs + m)) trueOutputs) :
    count (fun x : (Fin (ln.bGOutputs + (m + k)) → F) × (Fin (coins (m + k) (newCircuit wiring).layers) → F) =>
      ∃ H : List F → F, (P (List.ofFn x.1)).Drawn (m + k) (newCircuit wiring).layers H (List.ofFn x.2) ∧
        GkrConsistent H (m + k) (newCircuit wiring).layers
          ((P (List.ofFn x.1)).play (m + k) (newCircuit wiring).layers (List.ofFn x.2))
          (interleave (2 ^ k) (2 ^ (G + m)) inputs)
          ⟨mle (interleave (2 ^ k) (2 ^ (ln.bGOutputs + m)) outputs) (List.ofFn x.1), (List.ofFn x.1).drop ln.bGOutputs,
            chi ((List.ofFn x.1).take ln.bGOutputs)⟩) ≤
      (ln.bGOutputs + (m + k) + coins (m + k) (newCircuit wiring).layers * (D + 1)) *
        Fintype.card F ^ (ln.bGOutputs + (m + k) + coins (m + k) (newCircuit wiring).layers - 1) := by
  set n := ln.bGOutputs + (m + k) with hn
  set N := coins (m + k) (newCircuit wiring).layers with hN
  set U := interleave (2 ^ k) (2 ^ (ln.bGOutputs + m)) outputs with hU
  set V := interleave (2 ^ k) (2 ^ (ln.bGOutputs + m)) trueOutputs with hV
  have hlen : ∀ o : List (List F), (interleave (2 ^ k) (2 ^ (ln.bGOutputs + m)) o).length = 2 ^ n := by
    intro o
    rw [hn, ← Nat.add_assoc]
    simp [interleave, pow_add]
  classical
  rw [count_prod]
  set B : Finset (Fin n → F) := univ.filter fun x => mleF (fun i => U.getD i 0 - V.getD i 0) (List.ofFn x) = 0 with hB
  have hBc : B.card ≤ n * Fintype.card F ^ (n - 1) := by
    rw [hB, ← count_eq]
    apply count_mle_zero
    by_contra hc
    apply hwrong
    push Not at hc
    apply List.ext_getElem
    · rw [hlen, hlen]
    · intro i h1 h2
      have := hc i (by rw [hlen] at h1; exact h1)
      rw [List.getD_eq_getElem _ _ h1, List.getD_eq_getElem _ _ h2] at this
      exact sub_eq_zero.1 this
  calc _ ≤ ∑ x : Fin n → F, ((if x ∈ B then Fintype.card F ^ N else 0) + N * (D + 1) * Fintype.card F ^ (N - 1)) := by
        apply sum_le_sum
        intro x _
        by_cases hx : x ∈ B
        · rw [if_pos hx]
          refine le_trans (count_le_card _) ?_
          simp
        · rw [if_neg hx, Nat.zero_add]
          refine gkr_count (P (List.ofFn x)) wiring hne hw G k m hG ln hln D hD (hP _) inputs trueOutputs hin htrue
            (mle U (List.ofFn x)) ((List.ofFn x).take ln.bGOutputs) ((List.ofFn x).drop ln.bGOutputs) ?_ ?_ ?_
          · simp [hn]
          · simp [hn]
          · rw [List.take_append_drop]
            intro he
            apply hx
            refine mem_filter.2 ⟨mem_univ _, ?_⟩
            have : mleF (fun i => U.getD i 0 - V.getD i 0) (List.ofFn x) = mle U (List.ofFn x) - mle V (List.ofFn x) := by
              unfold mle mleF
              rw [← sum_sub_distrib]
              apply sum_congr rfl
              intro i _
              ring
            rw [this, he, sub_self]
    _ = B.card * Fintype.card F ^ N + Fintype.card F ^ n * (N * (D + 1) * Fintype.card F ^ (N - 1)) := by
        rw [sum_add_distrib, sum_const, card_univ, smul_eq_mul, Finset.sum_ite_mem, univ_inter, sum_const, smul_eq_mul]
        simp
    _ ≤ n * Fintype.card F ^ (n + N - 1) + N * (D + 1) * Fintype.card F ^ (n + N - 1) := by
        apply Nat.add_le_add
        · rcases Nat.eq_zero_or_pos n with h0 | h0
          · have : B.card ≤ 0 := hBc.trans (by rw [h0, Nat.zero_mul])
            rw [Nat.le_zero.1 this]; simp
          · calc _ ≤ n * Fintype.card F ^ (n - 1) * Fintype.card F ^ N := Nat.mul_le_mul_right _ hBc
              _ = _ := by rw [mul_assoc, ← pow_add]; congr 2; omega
        · rcases Nat.eq_zero_or_pos N with h0 | h0
          · rw [h0]; simp
          · apply le_of_eq
            rw [mul_left_comm, ← pow_add]
            congr 2
            omega
    _ = _ := by ring

/-- The number of challenges of the MiMC circuit for `2^bN` instances: 91 layers of `2 + bN` rounds and 90 combinations. -/
theorem C45_mimc_coins (bN : Nat) : coins bN (newCircuit (mimcWiring frString (arks.take 91))).layers = 91 * (2 + bN) + 90 := by
  have hlen : (newCircuit (mimcWiring frString (arks.take 91))).layers.length = 91 :=
    native_length frString arks arks_91
  have hone : ∀ l ∈ (newCircuit (mimcWiring frString (arks.take 91))).layers, l.bGInputs = 1 := by
    intro l hl
    obtain ⟨ws, hws, rfl⟩ := List.mem_map.1 hl
    revert ws hws
    apply mimcWiring_forall
    · intro c; simp
    · intro c; simp
  generalize (newCircuit (mimcWiring frString (arks.take 91))).layers = layers at hlen hone
  rcases layers with _ | ⟨l0, ls⟩
  · simp at hlen
  have h0 := hone l0 (by simp)
  have hs : ∀ ls : List (Layer Fr), (∀ l ∈ ls, l.bGInputs = 1) → (ls.map fun l => 2 * l.bGInputs + bN + 1).sum =
      ls.length * (3 + bN) := by
    intro ls h
    induction ls with
    | nil => simp
    | cons l ls ih =>
      rw [List.map_cons, List.sum_cons, ih fun l hl => h l (by simp [hl]), h l (by simp), List.length_cons]
      ring
  have hl : ls.length = 90 := by simpa using hlen
  simp only [coins, offset, roundsOf, Nat.zero_add, List.drop_succ_cons, List.drop_zero, List.getElem?_cons_zero]
  rw [hs ls fun l hl => hone l (by simp [hl]), hl, h0]
  ring

/-- C45 for the MiMC circuit with the real constants, for all states and blocks: of the `r^N` challenge vectors,
`N = 91 (2 + bN) + 90`, at most `8 N r^(N-1)` let a prover (with polynomials of at most 9 coefficients) pass all checks for a
value that is not the extension of the true hashes at `q'`. -/
theorem C45_mimc (P : Cheater Fr) (hP : ∀ pre, (P.poly pre).length ≤ 9) (bN : Nat) (states blocks : List Fr)
    (hs : states.length = 2 ^ bN) (hb : blocks.length = 2 ^ bN) (claim : Fr) (q' : List Fr) (hq : q'.length = bN)
    (hwrong : claim ≠ mle (mimcExpected (states, blocks)) q') :
    ∃ c, createMimcCircuit frString arks = .ok c ∧ coins bN c.layers = 91 * (2 + bN) + 90 ∧
      count (fun ρ : Fin (coins bN c.layers) → Fr => ∃ H : List Fr → Fr, P.Drawn bN c.layers H (List.ofFn ρ) ∧
        GkrConsistent H bN c.layers (P.play bN c.layers (List.ofFn ρ)) (mimcChunk (states, blocks)) ⟨claim, q', chi []⟩) ≤
      (91 * (2 + bN) + 90) * 8 * frModulus ^ (91 * (2 + bN) + 90 - 1) := by
  refine ⟨_, mimc_circuit, C45_mimc_coins bN, ?_⟩
  have hlen : (mimcChunk (states, blocks)).length = 2 ^ (1 + bN) := by
    simp [mimcChunk, hs, hb, pow_add]; omega
  have hel : (mimcExpected (states, blocks)).length = 2 ^ bN := by simp [mimcExpected, hs, hb]
  have := gkr_count P (mimcWiring frString (arks.take 91)) mimc_ne (mimcWiring_good _ _) 1 0 bN
    (mimcWiring_chained _ _) _ mimc_lastLayer 7 (mimc_degrees _ _) hP [mimcChunk (states, blocks)] _
    ⟨rfl, by simpa using hlen⟩ (mimc_values (2 ^ bN) [(states, blocks)] (by simp [hs, hb])) claim [] q'
    (by rw [last_bGOutputs]; rfl) hq (by
      rw [last_bGOutputs, Nat.zero_add, List.map_singleton, show (2 : Nat) ^ 0 = 1 from rfl, interleave_one _ _ hel]
      exact hwrong)
  rw [Nat.add_zero, show (2 : Nat) ^ 0 = 1 from rfl, interleave_one _ _ hlen] at this
  refine this.trans (le_of_eq ?_)
  rw [C45_mimc_coins, show Fintype.card Fr = frModulus from ZMod.card _]

/-- The hypotheses are met: two instances, a prover that sends zeros, any wrong claim. -/
example : ∃ (P : Cheater Fr) (claim : Fr), (∀ pre, (P.poly pre).length ≤ 9) ∧
    claim ≠ mle (mimcExpected ([1, 2], [3, 4])) [5] :=
  ⟨⟨fun _ => [0, 0], fun _ => (0, 0)⟩, mle (mimcExpected ([1, 2], [3, 4])) [5] + 1, by simp, by simp⟩

end GkrMimc
