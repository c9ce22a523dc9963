import Verif.Proofs.SumcheckCore

/-! The round polynomials. -/

set_option linter.unusedSectionVars false

namespace GkrMimc

open Spec Finset Polynomial

variable {F : Type} [Field F] [DecidableEq F]

/-- Maximum of the declared degrees plus one: the degree fields of the prover. -/
def degL (gates : List (Gate F)) : Nat := gates.foldl (fun d g => max d g.degHL) 0 + 1
/-- See `degL`. -/
def degR (gates : List (Gate F)) : Nat := gates.foldl (fun d g => max d g.degHR) 0 + 1
/-- See `degL`. -/
def degP (gates : List (Gate F)) : Nat := gates.foldl (fun d g => max d g.degHPrime) 0 + 1

/-- Arguments of the sum after folding the first left variable. -/
def foldSumL (gates : List (Gate F)) (A B n : Nat) (vL vR e : Nat → F) (s : Nat → Nat → F) (r : F) : F :=
  hsum gates A B n (foldF (A * n) vL r) vR e (fun i => foldF (A * B) (s i) r)

theorem getEvalsOnHL_mkP (gates : List (Gate F)) (hg : ∀ g ∈ gates, LawfulGate g) (hne : gates ≠ []) (A B n : Nat)
    (hB : 0 < B) (hn : 0 < n) (vL vR e : Nat → F) (s : Nat → Nat → F) :
    (mkP gates (2 * A) B n vL vR e s).getEvalsOnHL =
      .ok (tab (degL gates + 1) (fun t => foldSumL gates A B n vL vR e s (t : F))) := by
  have hpos : 0 < gates.length := List.length_pos_of_ne_nil hne
  unfold SProver.getEvalsOnHL SProver.accumulateEvalsOnHL mkP newSProver
  simp only [tab_length]
  have hdeg : gates.foldl (fun d g => max d g.degHL) 0 + 1 = degL gates := rfl
  rw [goDiv_ok hn, ok_bind, Nat.mul_div_cancel _ hn, idx_tab hpos, ok_bind, tab_length, goDiv_ok hB, ok_bind,
    Nat.mul_div_cancel _ hB]
  have hsz : 2 * A * B / 2 = A * B := by rw [mul_assoc]; exact Nat.mul_div_cancel_left _ (by omega)
  have hsz2 : 2 * A * n / 2 = A * n := by rw [mul_assoc]; exact Nat.mul_div_cancel_left _ (by omega)
  have hsz3 : 2 * A / 2 = A := by omega
  rw [hsz, hdeg]
  have hpre := preEvalStatics_eq gates.length (A * B) (degL gates + 1) s
  rw [show 2 * (A * B) = 2 * A * B by ring] at hpre
  rw [hpre, ok_bind]
  simp only [goDiv_ok hn, ok_bind, Nat.mul_div_cancel _ hn, idx_tab hpos, tab_length, goDiv_ok hB,
    Nat.mul_div_cancel _ hB, hsz, hsz2, hsz3]
  rw [replicate3_eq]
  have hsplit := forN_acc (M := Nat → Nat → Nat → F) (mk := tab3 gates.length (A * B) (degL gates + 1))
    (m := fun _ _ _ => 0)
    (body := fun hPrime split => do
      let evaledEq ← idx (tab n e) hPrime
      forN A split fun hL split => do
        let v0 ← idx (tab (2 * A * n) vL) (hL * n + hPrime)
        let v1 ← idx (tab (2 * A * n) vL) (hL * n + hPrime + A * n)
        forN B split fun hR split => do
          let evaledVR ← idx (tab (B * n) vR) (hR * n + hPrime)
          forN gates.length split fun i split => do
            let gate ← idx gates i
            let b ← idx2 (tab gates.length (fun i => tab (A * B) (fun h =>
              decide (¬ (s i h = 0 ∧ s i (A * B + h) - s i h = 0))))) i (hL * B + hR)
            if b then do
              let vS ← gate.evalManyVL (List.replicate (degL gates + 1) 0) (ramp v0 (v1 - v0) (degL gates + 1)) evaledVR
              addRow vS evaledEq i (hL * B + hR) split
            else return split)
    (fun h => ∑ l ∈ range A, ∑ r ∈ range B, ∑ i ∈ range gates.length,
      if (s i (l * B + r) = 0 ∧ s i (A * B + (l * B + r)) - s i (l * B + r) = 0) then 0 else
        ∑ t ∈ range (degL gates + 1), Pi.single i (Pi.single (l * B + r) (Pi.single t
          (gateF gates i (foldF (A * n) vL (t : F) (l * n + h)) (vR (r * n + h)) * e h)))) n (by
    intro h hh m
    rw [idx_tab hh, ok_bind]
    refine forN_acc (M := Nat → Nat → Nat → F) (mk := tab3 gates.length (A * B) (degL gates + 1)) _ A m ?_
    intro l hl m
    have hln := mul_add_lt hl hh
    rw [idx_tab (by nlinarith), ok_bind, idx_tab (by nlinarith), ok_bind]
    refine forN_acc (M := Nat → Nat → Nat → F) (mk := tab3 gates.length (A * B) (degL gates + 1)) _ B m ?_
    intro r hr m
    rw [idx_tab (mul_add_lt hr hh), ok_bind]
    refine forN_acc (M := Nat → Nat → Nat → F) (mk := tab3 gates.length (A * B) (degL gates + 1)) _ gates.length m ?_
    intro i hi m
    have hlr := mul_add_lt hl hr
    unfold idx2
    rw [idx_ok hi, ok_bind, idx_tab hi, ok_bind, idx_tab hlr, ok_bind]
    by_cases hz : s i (l * B + r) = 0 ∧ s i (A * B + (l * B + r)) - s i (l * B + r) = 0
    · rw [if_pos hz, add_zero, decide_eq_false (not_not.2 hz)]
      rfl
    · rw [if_neg hz]
      rw [decide_eq_true hz, if_pos rfl]
      rw [(hg _ (List.getElem_mem hi)).manyVL _ _ _ (by simp [ramp_eq]), ok_bind, ramp_eq, tab_map, tab_length,
        List.drop_of_length_le (by simp), List.append_nil, addRow_eq hi hlr]
      congr 3
      apply Finset.sum_congr rfl
      intro t _
      congr 3
      rw [gateF_eq hi]
      unfold foldF
      rw [add_comm (l * n + h) (A * n)])
  rw [hsplit, ok_bind, combineSplit_eq]
  congr 1
  apply tab_congr
  intro t ht
  have e0 : (fun _ _ _ => 0 : Nat → Nat → Nat → F) = 0 := rfl
  rw [e0, zero_add, map_sum]
  unfold foldSumL hsum
  apply Finset.sum_congr rfl; intro h hh
  rw [map_sum]; apply Finset.sum_congr rfl; intro l hl
  rw [map_sum]; apply Finset.sum_congr rfl; intro r hr
  rw [map_sum]; apply Finset.sum_congr rfl; intro i hi
  split
  · rename_i hz
    have : foldF (A * B) (s i) (t : F) (l * B + r) = 0 := by unfold foldF; rw [hz.2, hz.1]; simp
    rw [map_zero]; beta_reduce; rw [this, mul_zero]
  · rw [map_sum]
    simp only [pair3_single _ _ _ (mem_range.1 hi) (mul_add_lt (mem_range.1 hl) (mem_range.1 hr))]
    rw [Finset.sum_ite_eq, if_pos (mem_range.2 ht)]

/-- Arguments of the sum after folding the first right variable (no left variable remains). -/
def foldSumR (gates : List (Gate F)) (B n : Nat) (vL vR e : Nat → F) (s : Nat → Nat → F) (r : F) : F :=
  hsum gates 1 B n vL (foldF (B * n) vR r) e (fun i => foldF B (s i) r)

theorem getEvalsOnHR_mkP (gates : List (Gate F)) (hg : ∀ g ∈ gates, LawfulGate g) (B n : Nat)
    (hn : 0 < n) (vL vR e : Nat → F) (s : Nat → Nat → F) :
    (mkP gates 1 (2 * B) n vL vR e s).getEvalsOnHR =
      .ok (tab (degR gates + 1) (fun t => foldSumR gates B n vL vR e s (t : F))) := by
  unfold SProver.getEvalsOnHR SProver.accumulateEvalsOnHR mkP newSProver
  simp only [tab_length, one_mul]
  have hdeg : gates.foldl (fun d g => max d g.degHR) 0 + 1 = degR gates := rfl
  rw [goDiv_ok hn, ok_bind, Nat.mul_div_cancel _ hn]
  have hsz2 : 2 * B * n / 2 = B * n := by rw [mul_assoc]; exact Nat.mul_div_cancel_left _ (by omega)
  have hsz3 : 2 * B / 2 = B := by omega
  rw [hsz3, hdeg, preEvalStatics_eq gates.length B (degR gates + 1) s, ok_bind]
  simp only [goDiv_ok hn, ok_bind, Nat.mul_div_cancel _ hn, hsz2, hsz3]
  rw [replicate3_eq]
  have hsplit := forN_acc (M := Nat → Nat → Nat → F) (mk := tab3 gates.length B (degR gates + 1))
    (m := fun _ _ _ => 0)
    (body := fun hPrime split => do
      let evaledEq ← idx (tab n e) hPrime
      let evaledVL ← idx (tab n vL) hPrime
      forN B split fun hR split => do
        let v0 ← idx (tab (2 * B * n) vR) (hR * n + hPrime)
        let v1 ← idx (tab (2 * B * n) vR) (hR * n + hPrime + B * n)
        forN gates.length split fun i split => do
          let gate ← idx gates i
          let b ← idx2 (tab gates.length (fun i => tab B (fun h =>
            decide (¬ (s i h = 0 ∧ s i (B + h) - s i h = 0))))) i hR
          if b then do
            let vS ← gate.evalManyVR (List.replicate (degR gates + 1) 0) evaledVL (ramp v0 (v1 - v0) (degR gates + 1))
            addRow vS evaledEq i hR split
          else return split)
    (fun h => ∑ r ∈ range B, ∑ i ∈ range gates.length,
      if (s i r = 0 ∧ s i (B + r) - s i r = 0) then 0 else
        ∑ t ∈ range (degR gates + 1), Pi.single i (Pi.single r (Pi.single t
          (gateF gates i (vL h) (foldF (B * n) vR (t : F) (r * n + h)) * e h)))) n (by
    intro h hh m
    rw [idx_tab hh, ok_bind, idx_tab hh, ok_bind]
    refine forN_acc (M := Nat → Nat → Nat → F) (mk := tab3 gates.length B (degR gates + 1)) _ B m ?_
    intro r hr m
    have hrn := mul_add_lt hr hh
    rw [idx_tab (by nlinarith), ok_bind, idx_tab (by nlinarith), ok_bind]
    refine forN_acc (M := Nat → Nat → Nat → F) (mk := tab3 gates.length B (degR gates + 1)) _ gates.length m ?_
    intro i hi m
    unfold idx2
    rw [idx_ok hi, ok_bind, idx_tab hi, ok_bind, idx_tab hr, ok_bind]
    by_cases hz : s i r = 0 ∧ s i (B + r) - s i r = 0
    · rw [if_pos hz, add_zero, decide_eq_false (not_not.2 hz)]
      rfl
    · rw [if_neg hz]
      rw [decide_eq_true hz, if_pos rfl]
      rw [(hg _ (List.getElem_mem hi)).manyVR _ _ _ (by simp [ramp_eq]), ok_bind, ramp_eq, tab_map, tab_length,
        List.drop_of_length_le (by simp), List.append_nil, addRow_eq hi hr]
      congr 3
      apply Finset.sum_congr rfl
      intro t _
      congr 3
      rw [gateF_eq hi]
      unfold foldF
      rw [add_comm (r * n + h) (B * n)])
  rw [hsplit, ok_bind, combineSplit_eq]
  congr 1
  apply tab_congr
  intro t ht
  have e0 : (fun _ _ _ => 0 : Nat → Nat → Nat → F) = 0 := rfl
  rw [e0, zero_add, map_sum]
  unfold foldSumR hsum
  apply Finset.sum_congr rfl; intro h hh
  rw [map_sum, Finset.sum_range_one]; apply Finset.sum_congr rfl; intro r hr
  rw [map_sum]; apply Finset.sum_congr rfl; intro i hi
  rw [zero_mul, zero_add, zero_mul, zero_add]
  split
  · rename_i hz
    have : foldF B (s i) (t : F) r = 0 := by unfold foldF; rw [hz.2, hz.1]; simp
    rw [map_zero]; beta_reduce; rw [this, mul_zero]
  · rw [map_sum]
    simp only [pair3_single _ _ _ (mem_range.1 hi) (mem_range.1 hr)]
    rw [Finset.sum_ite_eq, if_pos (mem_range.2 ht)]

/-- Arguments of the sum after folding the first instance variable (no wire variable remains). -/
def foldSumP (gates : List (Gate F)) (n : Nat) (vL vR e : Nat → F) (s : Nat → Nat → F) (r : F) : F :=
  hsum gates 1 1 n (foldF n vL r) (foldF n vR r) (foldF n e r) s

theorem getEvalsOnHPrime_mkP (gates : List (Gate F)) (n : Nat) (vL vR e : Nat → F) (s : Nat → Nat → F) :
    (mkP gates 1 1 (2 * n) vL vR e s).getEvalsOnHPrime =
      .ok (tab (degP gates + 1) (fun t => foldSumP gates n vL vR e s (t : F))) := by
  unfold SProver.getEvalsOnHPrime mkP newSProver
  simp only [one_mul]
  rw [mapGo_ok (fun t : List F => t.getD 0 0)]
  swap
  · intro x hx
    obtain ⟨i, _, rfl⟩ := List.mem_map.1 hx
    rw [idx_tab (by omega)]; rfl
  rw [ok_bind, tab_map]
  have hst : (tab gates.length fun i => (tab 1 (s i)).getD 0 0) = tab gates.length (fun i => s i 0) := rfl
  rw [hst]
  unfold SProver.accumulateEvalsOnHPrime
  simp only [tab_length]
  have hdeg : gates.foldl (fun d g => max d g.degHPrime) 0 + 1 = degP gates := rfl
  have hsz : 2 * n / 2 = n := by omega
  rw [hdeg, hsz, replicate2_eq]
  have hsplit := forN_acc (M := Nat → Nat → F) (mk := tab2 gates.length (degP gates + 1))
    (m := fun _ _ => 0)
    (body := fun hPrime split => do
      let l0 ← idx (tab (2 * n) vL) hPrime
      let r0 ← idx (tab (2 * n) vR) hPrime
      let e0 ← idx (tab (2 * n) e) hPrime
      let l1 ← idx (tab (2 * n) vL) (hPrime + n)
      let r1 ← idx (tab (2 * n) vR) (hPrime + n)
      let e1 ← idx (tab (2 * n) e) (hPrime + n)
      forN gates.length split fun i split => do
        let gate ← idx gates i
        forN (degP gates + 1) split fun t split => do
          let vl ← idx (ramp l0 (l1 - l0) (degP gates + 1)) t
          let vr ← idx (ramp r0 (r1 - r0) (degP gates + 1)) t
          let e ← idx (ramp e0 (e1 - e0) (degP gates + 1)) t
          modIdx2 split i t (fun x => x + gate.eval vl vr * e))
    (fun h => ∑ i ∈ range gates.length, ∑ t ∈ range (degP gates + 1), Pi.single i (Pi.single t
          (gateF gates i (foldF n vL (t : F) h) (foldF n vR (t : F) h) * foldF n e (t : F) h))) n (by
    intro h hh m
    have hh1 : h < 2 * n := by omega
    have hh2 : h + n < 2 * n := by omega
    rw [idx_tab hh1, ok_bind, idx_tab hh1, ok_bind, idx_tab hh1, ok_bind, idx_tab hh2, ok_bind, idx_tab hh2, ok_bind,
      idx_tab hh2, ok_bind]
    refine forN_acc (M := Nat → Nat → F) (mk := tab2 gates.length (degP gates + 1)) _ gates.length m ?_
    intro i hi m
    rw [idx_ok hi, ok_bind]
    refine forN_acc (M := Nat → Nat → F) (mk := tab2 gates.length (degP gates + 1)) _ _ m ?_
    intro t ht m
    rw [ramp_eq, ramp_eq, ramp_eq, idx_tab ht, ok_bind, idx_tab ht, ok_bind, idx_tab ht, ok_bind,
      modIdx_tab2_add hi ht, gateF_eq hi]
    unfold foldF
    rw [add_comm h n])
  rw [hsplit, ok_bind]
  set M : Nat → Nat → F := (fun _ _ => 0) + ∑ h ∈ range n, ∑ i ∈ range gates.length, ∑ t ∈ range (degP gates + 1),
    Pi.single i (Pi.single t
      (gateF gates i (foldF n vL (t : F) h) (foldF n vR (t : F) h) * foldF n e (t : F) h)) with hM
  unfold tab2
  rw [tab_length, replicate_eq_tab]
  have hfin := forN_acc (M := Nat → F) (mk := tab (degP gates + 1)) (m := fun _ => 0)
    (body := fun i res => do
      let row ← idx (tab gates.length fun i => tab (degP gates + 1) (M i)) i
      forN row.length res fun t res => do
        let v ← idx row t
        let s ← idx (tab gates.length (fun i => s i 0)) i
        modIdx res t (fun x => x + v * s))
    (fun i => ∑ t ∈ range (degP gates + 1), Pi.single t (M i t * s i 0)) gates.length (by
    intro i hi m
    rw [idx_tab hi, ok_bind, tab_length]
    refine forN_acc (M := Nat → F) (mk := tab (degP gates + 1)) _ _ m ?_
    intro t ht m
    rw [idx_tab ht, ok_bind, idx_tab hi, ok_bind, modIdx_tab_add ht])
  rw [hfin]
  congr 1
  apply tab_congr
  intro t ht
  rw [Pi.add_apply, zero_add, Finset.sum_apply]
  unfold foldSumP hsum
  simp only [Finset.sum_range_one, zero_mul, zero_add]
  rw [Finset.sum_comm]
  apply Finset.sum_congr rfl
  intro i hi
  rw [Finset.sum_apply, Finset.sum_eq_single t]
  · rw [Pi.single_eq_same, hM, Pi.add_apply, Pi.add_apply, zero_add, Finset.sum_apply, Finset.sum_apply,
      Finset.sum_mul]
    apply Finset.sum_congr rfl
    intro h _
    congr 1
    rw [Finset.sum_apply, Finset.sum_apply, Finset.sum_eq_single i]
    · rw [Finset.sum_apply, Finset.sum_apply, Finset.sum_eq_single t]
      · simp
      · intro t' _ hne; simp [Ne.symm hne]
      · intro hc; simp at hc; omega
    · intro i' _ hne; rw [Finset.sum_apply, Finset.sum_apply]; simp [Ne.symm hne]
    · intro hc; exact absurd hi hc
  · intro t' _ hne; rw [Pi.single_apply, if_neg (Ne.symm hne)]
  · intro hc; simp at hc; omega

end GkrMimc
