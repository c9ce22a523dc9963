import Verif.Props.Repaired
import Verif.Props.InitialPoint
import Verif.Props.GadgetBinding

/-! Property C66: with the repairs of C65 and an initial point that the verifier draws once the outputs are fixed, verification is
complete at every point, and binds all the outputs. -/

set_option linter.unusedSectionVars false

namespace GkrMimc

open Spec Finset

section

variable {F : Type} [Field F] [DecidableEq F]

/-- C66. The only change against C65 is the point: at the constants of the code the verifier is the one of C65, and the prover is
the one of the code. -/
theorem C66_constants (H : List F → F) (c : Circuit F) (ln : Layer F) (hln : c.layers[c.layers.length - 1]? = some ln) :
    (∀ (bN : Nat) (proof : GkrProof F) (inputs outputs : List (List F)),
      gkrVerifyAtR H bN c (tab bN fun i => ((i + 1 : Nat) : F)) (tab ln.bGOutputs fun i => ((i + 1 : Nat) : F)) proof inputs outputs =
        gkrVerifyR H bN c proof inputs outputs) ∧
    ∀ (p : GkrProver F) (nCore : Int), p.circuit = c →
      p.proveAt H (tab p.bN fun i => ((i + 1 : Nat) : F)) (tab ln.bGOutputs fun i => ((i + 1 : Nat) : F)) nCore = p.prove H nCore := by
  refine ⟨fun bN proof inputs outputs => gkrVerifyAtR_constants H c proof bN inputs outputs ln hln, ?_⟩
  rintro p nCore rfl
  exact (prove_eq_proveAt H p ln hln nCore).symm

/-- C66. At every point the verifier returns on every proof, and returns true exactly when the proof has the right shape and
passes all the checks of the specification, starting from the value of the outputs at the point. -/
theorem C66_verify (H : List F → F) (wiring : List (List (Wire F))) (hne : wiring ≠ [])
    (hw : ∀ ws ∈ wiring, IdWires ws) (G k m : Nat) (hG : Chained G (newCircuitR wiring).layers)
    (ln : Layer F) (hln : (newCircuitR wiring).layers[(newCircuitR wiring).layers.length - 1]? = some ln)
    (inputs outputs : List (List F)) (hin : WellChunked k (G + m) inputs) (hout : WellChunked k (ln.bGOutputs + m) outputs)
    (q q' : List F) (hq : q.length = ln.bGOutputs) (hq' : q'.length = m + k) (proof : GkrProof F) :
    ∃ b, gkrVerifyAtR H (m + k) (newCircuitR wiring) q' q proof inputs outputs = .ok b ∧
      (b = true ↔ ProofShape (newCircuitR wiring) (m + k) proof ∧ GkrConsistent H (m + k) (newCircuitR wiring).layers proof
        (interleave (2 ^ k) (2 ^ (G + m)) inputs)
        ⟨mle (interleave (2 ^ k) (2 ^ (ln.bGOutputs + m)) outputs) (q ++ q'), q', chi q⟩) := by
  have hne' : (newCircuitR wiring).layers ≠ [] := by simpa [newCircuitR] using hne
  obtain ⟨l0, hl0⟩ : ∃ l0, (newCircuitR wiring).layers[0]? = some l0 :=
    ⟨_, List.getElem?_eq_getElem (List.length_pos_of_ne_nil hne')⟩
  have e := chained_first hG hl0
  have := gkrVerifyAtR_spec H (newCircuitR wiring) proof hne' (goodCircuitR hw hG) k m inputs outputs
    (fun l h => by rw [chained_first hG h]; exact hin) l0 ln hl0 hln hout q q' hq hq'
  unfold tableOf at this
  rw [e] at this
  exact this

/-- The outputs of a circuit evaluated as wired are chunked like its inputs. -/
theorem wired_outputs_chunked {wiring : List (List (Wire F))} (hne : wiring ≠ []) {G k m : Nat}
    (hG : Chained G (newCircuitR wiring).layers) {inputs outputs : List (List F)} (hin : WellChunked k (G + m) inputs)
    (hout : (wiredAssignment (2 ^ m) (newCircuitR wiring).layers inputs).getLast? = some outputs) {ln : Layer F}
    (hln : (newCircuitR wiring).layers[(newCircuitR wiring).layers.length - 1]? = some ln) :
    WellChunked k (ln.bGOutputs + m) outputs := by
  have hne' : (newCircuitR wiring).layers ≠ [] := by simpa [newCircuitR] using hne
  have hpos := List.length_pos_of_ne_nil hne'
  obtain ⟨a, b, _, d⟩ := wiredAssignment_facts k m _ G inputs hG hin
  rw [List.getLast?_eq_getElem?, a, Nat.add_sub_cancel] at hout
  obtain ⟨v, hv⟩ : ∃ v, (wiredAssignment (2 ^ m) (newCircuitR wiring).layers inputs)[(newCircuitR wiring).layers.length - 1]? =
    some v := ⟨_, List.getElem?_eq_getElem (by rw [a]; omega)⟩
  obtain ⟨h1, h2⟩ := d _ ln v hln hv
  rw [Nat.sub_add_cancel hpos, hout] at h2
  obtain rfl := Option.some.inj h2
  refine ⟨by rw [List.length_map]; exact h1.1, fun x hx => ?_⟩
  obtain ⟨y, _, rfl⟩ := List.mem_map.1 hx
  simp [wiredOutputs, pow_add]

/-- C66. Completeness at every point: repaired `NewCircuit` and `Assign`, then prover and verifier at the same point. -/
theorem C66_complete [SmallCasts F] (H : List F → F) (wiring : List (List (Wire F))) (hne : wiring ≠ [])
    (hw : ∀ ws ∈ wiring, IdWires ws) (G k m : Nat) (hG : Chained G (newCircuitR wiring).layers)
    (ln : Layer F) (hln : (newCircuitR wiring).layers[(newCircuitR wiring).layers.length - 1]? = some ln)
    (inputs : List (List F)) (hin : WellChunked k (G + m) inputs) (nCore nCore' : Int) (hc : 1 ≤ nCore) (hc' : 1 ≤ nCore')
    (q q' : List F) (hq : q.length = ln.bGOutputs) (hq' : q'.length = m + k) :
    ∃ values outputs p proof, (newCircuitR wiring).assignR inputs nCore = .ok values ∧ values.getLast? = some outputs ∧
      newGkrProver (newCircuitR wiring) values = .ok p ∧ p.proveAt H q' q nCore' = .ok proof ∧
      gkrVerifyAtR H (m + k) (newCircuitR wiring) q' q proof inputs outputs = .ok true := by
  have ha := C65_assign wiring G (2 ^ m) inputs nCore hc hG (by intro c hc; rw [← pow_add]; exact hin.2 c hc)
  have hA := honestR wiring hne hw G k m hG inputs hin
  obtain ⟨a, b, _, _⟩ := wiredAssignment_facts k m _ G inputs hG hin
  have hl : wiredAssignment (2 ^ m) (newCircuitR wiring).layers inputs ≠ [] := by
    intro h; rw [h] at a; simp at a
  obtain ⟨l0, hl0⟩ : ∃ l0, (newCircuitR wiring).layers[0]? = some l0 :=
    ⟨_, List.getElem?_eq_getElem (List.length_pos_of_ne_nil hA.nonempty)⟩
  have hlast := List.getLast?_eq_some_getLast hl
  have hch := wired_outputs_chunked hne hG hin hlast hln
  have hlast' := hlast
  rw [List.getLast?_eq_getElem?, a, Nat.add_sub_cancel] at hlast'
  obtain ⟨p, proof, h1, _, _, h4, h5, h6⟩ := gkr_honest_at H _ k m _ hA inputs _ b hlast' nCore' hc' l0 ln hl0 hln q q' hq hq'
  refine ⟨_, _, p, proof, ha, hlast, h1, h4, ?_⟩
  unfold tableOf at h6
  rw [chained_first hG hl0] at h6
  obtain ⟨x, hx, hx2⟩ := C66_verify H wiring hne hw G k m hG ln hln inputs _ hin hch q q' hq hq' proof
  rw [hx, hx2.2 ⟨h5, h6⟩]

variable [Fintype F]

/-- Two tables of the same size that are not equal have equal extensions at few points. -/
theorem count_mle_eq (n : Nat) (U V : List F) (hU : U.length = 2 ^ n) (hV : V.length = 2 ^ n) (h : U ≠ V) :
    count (fun x : Fin n → F => mle U (List.ofFn x) = mle V (List.ofFn x)) ≤ n * Fintype.card F ^ (n - 1) := by
  refine le_trans (count_mono ?_) (count_mle_zero n (fun i => U.getD i 0 - V.getD i 0) ?_)
  · intro x hx
    have : mleF (fun i => U.getD i 0 - V.getD i 0) (List.ofFn x) = mle U (List.ofFn x) - mle V (List.ofFn x) := by
      unfold mle mleF
      rw [← sum_sub_distrib]
      apply sum_congr rfl
      intro i _
      ring
    rw [this, hx, sub_self]
  · by_contra hc
    apply h
    push Not at hc
    apply List.ext_getElem
    · rw [hU, hV]
    · intro i h1 h2
      have := hc i (by rw [hU] at h1; exact h1)
      rw [List.getD_eq_getElem _ _ h1, List.getD_eq_getElem _ _ h2] at this
      exact sub_eq_zero.1 this

theorem interleave_inj {k m : Nat} {U V : List (List F)} (hU : WellChunked k m U) (hV : WellChunked k m V)
    (h : interleave (2 ^ k) (2 ^ m) U = interleave (2 ^ k) (2 ^ m) V) : U = V := by
  rw [eq_chunksOf hU, eq_chunksOf hV, h]

/-- C66 (C25 in full). For any two different tables of outputs, at most `n * |F|^(n-1)` of the `|F|^n` initial points (`n`
coordinates) admit a proof that is accepted with both, even if the proof, and the inputs and hash functions of the two runs, are
chosen after the point. -/
theorem C66_binds (wiring : List (List (Wire F))) (hne : wiring ≠ [])
    (hw : ∀ ws ∈ wiring, IdWires ws) (G k m : Nat) (hG : Chained G (newCircuitR wiring).layers)
    (ln : Layer F) (hln : (newCircuitR wiring).layers[(newCircuitR wiring).layers.length - 1]? = some ln)
    (outputs outputs' : List (List F)) (hout : WellChunked k (ln.bGOutputs + m) outputs)
    (hout' : WellChunked k (ln.bGOutputs + m) outputs') (hdiff : outputs ≠ outputs') :
    count (fun x : Fin (ln.bGOutputs + (m + k)) → F => ∃ (H H' : List F → F) (inputs inputs' : List (List F)) (proof : GkrProof F),
      WellChunked k (G + m) inputs ∧ WellChunked k (G + m) inputs' ∧
      gkrVerifyAtR H (m + k) (newCircuitR wiring) ((List.ofFn x).drop ln.bGOutputs) ((List.ofFn x).take ln.bGOutputs) proof
        inputs outputs = .ok true ∧
      gkrVerifyAtR H' (m + k) (newCircuitR wiring) ((List.ofFn x).drop ln.bGOutputs) ((List.ofFn x).take ln.bGOutputs) proof
        inputs' outputs' = .ok true) ≤
      (ln.bGOutputs + (m + k)) * Fintype.card F ^ (ln.bGOutputs + (m + k) - 1) := by
  have hlen : ∀ o : List (List F), (interleave (2 ^ k) (2 ^ (ln.bGOutputs + m)) o).length = 2 ^ (ln.bGOutputs + (m + k)) := by
    intro o
    rw [← Nat.add_assoc]
    simp [interleave, pow_add]
  refine le_trans (count_mono ?_) (count_mle_eq _ _ _ (hlen outputs) (hlen outputs')
    (fun h => hdiff (interleave_inj hout hout' h)))
  rintro x ⟨H, H', inputs, inputs', proof, hin, hin', h1, h2⟩
  set q := (List.ofFn x).take ln.bGOutputs with hq
  set q' := (List.ofFn x).drop ln.bGOutputs with hq'
  have lq : q.length = ln.bGOutputs := by simp [hq]
  have lq' : q'.length = m + k := by simp [hq']
  have hne' : (newCircuitR wiring).layers ≠ [] := by simpa [newCircuitR] using hne
  have hpos := List.length_pos_of_ne_nil hne'
  have facts : ∀ (H : List F → F) (inputs outputs : List (List F)), WellChunked k (G + m) inputs →
      WellChunked k (ln.bGOutputs + m) outputs →
      gkrVerifyAtR H (m + k) (newCircuitR wiring) q' q proof inputs outputs = .ok true →
      RoundChecks H ln ⟨mle (interleave (2 ^ k) (2 ^ (ln.bGOutputs + m)) outputs) (q ++ q'), q', chi q⟩
          (msgOf proof ((newCircuitR wiring).layers.length - 1)) ∧
        ValueCheck H ln ⟨mle (interleave (2 ^ k) (2 ^ (ln.bGOutputs + m)) outputs) (q ++ q'), q', chi q⟩
          (msgOf proof ((newCircuitR wiring).layers.length - 1)) := by
    intro H inputs outputs hin hout hacc
    obtain ⟨b, hb, hb2⟩ := C66_verify H wiring hne hw G k m hG ln hln inputs outputs hin hout q q' lq lq' proof
    rw [hacc] at hb
    obtain rfl := Except.ok.inj hb
    have := (hb2.1 rfl).2.each _ ln hln
    have hg : ∀ top : Goal F, goalOf H (newCircuitR wiring).layers proof top ((newCircuitR wiring).layers.length - 1) = top := by
      intro top
      unfold goalOf
      rw [List.getElem?_eq_none (by omega)]
    rw [hg] at this
    exact this
  obtain ⟨⟨_, _, a1⟩, a2⟩ := facts H inputs outputs hin hout h1
  obtain ⟨⟨_, _, b1⟩, b2⟩ := facts H' inputs' outputs' hin' hout' h2
  have e : q ++ q' = List.ofFn x := by rw [hq, hq', List.take_append_drop]
  rw [← e]
  dsimp only at a1 b1
  cases hr : (msgOf proof ((newCircuitR wiring).layers.length - 1)).rounds with
  | nil =>
    unfold ValueCheck Msg.qN Msg.qL Msg.qR at a2 b2
    rw [hr] at a2 b2
    exact a2.trans b2.symm
  | cons c cs =>
    rw [hr] at a1 b1
    exact a1.1.symm.trans b1.1

/-- The count for one point. -/
theorem countAtR (P : Cheater F) (wiring : List (List (Wire F))) (hne : wiring ≠ [])
    (hw : ∀ ws ∈ wiring, IdWires ws) (G k m : Nat) (hG : Chained G (newCircuitR wiring).layers)
    (ln : Layer F) (hln : (newCircuitR wiring).layers[(newCircuitR wiring).layers.length - 1]? = some ln)
    (D : Nat) (hD : ∀ ws ∈ wiring, ∀ w ∈ ws, w.gate.degHL ≤ D ∧ w.gate.degHR ≤ D ∧ w.gate.degHPrime ≤ D)
    (inputs outputs trueOutputs : List (List F)) (hin : WellChunked k (G + m) inputs)
    (hout : WellChunked k (ln.bGOutputs + m) outputs)
    (htrue : (wiredAssignment (2 ^ m) (newCircuitR wiring).layers inputs).getLast? = some trueOutputs)
    (q q' : List F) (hq : q.length = ln.bGOutputs) (hq' : q'.length = m + k)
    (hwrong : mle (interleave (2 ^ k) (2 ^ (ln.bGOutputs + m)) outputs) (q ++ q') ≠
      mle (interleave (2 ^ k) (2 ^ (ln.bGOutputs + m)) trueOutputs) (q ++ q')) :
    count (fun ρ : Fin (coins (m + k) (newCircuitR wiring).layers) → F =>
      ∃ H : List F → F, P.Drawn (m + k) (newCircuitR wiring).layers H (List.ofFn ρ) ∧
        gkrVerifyAtR H (m + k) (newCircuitR wiring) q' q (P.play (m + k) (newCircuitR wiring).layers (List.ofFn ρ)) inputs outputs =
          .ok true) ≤
      coins (m + k) (newCircuitR wiring).layers * (D + 1) *
        Fintype.card F ^ (coins (m + k) (newCircuitR wiring).layers - 1) := by
  have hA := honestR wiring hne hw G k m hG inputs hin
  obtain ⟨a, b, _, _⟩ := wiredAssignment_facts k m _ G inputs hG hin
  obtain ⟨l0, hl0⟩ : ∃ l0, (newCircuitR wiring).layers[0]? = some l0 :=
    ⟨_, List.getElem?_eq_getElem (List.length_pos_of_ne_nil hA.nonempty)⟩
  rw [List.getLast?_eq_getElem?, a, Nat.add_sub_cancel] at htrue
  refine le_trans (count_mono ?_) (gkr_count_circuit (shortCheater P (D + 2)) _ k m _ hA inputs trueOutputs b htrue l0 ln hl0 hln D
    (newCircuitR_degrees hD) (fun pre => by simp [shortCheater]) _ q q' hq hq' hwrong)
  rintro ρ ⟨H, hdr, hacc⟩
  obtain ⟨x, hx, hx2⟩ := C66_verify H wiring hne hw G k m hG ln hln inputs outputs hin hout q q' hq hq'
    (P.play (m + k) (newCircuitR wiring).layers (List.ofFn ρ))
  rw [hacc] at hx
  obtain rfl := Except.ok.inj hx
  obtain ⟨hs, hcons⟩ := hx2.1 rfl
  obtain ⟨e1, e2⟩ := shortCheater_play P (D + 2) (m + k) (newCircuitR wiring).layers (List.ofFn ρ) (by
    intro i hi j hj
    obtain ⟨l, hl⟩ : ∃ l, (newCircuitR wiring).layers[i]? = some l := ⟨_, List.getElem?_eq_getElem hi⟩
    have hp : (P.play (m + k) (newCircuitR wiring).layers (List.ofFn ρ)).sumcheckProofs[i]? =
        some ((List.range (roundsOf (m + k) (newCircuitR wiring).layers i)).map fun j =>
          P.poly ((List.ofFn ρ).take (offset (m + k) (newCircuitR wiring).layers i + j))) := by
      simp [Cheater.play, hi]
    have hsh := hs.each i l _ hl hp
    unfold RoundShape at hsh
    have hmem : (P.poly ((List.ofFn ρ).take (offset (m + k) (newCircuitR wiring).layers i + j))).length ∈
        ((List.range (roundsOf (m + k) (newCircuitR wiring).layers i)).map fun j =>
          P.poly ((List.ofFn ρ).take (offset (m + k) (newCircuitR wiring).layers i + j))).map List.length :=
      List.mem_map.2 ⟨_, List.mem_map.2 ⟨j, by simpa using hj, rfl⟩, rfl⟩
    rw [hsh] at hmem
    have hd := newCircuitR_degrees hD l (List.mem_of_getElem? hl)
    have d1 : degL l.gates ≤ D + 1 := Nat.succ_le_succ (foldl_max_le _ D _ 0 (by omega) fun g hg => (hd g hg).1)
    have d2 : degR l.gates ≤ D + 1 := Nat.succ_le_succ (foldl_max_le _ D _ 0 (by omega) fun g hg => (hd g hg).2.1)
    have d3 : degP l.gates ≤ D + 1 := Nat.succ_le_succ (foldl_max_le _ D _ 0 (by omega) fun g hg => (hd g hg).2.2)
    simp only [List.mem_append, List.mem_replicate] at hmem
    omega)
  refine ⟨H, e2 H hdr, ?_⟩
  rw [e1]
  unfold tableOf
  rw [chained_first hG hl0]
  exact hcons

/-- C66 (C23, C25 and C45 in full). For **all** wrong outputs and every prover, which knows the point and adapts to the challenges,
at most `(n + N * (D + 1)) * |F|^(n + N - 1)` of the `|F|^(n + N)` choices of the point (`n` coordinates) and of the challenges (`N`)
make the verifier accept. -/
theorem C66_count (P : List F → Cheater F) (wiring : List (List (Wire F))) (hne : wiring ≠ [])
    (hw : ∀ ws ∈ wiring, IdWires ws) (G k m : Nat) (hG : Chained G (newCircuitR wiring).layers)
    (ln : Layer F) (hln : (newCircuitR wiring).layers[(newCircuitR wiring).layers.length - 1]? = some ln)
    (D : Nat) (hD : ∀ ws ∈ wiring, ∀ w ∈ ws, w.gate.degHL ≤ D ∧ w.gate.degHR ≤ D ∧ w.gate.degHPrime ≤ D)
    (inputs outputs trueOutputs : List (List F)) (hin : WellChunked k (G + m) inputs)
    (hout : WellChunked k (ln.bGOutputs + m) outputs)
    (htrue : (wiredAssignment (2 ^ m) (newCircuitR wiring).layers inputs).getLast? = some trueOutputs)
    (hwrong : outputs ≠ trueOutputs) :
    count (fun x : (Fin (ln.bGOutputs + (m + k)) → F) × (Fin (coins (m + k) (newCircuitR wiring).layers) → F) =>
      ∃ H : List F → F, (P (List.ofFn x.1)).Drawn (m + k) (newCircuitR wiring).layers H (List.ofFn x.2) ∧
        gkrVerifyAtR H (m + k) (newCircuitR wiring) ((List.ofFn x.1).drop ln.bGOutputs) ((List.ofFn x.1).take ln.bGOutputs)
          ((P (List.ofFn x.1)).play (m + k) (newCircuitR wiring).layers (List.ofFn x.2)) inputs outputs = .ok true) ≤
      (ln.bGOutputs + (m + k) + coins (m + k) (newCircuitR wiring).layers * (D + 1)) *
        Fintype.card F ^ (ln.bGOutputs + (m + k) + coins (m + k) (newCircuitR wiring).layers - 1) := by
  have htc := wired_outputs_chunked hne hG hin htrue hln
  set n := ln.bGOutputs + (m + k) with hn
  set N := coins (m + k) (newCircuitR wiring).layers with hN
  have hlen : ∀ o : List (List F), (interleave (2 ^ k) (2 ^ (ln.bGOutputs + m)) o).length = 2 ^ n := by
    intro o
    rw [hn, ← Nat.add_assoc]
    simp [interleave, pow_add]
  classical
  rw [count_prod]
  set B : Finset (Fin n → F) := univ.filter fun x => mle (interleave (2 ^ k) (2 ^ (ln.bGOutputs + m)) outputs) (List.ofFn x) =
    mle (interleave (2 ^ k) (2 ^ (ln.bGOutputs + m)) trueOutputs) (List.ofFn x) with hB
  have hBc : B.card ≤ n * Fintype.card F ^ (n - 1) := by
    rw [hB, ← count_eq]
    exact count_mle_eq n _ _ (hlen _) (hlen _) fun h => hwrong (interleave_inj hout htc h)
  calc _ ≤ ∑ x : Fin n → F, ((if x ∈ B then Fintype.card F ^ N else 0) + N * (D + 1) * Fintype.card F ^ (N - 1)) := by
        apply sum_le_sum
        intro x _
        by_cases hx : x ∈ B
        · rw [if_pos hx]
          refine le_trans (count_le_card _) ?_
          simp
        · rw [if_neg hx, Nat.zero_add]
          refine countAtR (P (List.ofFn x)) wiring hne hw G k m hG ln hln D hD inputs outputs trueOutputs hin hout htrue
            ((List.ofFn x).take ln.bGOutputs) ((List.ofFn x).drop ln.bGOutputs) ?_ ?_ ?_
          · simp [hn]
          · simp [hn]
          · rw [List.take_append_drop]
            exact fun he => hx (mem_filter.2 ⟨mem_univ _, he⟩)
    _ = B.card * Fintype.card F ^ N + Fintype.card F ^ n * (N * (D + 1) * Fintype.card F ^ (N - 1)) := by
        rw [sum_add_distrib, sum_const, card_univ, smul_eq_mul, Finset.sum_ite_mem, univ_inter, sum_const, smul_eq_mul]
        simp
    _ ≤ n * Fintype.card F ^ (n + N - 1) + N * (D + 1) * Fintype.card F ^ (n + N - 1) := by
        apply Nat.add_le_add
        · rcases Nat.eq_zero_or_pos n with h0 | h0
          · have : B.card ≤ 0 := hBc.trans (by rw [h0, Nat.zero_mul])
            rw [Nat.le_zero.1 this]; simp
          · calc _ ≤ n * Fintype.card F ^ (n - 1) * Fintype.card F ^ N := Nat.mul_le_mul_right _ hBc
              _ = _ := by rw [mul_assoc, ← pow_add]; congr 2; omega
        · rcases Nat.eq_zero_or_pos N with h0 | h0
          · rw [h0]; simp
          · apply le_of_eq
            rw [mul_left_comm, ← pow_add]
            congr 2
            omega
    _ = _ := by ring

end

/-- C66 for the MiMC circuit with the real constants, a single chunk included: for all states and blocks and **all** outputs that are
not the MiMC outputs, of the `r^(bN + N)` choices of the initial point and the challenges, `N = 91 (2 + bN) + 90`, at most
`(bN + 8 N) r^(bN + N - 1)` let any prover pass. -/
theorem C66_mimc_count (P : List Fr → Cheater Fr) (k m : Nat) (pairs : List (List Fr × List Fr)) (hk : pairs.length = 2 ^ k)
    (hp : ∀ x ∈ pairs, x.1.length = 2 ^ m ∧ x.2.length = 2 ^ m) (outputs : List (List Fr)) (hout : WellChunked k m outputs)
    (hwrong : outputs ≠ pairs.map mimcExpected) :
    ∃ c, createMimcCircuit frString arks = .ok c ∧ coins (m + k) c.layers = 91 * (2 + (m + k)) + 90 ∧
      count (fun x : (Fin (m + k) → Fr) × (Fin (coins (m + k) c.layers) → Fr) => ∃ H : List Fr → Fr,
        (P (List.ofFn x.1)).Drawn (m + k) c.layers H (List.ofFn x.2) ∧
        gkrVerifyAtR H (m + k) c (List.ofFn x.1) [] ((P (List.ofFn x.1)).play (m + k) c.layers (List.ofFn x.2))
          (pairs.map mimcChunk) outputs = .ok true) ≤
      (m + k + (91 * (2 + (m + k)) + 90) * 8) * frModulus ^ (m + k + (91 * (2 + (m + k)) + 90) - 1) := by
  refine ⟨_, mimc_circuit, C45_mimc_coins _, ?_⟩
  have e := C65_same_circuit (mimcWiring frString (arks.take 91)) fun ws h => (mimcWiring_good _ _ ws h).nodup
  have := C66_count P (mimcWiring frString (arks.take 91)) mimc_ne (fun ws h => (mimcWiring_good _ _ ws h).idWires) 1 k m
    (by rw [e]; exact mimcWiring_chained _ _) _ (by rw [e]; exact mimc_lastLayer) 7 (mimc_degrees _ _)
    (pairs.map mimcChunk) outputs (pairs.map mimcExpected)
    ⟨by simpa using hk, by
      intro c hc
      obtain ⟨x, hx, rfl⟩ := List.mem_map.1 hc
      simp [mimcChunk, hp x hx, pow_add]; omega⟩
    (by rw [last_bGOutputs, Nat.zero_add]; exact hout)
    (by rw [e]; exact mimc_values (2 ^ m) pairs hp)
    hwrong
  rw [e] at this
  rw [last_bGOutputs] at this
  simp only [List.drop_zero, List.take_zero] at this
  rw [Nat.zero_add] at this
  refine this.trans (le_of_eq ?_)
  rw [C45_mimc_coins, show Fintype.card Fr = frModulus from ZMod.card _]

/-- C66 (C54 in full). The circuit of the gadget, with its own hash, when the point is drawn: for all inputs and **all** wrong
outputs, at all but `bN * r^(bN-1)` of the `r^bN` points, every witness that satisfies the circuit has an unlucky challenge. -/
theorem C66_gadget (bN : Nat) (states blocks : List Fr) (hs : states.length = 2 ^ bN) (hb : blocks.length = 2 ^ bN)
    (vOutput : List Fr) (hout : vOutput.length = 2 ^ bN) (hwrong : vOutput ≠ mimcExpected (states, blocks))
    (sc : SnarkCircuit Fr) (hsc : createSnarkMimcCircuit arks = .ok sc)
    (c : Circuit Fr) (hc : createMimcCircuit frString arks = .ok c) :
    count (fun x : Fin bN → Fr => ¬ ∀ proof : GkrProof Fr,
      (GkrMimcTestCircuit.define arks ⟨sc, proof, [], List.ofFn x, mimcChunk (states, blocks), vOutput⟩).Satisfied →
      ∃ (i : Nat) (l : Layer Fr) (v : List Fr), c.layers[i]? = some l ∧
        (wiredAssignment (2 ^ bN) c.layers [mimcChunk (states, blocks)])[i]? = some [v] ∧
        (BadRound mimcHash l v (goalOf mimcHash c.layers proof ⟨mle vOutput (List.ofFn x), List.ofFn x, chi []⟩ i)
            (msgOf proof i) 8 ∨
          BadCombination mimcHash l.bGInputs v (msgOf proof i))) ≤ bN * frModulus ^ (bN - 1) := by
  have hel : (mimcExpected (states, blocks)).length = 2 ^ bN := by simp [mimcExpected, hs, hb]
  refine le_trans (count_mono ?_) (le_of_le_of_eq (count_mle_eq bN _ _ hout hel hwrong)
    (by rw [show Fintype.card Fr = frModulus from ZMod.card _]))
  intro x hx
  by_contra hne
  exact hx fun proof hsat => C35_sound bN states blocks hs hb (List.ofFn x) vOutput (by simp) hout proof sc hsc c hc hsat hne

/-- C66 (C53 in full, for the outputs). At all but `bN * r^(bN-1)` of the `r^bN` points no proof satisfies the gadget with two
different tables of outputs, whatever the inputs. -/
theorem C66_gadget_binds (bN : Nat) (vOutput vOutput' : List Fr) (hout : vOutput.length = 2 ^ bN) (hout' : vOutput'.length = 2 ^ bN)
    (hdiff : vOutput ≠ vOutput') (sc : SnarkCircuit Fr) (hsc : createSnarkMimcCircuit arks = .ok sc) :
    count (fun x : Fin bN → Fr => ∃ (proof : GkrProof Fr) (vInput vInput' : List Fr), vInput.length = 2 ^ (1 + bN) ∧
      vInput'.length = 2 ^ (1 + bN) ∧
      (GkrMimcTestCircuit.define arks ⟨sc, proof, [], List.ofFn x, vInput, vOutput⟩).Satisfied ∧
      (GkrMimcTestCircuit.define arks ⟨sc, proof, [], List.ofFn x, vInput', vOutput'⟩).Satisfied) ≤ bN * frModulus ^ (bN - 1) := by
  refine le_trans (count_mono ?_) (le_of_le_of_eq (count_mle_eq bN _ _ hout hout' hdiff)
    (by rw [show Fintype.card Fr = frModulus from ZMod.card _]))
  rintro x ⟨proof, vInput, vInput', h1, h2, h3, h4⟩
  exact ((C53_binds_partial bN proof (List.ofFn x) vInput vOutput (by simp) h1 hout sc hsc h3 vInput' vOutput' h2 hout').1 h4).1.symm

/-- The hypotheses of `C66_count` are met, and the claim is not vacuous: a circuit with a repeated gate, one chunk, outputs that are
wrong. At the point (2, 5) the verifier accepts the proof made for this point with the right outputs, and rejects the wrong ones. At
(2, 1), where the two tables have the same extension, it accepts both. -/
example : (do
    let c : Circuit Fr := newCircuitR [[⟨0, 1, 0, addGate⟩, ⟨1, 0, 1, addGate⟩]]
    let values ← c.assignR [[1, 2, 5, 6]] 1
    let p ← newGkrProver c values
    let proof ← p.proveAt (fun l => l.sum + 3) [5] [2] 1
    let good ← gkrVerifyAtR (fun l => l.sum + 3) 1 c [5] [2] proof [[1, 2, 5, 6]] [[6, 8, 6, 8]]
    let bad ← gkrVerifyAtR (fun l => l.sum + 3) 1 c [5] [2] proof [[1, 2, 5, 6]] [[7, 8, 6, 8]]
    let proof' ← p.proveAt (fun l => l.sum + 3) [1] [2] 1
    let good' ← gkrVerifyAtR (fun l => l.sum + 3) 1 c [1] [2] proof' [[1, 2, 5, 6]] [[6, 8, 6, 8]]
    let bad' ← gkrVerifyAtR (fun l => l.sum + 3) 1 c [1] [2] proof' [[1, 2, 5, 6]] [[7, 8, 6, 8]]
    return (good, bad, good', bad')) = .ok (true, false, true, true) := by decide +kernel

/-- The hypotheses of `C66_binds`, `C66_count`, `C66_mimc_count` and of the theorems about the gadget are met. -/
example : WellChunked 0 (1 + 1) [[6, 8, 6, (8 : Fr)]] ∧ WellChunked 0 (1 + 1) [[7, 8, 6, (8 : Fr)]] ∧
    ([[6, 8, 6, 8]] : List (List Fr)) ≠ [[7, 8, 6, 8]] ∧
    [[7, (8 : Fr)]] ≠ [([1, 2], [3, 4])].map mimcExpected ∧ ([7, 8] : List Fr) ≠ mimcExpected ([1, 2], [3, 4]) := by
  refine ⟨⟨rfl, by simp⟩, ⟨rfl, by simp⟩, by decide, by decide +kernel, by decide +kernel⟩

end GkrMimc
