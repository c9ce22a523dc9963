import Verif.Proofs.LayerClaim
import Verif.Proofs.SumcheckSound
import Verif.Model.Field

/-! Properties C15, C16 and C17: what the sumcheck of a layer proves, its completeness and its soundness. -/

set_option linter.unusedSectionVars false

namespace GkrMimc

open Spec Finset Polynomial

variable {F : Type} [Field F] [DecidableEq F]

theorem layer_sized (l : Layer F) (bN : Nat) (inp : List F) (hlen : inp.length = 2 ^ (l.bGInputs + bN)) (q' : List F)
    (hq' : q'.length = bN) (s : Gate F → Nat → F) :
    Sized l.gates bN l.bGInputs inp inp (tab (2 ^ q'.length) (chi q'))
      (l.gates.map fun g => tab (2 ^ (2 * l.bGInputs)) (s g)) where
  lenL := hlen
  lenR := hlen
  lenEq := by simp [hq']
  lenStatics := by simp
  lenStatic := by
    intro t ht
    obtain ⟨g, _, rfl⟩ := List.mem_map.1 ht
    simp [two_mul]

theorem newLayer_lists {wires : List (Wire F)} (hd : (wires.map (·.gate.id)).Nodup) :
    ListsGates (newLayer wires).gates (newLayer wires).wires := by
  rw [show (newLayer wires).gates = _ from gatesOf_eq wires]
  exact listsGates_of_nodup hd

theorem newLayer_counted (wires : List (Wire F)) :
    countedBy (newLayer wires).gates (newLayer wires).wires = countedWires wires := by
  rw [show (newLayer wires).gates = _ from gatesOf_eq wires, countedWires_eq]
  rfl

theorem hypercubeSum_counted (l : Layer F) (hr : l.InRange) (bN : Nat) (inp : List F) (q q' : List F) (hq : q.length = l.bGOutputs)
    (hq' : q'.length = bN) :
    hypercubeSum l.gates bN l.bGInputs inp inp (tab (2 ^ q'.length) (chi q'))
      (l.gates.map fun g => tab (2 ^ (2 * l.bGInputs)) (staticF l.wires g.id q l.bGInputs)) =
      mle (wiredOutputs (countedBy l.gates l.wires) (2 ^ bN) (2 ^ l.bGOutputs) inp) (q ++ q') := by
  rw [← hsum_eq_hypercubeSum, ← hsum_counted l hr bN inp q q' hq hq']
  apply hsum_congr
  · intros; rfl
  · intros; rfl
  · intro i hi; exact tab_getD (hq' ▸ hi)
  · intro i hi u hu
    have h1 : ((l.gates.map fun g => tab (2 ^ (2 * l.bGInputs)) (staticF l.wires g.id q l.bGInputs)).getD i []) =
        tab (2 ^ (2 * l.bGInputs)) (staticF l.wires l.gates[i].id q l.bGInputs) := by simp [hi]
    have h2 : (l.gates.map (·.id)).getD i "" = l.gates[i].id := by simp [hi]
    rw [h1, h2]
    apply tab_getD
    rwa [two_mul, pow_add]

theorem hypercubeSum_layer (l : Layer F) (hr : l.InRange) (hd : ListsGates l.gates l.wires) (bN : Nat) (inp : List F) (q q' : List F) (hq : q.length = l.bGOutputs)
    (hq' : q'.length = bN) :
    hypercubeSum l.gates bN l.bGInputs inp inp (tab (2 ^ q'.length) (chi q'))
      (l.gates.map fun g => tab (2 ^ (2 * l.bGInputs)) (staticF l.wires g.id q l.bGInputs)) =
      mle (wiredOutputs l.wires (2 ^ bN) (2 ^ l.bGOutputs) inp) (q ++ q') := by
  rw [hypercubeSum_counted l hr bN inp q q' hq hq', wiredOutputs_listed hd]

/-- C15. For a layer whose wires have gates with distinct IDs, `GetClaim` of the prover built from the static tables at
`q`, the inputs and the eq table of `q'` is the extension of the wired outputs at `(q, q')`. -/
theorem C15_layer_claim (wires : List (Wire F)) (hd : (wires.map (·.gate.id)).Nodup) (bN : Nat) (inp : List F)
    (hlen : inp.length = 2 ^ ((newLayer wires).bGInputs + bN)) (q q' : List F)
    (hq : q.length = (newLayer wires).bGOutputs) (hq' : q'.length = bN) :
    ∃ statics eq, getStaticTable (newLayer wires) q = .ok statics ∧ getFoldedEqTable q' = .ok eq ∧
      (newSProver inp inp eq (newLayer wires).gates statics).getClaim =
        .ok (mle (wiredOutputs wires (2 ^ bN) (2 ^ (newLayer wires).bGOutputs) inp) (q ++ q')) := by
  have hr := newLayer_inRange wires
  refine ⟨_, _, getStaticTable_eq _ hr q hq, getFoldedEqTable_eq q', ?_⟩
  rw [getClaim_sized (layer_sized (newLayer wires) bN inp hlen q' hq' _)]
  congr 1
  exact hypercubeSum_layer _ hr (newLayer_lists hd) bN inp q q' hq hq'

/-- C15, in terms of `Evaluate`: when the layer evaluates as wired (C12), the claim is the extension of its output. -/
theorem C15_layer_claim_evaluated (wires : List (Wire F)) (hd : (wires.map (·.gate.id)).Nodup) (bN : Nat)
    (h12 : ∀ w ∈ wires, w.R = 0 ∨ 2 ^ bN = 1) (inp : List F)
    (hlen : inp.length = 2 ^ ((newLayer wires).bGInputs + bN)) (q q' : List F)
    (hq : q.length = (newLayer wires).bGOutputs) (hq' : q'.length = bN) :
    ∃ statics eq out, getStaticTable (newLayer wires) q = .ok statics ∧ getFoldedEqTable q' = .ok eq ∧
      (newLayer wires).evaluate [inp] 1 = .ok [out] ∧
      (newSProver inp inp eq (newLayer wires).gates statics).getClaim = evaluate out (q ++ q') := by
  obtain ⟨st, eq, h1, h2, h3⟩ := C15_layer_claim wires hd bN inp hlen q q' hq hq'
  refine ⟨st, eq, _, h1, h2,
    C12_layer_evaluate_partial wires (2 ^ bN) [inp] 1 le_rfl (by simp [hlen, pow_add]) h12, ?_⟩
  rw [h3, evaluate_eq]
  simp [wiredOutputs, hq, hq', pow_add]

/-- C15. The distinctness of IDs is needed: with two adders the claim counts each of them twice (see C13). -/
theorem C15_needs_distinct_ids : ∃ (wires : List (Wire Fr)) (inp st eq out : _),
    getStaticTable (newLayer wires) [5] = .ok st ∧ getFoldedEqTable [7] = .ok eq ∧
    (newLayer wires).evaluate [inp] 1 = .ok [out] ∧
    (newSProver inp inp eq (newLayer wires).gates st).getClaim ≠ evaluate out [5, 7] :=
  ⟨[⟨0, 0, 0, addGate⟩, ⟨1, 0, 1, addGate⟩], [1, 2, 3, 4], [[-4, 0, 5, 0], [-4, 0, 5, 0]], [-6, 7], [2, 4, 4, 6],
    by decide +kernel, by decide +kernel, by decide +kernel, by decide +kernel⟩

/-- The hypotheses of C15 hold for a layer of the MiMC circuit with two instances; the claim is not 0. -/
example : (newSProver [1, 2, 5, 6] [1, 2, 5, 6] [-6, 7]
    (newLayer [⟨1, 0, 0, cipherGate frString 3⟩, ⟨1, 0, 1, copyGate⟩] : Layer Fr).gates
    [[0, 0, 1 - 7, 0], [0, 0, 7, 0]]).getClaim = evaluate [5 + 4 ^ 7, 6 + 5 ^ 7, 5, 6] [7, 7] := by decide +kernel

/-- C16. The single-threaded prover runs; the verifier accepts its proof for the claim of `GetClaim`, which is the
hypercube sum; both agree on the challenges; the final claims are the extensions of the tables at the challenges and
the verifier's final claim is their combination. -/
theorem C16_complete [SmallCasts F] (H : List F → F) (gates : List (Gate F)) (hne : gates ≠ [])
    (hg : ∀ g ∈ gates, LawfulGate g) (hd : DegreesOk gates) (bN bG : Nat) (vL vR eq : List F) (statics : List (List F))
    (h : Sized gates bN bG vL vR eq statics) :
    ∃ (out : SumcheckOut F) (fc : F),
      (newSProver vL vR eq gates statics).getClaim = .ok (hypercubeSum gates bN bG vL vR eq statics) ∧
      (newSProver vL vR eq gates statics).prove H = .ok out ∧
      sumcheckVerify H (hypercubeSum gates bN bG vL vR eq statics) out.polyCoeffs bG =
        .ok (some ⟨out.qPrime, out.qL, out.qR, fc⟩) ∧
      out.qL.length = bG ∧ out.qR.length = bG ∧ out.qPrime.length = bN ∧ out.polyCoeffs.length = 2 * bG + bN ∧
      out.finalClaims = mle vL (out.qL ++ out.qPrime) :: mle vR (out.qR ++ out.qPrime) :: mle eq out.qPrime ::
        statics.map (fun t => mle t (out.qL ++ out.qR)) ∧
      evaluateCombinator (mle vL (out.qL ++ out.qPrime)) (mle vR (out.qR ++ out.qPrime)) (mle eq out.qPrime) gates
        (statics.map (fun t => mle t (out.qL ++ out.qR))) = .ok fc := by
  obtain ⟨out, h1, h2, h3, h4, h5, h6, h7⟩ := prove_spec H hg hd hne h
  refine ⟨out, _, getClaim_sized h, h1, ?_, h2, h3, h4, (by have := congrArg List.length h5; simp at this; omega), h6,
    evaluateCombinator_eq _ _ _ _ _ (by simp [h.lenStatics])⟩
  unfold sumcheckVerify
  rw [h7, ok_bind]
  have hl : (out.qL ++ out.qR ++ out.qPrime).length = 2 * bG + bN := by simp [h2, h3, h4]; omega
  have e1 : sliceTo (out.qL ++ out.qR ++ out.qPrime) bG = .ok out.qL := by
    rw [sliceTo, if_pos (by omega), List.append_assoc, ← h2]; simp
  have e2 : sliceBetween (out.qL ++ out.qR ++ out.qPrime) bG (2 * bG) = .ok out.qR := by
    rw [sliceBetween, if_pos ⟨by omega, by omega⟩]
    congr 1
    rw [List.append_assoc, ← h2, two_mul, List.take_append, List.drop_append]
    simp [h2, h3]
  have e3 : sliceFrom (out.qL ++ out.qR ++ out.qPrime) (2 * bG) = .ok out.qPrime := by
    rw [sliceFrom, if_pos (by omega)]
    congr 1
    rw [List.drop_left' (by simp [h2, h3]; omega)]
  simp only [e1, e2, e3, ok_bind]; rfl

/-- C16 needs a gate: with an empty list the first round indexes an empty slice. -/
theorem C16_no_gates_panics (H : List F → F) (bN bG : Nat) (vL vR eq : List F)
    (h : Sized ([] : List (Gate F)) bN (bG + 1) vL vR eq []) :
    (newSProver vL vR eq [] []).prove H = .error .index := by
  have hn : 0 < 2 ^ bN := Nat.two_pow_pos _
  have hg : 0 < 2 ^ (bG + 1) := Nat.two_pow_pos _
  unfold SProver.prove
  have d1 : (newSProver vL vR eq [] []).eq.length = 2 ^ bN := h.lenEq
  have d2 : (newSProver vL vR eq [] []).vR.length = 2 ^ (bG + 1) * 2 ^ bN := by rw [← pow_add]; exact h.lenR
  have l2 : log2Ceil ((2 ^ (bG + 1) : Nat) : Int) = bG + 1 := log2Ceil_pow _
  have e : (newSProver vL vR eq [] []).getEvalsOnHL = .error .index := by
    unfold SProver.getEvalsOnHL
    simp only [d1, d2]
    rw [goDiv_ok hn, ok_bind]; rfl
  simp only [d1, d2]
  rw [goDiv_ok hn, ok_bind, Nat.mul_div_cancel _ hn, l2, rounds_succ, e]
  rfl

/-- The hypotheses of C16 hold for every list of gates of the package, e.g. those of a MiMC layer; tables of the right
sizes exist for all dimensions. -/
theorem shippedGates_ok (toStr : F → String) (gates : List (Gate F)) (h : ∀ g ∈ gates, ShippedGate toStr g) :
    (∀ g ∈ gates, LawfulGate g) ∧ DegreesOk gates := by
  refine ⟨fun g hg => (h g hg).lawful, fun g hg => ?_⟩
  obtain ⟨_, _, _, h1, h2, h3⟩ := C11_degrees toStr g (h g hg)
  omega
example : Sized [cipherGate frString 3, copyGate] 1 1 [1, 2, 5, 6] [1, 2, 5, 6] [-6, 7]
    [[0, 0, 1 - 7, 0], [0, 0, 7, 0]] :=
  ⟨rfl, rfl, rfl, rfl, by simp⟩

/-- C17. `Verify` answers `true` exactly when no polynomial is empty, the checks of all rounds hold, and there are
enough rounds for `qL` and `qR`; the results are the challenges and the value left after the last round. -/
theorem C17_accepts_iff (H : List F → F) (claim : F) (cs : List (List F)) (bG : Nat) (v : SumcheckVerdict F) :
    sumcheckVerify H claim cs bG = .ok (some v) ↔
      (∀ c ∈ cs, c ≠ []) ∧ Consistent H cs claim ∧ 2 * bG ≤ cs.length ∧
        v.qL = (cs.map H).take bG ∧ v.qR = ((cs.map H).drop bG).take bG ∧ v.qPrime = (cs.map H).drop (2 * bG) ∧
        v.finalClaim = lastValue H cs claim := by
  have slices : ∀ xs : List F, (xs.take (2 * bG)).drop bG = (xs.drop bG).take bG := by
    intro xs; rw [List.drop_take, two_mul, Nat.add_sub_cancel]
  unfold sumcheckVerify
  constructor
  · intro h
    cases hr : sumcheckVerifyLoop H cs claim with
    | error e => rw [hr] at h; cases h
    | ok o =>
      cases o with
      | none => rw [hr] at h; cases h
      | some y =>
        obtain ⟨qs, fc⟩ := y
        obtain ⟨a, b, rfl, rfl⟩ := (loop_some_iff H cs claim qs fc).1 hr
        rw [hr] at h
        simp only [ok_bind] at h
        by_cases h1 : bG ≤ (cs.map H).length
        · by_cases h2 : 2 * bG ≤ (cs.map H).length
          · rw [sliceTo, if_pos h1, sliceBetween, if_pos ⟨by omega, h2⟩, sliceFrom, if_pos h2] at h
            simp only [ok_bind, go_pure] at h
            have h := Option.some.inj (Except.ok.inj h)
            subst h
            exact ⟨a, b, by simpa using h2, rfl, slices _, rfl, rfl⟩
          · rw [sliceTo, if_pos h1, sliceBetween, if_neg (fun hc => h2 hc.2)] at h
            cases h
        · rw [sliceTo, if_neg h1] at h
          cases h
  · rintro ⟨a, b, c, d1, d2, d3, d4⟩
    rw [(loop_some_iff H cs claim (cs.map H) _).2 ⟨a, b, rfl, rfl⟩, ok_bind]
    have h2 : 2 * bG ≤ (cs.map H).length := by simpa using c
    dsimp only
    rw [sliceTo, if_pos (by omega), sliceBetween, if_pos ⟨by omega, h2⟩, sliceFrom, if_pos h2]
    simp only [ok_bind, go_pure, slices]
    rw [← d1, ← d2, ← d3, ← d4]

/-- C17. With non-empty polynomials, `Verify` answers `false` when some check fails (it cannot panic then). -/
theorem C17_rejects (H : List F → F) (claim : F) (cs : List (List F)) (bG : Nat) (hne : ∀ c ∈ cs, c ≠ [])
    (h : ¬ Consistent H cs claim) : sumcheckVerify H claim cs bG = .ok none := by
  unfold sumcheckVerify
  rw [loop_none H cs claim hne h]; rfl

/-- C17. If the claim is wrong and `Verify` accepts with a final claim equal to the summand at the challenge point, then
in some round the polynomial of the proof differs from the honest round polynomial `Q`, whose degree is at most the
bound of that round, and yet they agree at the challenge. For every proof, honest or not. -/
theorem C17_sound (H : List F → F) (gates : List (Gate F)) (hg : ∀ g ∈ gates, LawfulGate g) (bN bG : Nat)
    (vL vR eq : List F) (statics : List (List F)) (claim : F) (cs : List (List F)) (v : SumcheckVerdict F)
    (hlen : cs.length = 2 * bG + bN) (hclaim : claim ≠ hypercubeSum gates bN bG vL vR eq statics)
    (hacc : sumcheckVerify H claim cs bG = .ok (some v))
    (hfinal : v.finalClaim = combinator gates (mle vL (v.qL ++ v.qPrime)) (mle vR (v.qR ++ v.qPrime)) (mle eq v.qPrime)
      (statics.map fun t => mle t (v.qL ++ v.qR))) :
    ∃ (i : Nat) (hi : i < cs.length) (Q : F[X]), Q.natDegree ≤ summandDeg gates bG i ∧
      (∀ x, Q.eval x = cubeSum (cs.length - 1 - i)
        (fun b => summand gates bG vL vR eq statics ((cs.map H).take i ++ x :: b))) ∧
      polyOf cs[i] ≠ Q ∧ (polyOf cs[i]).eval (H cs[i]) = Q.eval (H cs[i]) := by
  obtain ⟨_, hcons, hl2, e1, e2, e3, e4⟩ := (C17_accepts_iff H claim cs bG v).1 hacc
  apply sound_core H cs (summand gates bG vL vR eq statics) (summandDeg gates bG) claim
  · intro pre _
    exact PolyLe.cubeSum _ (fun x b => summand gates bG vL vR eq statics (pre ++ x :: b))
      (fun b _ => summand_poly gates hg bG vL vR eq statics pre b)
  · rw [hlen, cubeSum_summand]; exact hclaim
  · exact hcons
  · rw [← e4, hfinal, e1, e2, e3]
    unfold summand
    congr 2
    funext t
    rw [two_mul, List.take_add]

/-- C17. A polynomial of the proof that differs from the honest one agrees with it at few points: at most the larger
of `len - 1` and the bound of the round, which is at most 11 for gates of degree at most 10. -/
theorem C17_few_bad_challenges (gates : List (Gate F)) (hd : DegreesOk gates) (bG i : Nat) (c : List F) (hc : c ≠ [])
    (Q : F[X]) (hQ : Q.natDegree ≤ summandDeg gates bG i) (hne : polyOf c ≠ Q) (s : Finset F)
    (hs : ∀ x ∈ s, (polyOf c).eval x = Q.eval x) :
    s.card ≤ max (c.length - 1) (summandDeg gates bG i) ∧ summandDeg gates bG i ≤ 11 := by
  have h1 := few_agreements _ _ hne s hs
  have h2 := polyOf_natDegree c hc
  obtain ⟨b1, b2, b3⟩ := hd.bounds
  refine ⟨by omega, ?_⟩
  unfold summandDeg
  split_ifs <;> assumption

/-- The hypotheses of C17 hold for a cheating proof: the sum of `x` over `x ∈ {0,1}` is 1; claim 2 with the polynomial
`1` is accepted if the challenge happens to be 1. -/
example : sumcheckVerify (fun _ => (1 : Fr)) 2 [[1]] 0 = .ok (some ⟨[1], [], [], 1⟩) := by decide +kernel
example : hypercubeSum [copyGate (F := Fr)] 1 0 [0, 1] [0, 0] [1, 1] [[1]] = 1 := by
  simp [hypercubeSum, copyGate, Finset.sum_range_succ]

end GkrMimc
