import Verif.Proofs.GkrHonest

/-! What `Verify` answers on the proof of the prover, for any assignment and any circuit. -/

set_option linter.unusedSectionVars false

namespace GkrMimc

open Spec

variable {F : Type} [Field F] [DecidableEq F]

/-- A different claim makes the first check of the sumcheck fail. -/
theorem verify_other_claim (H : List F → F) (S claim : F) (cs : List (List F)) (bG : Nat) (v : SumcheckVerdict F)
    (h : sumcheckVerify H S cs bG = .ok (some v)) (hcs : cs ≠ []) (hne : claim ≠ S) :
    sumcheckVerify H claim cs bG = .ok none := by
  obtain ⟨h1, h2, _⟩ := (C17_accepts_iff H _ _ _ _).1 h
  apply C17_rejects H claim cs bG h1
  intro hc
  cases cs with
  | nil => exact hcs rfl
  | cons c cs => exact hne (hc.1.symm.trans h2.1)

/-- Tables of the right sizes for a circuit, with any contents, in `2^k` chunks of `2^m` instances. -/
structure RunAssignment (c : Circuit F) (k m : Nat) (values : List (List (List F))) : Prop where
  nonempty : c.layers ≠ []
  good : ∀ l ∈ c.layers, RunLayer l
  chained : ∀ (i : Nat) (l l' : Layer F), c.layers[i]? = some l → c.layers[i + 1]? = some l' → l.bGOutputs = l'.bGInputs
  lengths : values.length = c.layers.length + 1
  chunked : ∀ (i : Nat) (l : Layer F) (v : List (List F)), c.layers[i]? = some l → values[i]? = some v → WellChunked k (l.bGInputs + m) v
  chunkedOut : ∀ (i : Nat) (l : Layer F) (v : List (List F)), c.layers[i]? = some l → values[i + 1]? = some v →
    WellChunked k (l.bGOutputs + m) v

/-- The claim about the outputs of layer `i` holds of what the gates of the layer, counted, give on its inputs. -/
def ClaimAgrees (H : List F → F) (c : Circuit F) (k m : Nat) (values : List (List (List F))) (proof : GkrProof F) (i : Nat) :
    Prop :=
  ∀ (l : Layer F) (v o : List (List F)), c.layers[i]? = some l → values[i]? = some v → values[i + 1]? = some o →
    claimAbout H c.layers (m + k) l.bGOutputs proof i (interleave (2 ^ k) (2 ^ (l.bGOutputs + m)) o) =
      claimAbout H c.layers (m + k) l.bGOutputs proof i
        (wiredOutputs (countedBy l.gates l.wires) (2 ^ (m + k)) (2 ^ l.bGOutputs) (interleave (2 ^ k) (2 ^ (l.bGInputs + m)) v))

theorem exists_claimAgrees {H : List F → F} {c : Circuit F} {k m : Nat} {values : List (List (List F))}
    {proof : GkrProof F} {i : Nat} {l : Layer F} {v o : List (List F)} (hl : c.layers[i]? = some l)
    (hv : values[i]? = some v) (ho : values[i + 1]? = some o) :
    ClaimAgrees H c k m values proof i ↔
    claimAbout H c.layers (m + k) l.bGOutputs proof i (interleave (2 ^ k) (2 ^ (l.bGOutputs + m)) o) =
      claimAbout H c.layers (m + k) l.bGOutputs proof i
        (wiredOutputs (countedBy l.gates l.wires) (2 ^ (m + k)) (2 ^ l.bGOutputs) (interleave (2 ^ k) (2 ^ (l.bGInputs + m)) v)) := by
  constructor
  · intro h; exact h l v o hl hv ho
  · intro h l2 v2 o2 a b d
    rw [hl] at a; rw [hv] at b; rw [ho] at d
    obtain rfl := Option.some.inj a
    obtain rfl := Option.some.inj b
    obtain rfl := Option.some.inj d
    exact h

/-- The layers below a proved one: the prover runs; the verifier's answer. -/
theorem layers_exact [SmallCasts F] (H : List F → F) (c : Circuit F) (k m : Nat) (hk : 1 ≤ k)
    (values : List (List (List F))) (hA : RunAssignment c k m values) (bN : Nat) (inputs : List (List F))
    (hin : values[0]? = some inputs) (nCore : Int) (hc : 1 ≤ nCore) (layer : Nat) :
    ∀ (l : Layer F) (v : List (List F)) (out : SumcheckOut F), c.layers[layer]? = some l → values[layer]? = some v →
    HonestOut l m k (interleave (2 ^ k) (2 ^ (l.bGInputs + m)) v) out →
    ∃ rest, GkrProver.proveLayers H ⟨bN, c, values⟩ nCore layer out = .ok rest ∧ rest.length = layer ∧
      (∀ o ∈ rest, 2 ≤ o.finalClaims.length) ∧
      ∀ proof fc, Carries proof (rest ++ [out]) → out.qL = (msgOf proof layer).qL H l.bGInputs →
        out.qR = (msgOf proof layer).qR H l.bGInputs → out.qPrime = (msgOf proof layer).qN H l.bGInputs →
        ∃ b, verifyLayers H c proof inputs layer ⟨out.qPrime, out.qL, out.qR, fc⟩ = .ok b ∧
          (b = true ↔ ∀ i < layer, ClaimAgrees H c k m values proof i) := by
  induction layer with
  | zero =>
    intro l v out hl hv ho
    obtain ⟨o1, o2, o3, tl, o4⟩ := ho
    refine ⟨[], rfl, rfl, by simp, ?_⟩
    intro proof fc hcar _ _ _
    refine ⟨true, ?_, by simp⟩
    obtain ⟨_, c2, c3⟩ := hcar 0 out rfl
    rw [o4] at c2 c3
    have hvin : v = inputs := by rw [hin] at hv; exact (Option.some.inj hv).symm
    subst hvin
    have hch := hA.chunked 0 l v hl hv
    have e := C07_evaluateMixedChunked_partial k m hk v out.qPrime out.qL out.qR (by omega) o3 (by rw [o1]; exact hch)
    unfold verifyLayers verifyInputs
    simp only
    rw [e]
    unfold evaluateLeftAndRight
    rw [o1, evaluate_eq, evaluate_eq]
    · simp only [ok_bind, go_pure]
      rw [idx_some c2, idx_some c3]
      simp
    · simp [interleave, pow_add, o2, o3]; ring
    · simp [interleave, pow_add, o1, o3]; ring
  | succ layer ih =>
    intro l v out hl hv ho
    obtain ⟨o1, o2, o3, tl, o4⟩ := ho
    -- the layer below
    have hlen : layer + 1 < c.layers.length := (List.getElem?_eq_some_iff.1 hl).1
    obtain ⟨l', hl'⟩ : ∃ l', c.layers[layer]? = some l' := ⟨_, List.getElem?_eq_getElem (by omega)⟩
    obtain ⟨v', hv'⟩ : ∃ v', values[layer]? = some v' :=
      ⟨_, List.getElem?_eq_getElem (by rw [hA.lengths]; omega)⟩
    have hgl := hA.good l' (List.mem_of_getElem? hl')
    have hch := hA.chunked layer l' v' hl' hv'
    have hbG := hA.chained layer l' l hl' hl
    set V := interleave (2 ^ k) (2 ^ (l.bGInputs + m)) v with hV
    set V' := interleave (2 ^ k) (2 ^ (l'.bGInputs + m)) v' with hV'
    set cl := mle V (out.qL ++ out.qPrime) with hcl
    set cr := mle V (out.qR ++ out.qPrime) with hcr
    set lam := H [cl, cr] with hlam
    have hqL : out.qL.length = l'.bGOutputs := by omega
    have hqR : out.qR.length = l'.bGOutputs := by omega
    obtain ⟨out', fc', tl', p1, p2, p3, p4, p5, p6, p7⟩ := layer_run H hgl k m v' hch out.qPrime o3
      (fun g u => staticF l'.wires g.id out.qR l'.bGInputs u * lam + staticF l'.wires g.id out.qL l'.bGInputs u * 1)
      nCore hc
    obtain ⟨rest, r1, r2, r4, r3⟩ := ih l' v' out' hl' hv' ⟨p2, p3, p4, tl', p5⟩
    have hround : GkrProver.intermediateRound ⟨bN, c, values⟩ layer out.qPrime out.qL out.qR 1 lam nCore =
        .ok (newMProver v' v' (chunksOf (2 ^ k) (2 ^ m) (chi out.qPrime)) l'.gates
          (l'.gates.map fun g => tab (2 ^ (2 * l'.bGInputs)) (fun u => staticF l'.wires g.id out.qR l'.bGInputs u * lam +
            staticF l'.wires g.id out.qL l'.bGInputs u * 1))) := by
      unfold GkrProver.intermediateRound layerAsBKTWithCopy
      rw [idx_some hv', ok_bind, sem_ok hc, ok_bind]
      simp only [go_pure, ok_bind]
      rw [hch.1, eqChunks k m out.qPrime o3 hc, ok_bind, idx_some hl', ok_bind]
      have := linComb_static hgl out.qL out.qR hqL hqR lam
      rw [bind_eq_ok] at this
      obtain ⟨tL, t1, t2⟩ := this
      rw [bind_eq_ok] at t2
      obtain ⟨tR, t2, t3⟩ := t2
      rw [t1, ok_bind, t2, ok_bind, t3, ok_bind]
    refine ⟨rest ++ [out'], ?_, by simp [r2], ?_, ?_⟩
    · rw [GkrProver.proveLayers, o4]
      have i0 : idx (cl :: cr :: tl) 0 = .ok cl := rfl
      have i1 : idx (cl :: cr :: tl) 1 = .ok cr := rfl
      rw [i0, ok_bind, i1, ok_bind, ← hlam]
      dsimp only
      rw [hround, ok_bind, p1, ok_bind, r1, ok_bind]; rfl
    · intro o ho
      rcases List.mem_append.1 ho with h | h
      · exact r4 o h
      · rw [List.mem_singleton] at h; subst h; rw [p5]; simp
    · intro proof fc hcar g1 g2 g3
      have hcar2 := hcar.left
      have hget : (rest ++ [out'] ++ [out])[layer + 1]? = some out := by
        rw [List.getElem?_append_right (by simp [r2])]; simp [r2]
      have hget' : (rest ++ [out'])[layer]? = some out' := by
        rw [List.getElem?_append_right (by simp [r2])]; simp [r2]
      obtain ⟨_, c2, c3⟩ := hcar (layer + 1) out hget
      obtain ⟨d1, d2, d3⟩ := hcar2 layer out' hget'
      have hmsg := hcar.msg hget o4
      have hmsg' := hcar2.msg hget' p5
      rw [o4] at c2 c3
      rw [p5] at d2 d3
      have hS := hypercubeSum_counted2 hgl (m + k) V' out.qL out.qR out.qPrime hqL hqR o3 lam
      set W := wiredOutputs (countedBy l'.gates l'.wires) (2 ^ (m + k)) (2 ^ l'.bGOutputs) V' with hW
      rw [hS] at p6
      obtain ⟨a1, a2, a3, a4, a5, a6, a7⟩ := (C17_accepts_iff H _ _ _ _).1 p6
      dsimp only at a4 a5 a6 a7
      have hcs : out'.polyCoeffs ≠ [] := by
        intro h0
        rw [h0] at a6
        have := congrArg List.length a6
        rw [p4] at this
        simp at this
        omega
      have hVb : interleave (2 ^ k) (2 ^ (l'.bGOutputs + m)) v = V := by rw [hbG]
      have hag : ClaimAgrees H c k m values proof layer ↔ cr * lam + cl = mle W (out.qR ++ out.qPrime) * lam +
          mle W (out.qL ++ out.qPrime) := by
        rw [exists_claimAgrees hl' hv' hv]
        unfold claimAbout
        rw [hl]
        dsimp only
        rw [← g1, ← g2, ← g3, hmsg, hVb, ← hV', ← hW]
        dsimp only
        rw [← hcl, ← hcr, ← hlam, add_comm cl, mul_comm lam, add_comm (mle W (out.qL ++ out.qPrime)), mul_comm lam]
      rw [verifyLayers, idx_some c2, ok_bind, idx_some c3, ok_bind, idx_some d1, ok_bind, idx_some hl', ok_bind,
        ← hlam]
      by_cases hcl2 : cr * lam + cl = mle W (out.qR ++ out.qPrime) * lam + mle W (out.qL ++ out.qPrime)
      · obtain ⟨b, b1, b2⟩ := r3 proof fc' hcar2 (by rw [hmsg']; exact a4) (by rw [hmsg']; exact a5)
          (by rw [hmsg']; exact a6)
        refine ⟨b, ?_, ?_⟩
        · rw [hcl2, p6, ok_bind]
          simp only
          rw [evalEq_eq _ _ (by omega), ok_bind, idx_some d2, ok_bind, idx_some d3, ok_bind,
            evalStatics2_eq hgl out.qL out.qR out'.qL out'.qR hqL hqR p2 p3 lam, ok_bind]
          rw [p7, ok_bind, if_neg (not_not.2 rfl)]
          exact b1
        · rw [b2]
          constructor
          · intro h i hi
            rcases Nat.lt_succ_iff_lt_or_eq.1 hi with hi | rfl
            · exact h i hi
            · exact hag.2 hcl2
          · intro h i hi; exact h i (by omega)
      · refine ⟨false, ?_, ?_⟩
        · rw [verify_other_claim H _ _ _ _ _ p6 hcs hcl2]; rfl
        · constructor
          · intro h; cases h
          · intro h; exact absurd (hag.1 (h layer (by omega))) hcl2

/-- The whole protocol. -/
theorem gkr_exact [SmallCasts F] (H : List F → F) (c : Circuit F) (k m : Nat) (hk : 1 ≤ k)
    (values : List (List (List F))) (hA : RunAssignment c k m values) (inputs outputs : List (List F))
    (hin : values[0]? = some inputs) (hout : values[c.layers.length]? = some outputs) (nCore : Int) (hc : 1 ≤ nCore) :
    ∃ p proof b, newGkrProver c values = .ok p ∧ p.prove H nCore = .ok proof ∧
      gkrVerify H (m + k) c proof inputs outputs = .ok b ∧
      (b = true ↔ ∀ i < c.layers.length, ClaimAgrees H c k m values proof i) := by
  have hpos : 0 < c.layers.length := List.length_pos_of_ne_nil hA.nonempty
  obtain ⟨l0, hl0⟩ : ∃ l0, c.layers[0]? = some l0 := ⟨_, List.getElem?_eq_getElem hpos⟩
  have hch0 := hA.chunked 0 l0 inputs hl0 hin
  obtain ⟨v00, hv00⟩ : ∃ v, inputs[0]? = some v :=
    ⟨_, List.getElem?_eq_getElem (by rw [hch0.1]; exact Nat.two_pow_pos _)⟩
  have hlen00 : v00.length = 2 ^ (l0.bGInputs + m) := hch0.2 v00 (List.mem_of_getElem? hv00)
  have hnew : newGkrProver c values = .ok ⟨m + k, c, values⟩ := by
    unfold newGkrProver
    rw [idx_some hin, ok_bind, idx_some hv00, ok_bind, idx_some hl0, ok_bind]
    have hlg : log2Ceil ((inputs.length * v00.length : Nat) : Int) = k + (l0.bGInputs + m) := by
      rw [hch0.1, hlen00, ← pow_add, log2Ceil_pow]
    simp only [hlg]
    rw [if_neg (by omega), go_pure]
    congr 2
    omega
  -- the last layer
  obtain ⟨n, hn⟩ : ∃ n, c.layers.length = n + 1 := ⟨c.layers.length - 1, by omega⟩
  obtain ⟨l, hl⟩ : ∃ l, c.layers[n]? = some l := ⟨_, List.getElem?_eq_getElem (by omega)⟩
  obtain ⟨v, hv⟩ : ∃ v, values[n]? = some v := ⟨_, List.getElem?_eq_getElem (by rw [hA.lengths]; omega)⟩
  have hgl := hA.good l (List.mem_of_getElem? hl)
  have hch := hA.chunked n l v hl hv
  rw [hn] at hout
  have hwo := hA.chunkedOut n l outputs hl hout
  have hidxP : idxPred c.layers (n + 1) = .ok l := by
    unfold idxPred; rw [if_neg (by omega)]; exact idx_some hl
  set q' : List F := (getInitialQPrimeAndQ (m + k) l.bGOutputs).1 with hq'
  set q : List F := (getInitialQPrimeAndQ (m + k) l.bGOutputs).2 with hq
  have lq' : q'.length = m + k := by simp [hq', getInitialQPrimeAndQ]
  have lq : q.length = l.bGOutputs := by simp [hq, getInitialQPrimeAndQ]
  set V := interleave (2 ^ k) (2 ^ (l.bGInputs + m)) v with hV
  obtain ⟨out, fc, tl, p1, p2, p3, p4, p5, p6, p7⟩ := layer_run H hgl k m v hch q' lq'
    (fun g => staticF l.wires g.id q l.bGInputs) nCore hc
  obtain ⟨rest, r1, r2, r4, r3⟩ := layers_exact H c k m hk values hA (m + k) inputs hin nCore hc n l v out hl hv
    ⟨p2, p3, p4, tl, p5⟩
  have hround : GkrProver.initialRound ⟨m + k, c, values⟩ q' q nCore =
      .ok (newMProver v v (chunksOf (2 ^ k) (2 ^ m) (chi q')) l.gates
        (l.gates.map fun g => tab (2 ^ (2 * l.bGInputs)) (staticF l.wires g.id q l.bGInputs))) := by
    unfold GkrProver.initialRound layerAsBKTWithCopy
    simp only [hn]
    rw [hidxP, ok_bind, getStaticTable_eq l hgl.inRange q lq, ok_bind, Nat.add_sub_cancel, idx_some hv, ok_bind,
      sem_ok hc, ok_bind]
    simp only [go_pure, ok_bind]
    rw [hch.1, eqChunks k m q' lq' hc, ok_bind]
  have hall : ∀ o ∈ rest ++ [out], 2 ≤ o.finalClaims.length := by
    intro o ho
    rcases List.mem_append.1 ho with h | h
    · exact r4 o h
    · rw [List.mem_singleton] at h; subst h; rw [p5]; simp
  have m0 : mapGo (fun o : SumcheckOut F => idx o.finalClaims 0) (rest ++ [out]) =
      .ok ((rest ++ [out]).map fun o => o.finalClaims.getD 0 0) := by
    apply mapGo_ok
    intro o ho
    have := hall o ho
    rw [idx_ok (by omega)]; simp [List.getD_eq_getElem?_getD, List.getElem?_eq_getElem (show 0 < o.finalClaims.length by omega)]
  have m1 : mapGo (fun o : SumcheckOut F => idx o.finalClaims 1) (rest ++ [out]) =
      .ok ((rest ++ [out]).map fun o => o.finalClaims.getD 1 0) := by
    apply mapGo_ok
    intro o ho
    have := hall o ho
    rw [idx_ok (by omega)]; simp [List.getD_eq_getElem?_getD, List.getElem?_eq_getElem (show 1 < o.finalClaims.length by omega)]
  set proof : GkrProof F := ⟨(rest ++ [out]).map (fun o => o.polyCoeffs),
    (rest ++ [out]).map (fun o => o.finalClaims.getD 0 0),
    (rest ++ [out]).map (fun o => o.finalClaims.getD 1 0)⟩ with hproof
  have hcar : Carries proof (rest ++ [out]) := by
    intro i o ho
    have h2 := hall o (List.mem_of_getElem? ho)
    refine ⟨?_, ?_, ?_⟩
    · rw [hproof]; simp only [List.getElem?_map, ho, Option.map_some]
    · rw [hproof]; simp only [List.getElem?_map, ho, Option.map_some]
      rw [List.getD_eq_getElem?_getD, List.getElem?_eq_getElem (by omega)]; rfl
    · rw [hproof]; simp only [List.getElem?_map, ho, Option.map_some]
      rw [List.getD_eq_getElem?_getD, List.getElem?_eq_getElem (by omega)]; rfl
  have hprove : GkrProver.prove H ⟨m + k, c, values⟩ nCore = .ok proof := by
    unfold GkrProver.prove
    simp only [hn]
    rw [hidxP, ok_bind]
    change (GkrProver.initialRound ⟨m + k, c, values⟩ q' q nCore >>= _) = _
    rw [hround, ok_bind, p1, ok_bind, Nat.add_sub_cancel, r1, ok_bind, m0, ok_bind, m1, ok_bind]
    rfl
  have hget : (rest ++ [out])[n]? = some out := by rw [List.getElem?_append_right (by simp [r2])]; simp [r2]
  have hmsg := hcar.msg hget p5
  have hS := hypercubeSum_counted l hgl.inRange (m + k) V q q' lq lq'
  set W := wiredOutputs (countedBy l.gates l.wires) (2 ^ (m + k)) (2 ^ l.bGOutputs) V with hW
  set T := interleave (2 ^ k) (2 ^ (l.bGOutputs + m)) outputs with hT
  rw [hS] at p6
  obtain ⟨a1, a2, a3, a4, a5, a6, a7⟩ := (C17_accepts_iff H _ _ _ _).1 p6
  dsimp only at a4 a5 a6 a7
  have hcs : out.polyCoeffs ≠ [] := by
    intro h0
    rw [h0] at a6
    have := congrArg List.length a6
    rw [p4] at this
    simp at this
    omega
  have hag : ClaimAgrees H c k m values proof n ↔ mle T (q ++ q') = mle W (q ++ q') := by
    rw [exists_claimAgrees hl hv hout]
    unfold claimAbout
    rw [List.getElem?_eq_none (by omega)]
    rfl
  obtain ⟨b, b1, b2⟩ := r3 proof fc hcar (by rw [hmsg]; exact a4) (by rw [hmsg]; exact a5) (by rw [hmsg]; exact a6)
  obtain ⟨d1, d2, d3⟩ := hcar n out hget
  rw [p5] at d2 d3
  have hstart : gkrVerify H (m + k) c proof inputs outputs = (do
      let res ← sumcheckVerify H (mle T (q ++ q')) out.polyCoeffs l.bGInputs
      match res with
      | none => return false
      | some v => do
        let eqEval ← evalEq q' v.qPrime
        let vl ← idx proof.claimsLeft n
        let vr ← idx proof.claimsRight n
        let statics ← evaluateStaticTables l q v.qL v.qR
        let comb ← evaluateCombinator vl vr eqEval l.gates statics
        if v.finalClaim ≠ comb then return false
        else verifyLayers H c proof inputs n v) := by
    unfold gkrVerify
    simp only [hn]
    rw [hidxP, ok_bind]
    change (evaluateChunked outputs (q ++ q') >>= _) = _
    rw [C07_evaluateChunked_partial k (l.bGOutputs + m) hk outputs hwo (q ++ q') (by simp [lq, lq']; omega), evaluate_eq]
    rotate_left
    · simp [interleave, lq, lq', pow_add]; ring
    rw [ok_bind, Nat.add_sub_cancel, idx_some d1, ok_bind]
    rfl
  rw [hn]
  by_cases hcl2 : mle T (q ++ q') = mle W (q ++ q')
  · refine ⟨⟨m + k, c, values⟩, proof, b, hnew, hprove, ?_, ?_⟩
    · rw [hstart, hcl2, p6, ok_bind]
      simp only
      rw [evalEq_eq _ _ (by rw [p4]; exact lq'.le), ok_bind, idx_some d2, ok_bind, idx_some d3, ok_bind,
        evalStatics_eq hgl q out.qL out.qR lq p2 p3, ok_bind]
      rw [p7, ok_bind, if_neg (not_not.2 rfl)]
      exact b1
    · rw [b2]
      constructor
      · intro h i hi
        rcases Nat.lt_succ_iff_lt_or_eq.1 hi with hi | rfl
        · exact h i hi
        · exact hag.2 hcl2
      · intro h i hi; exact h i (by omega)
  · refine ⟨⟨m + k, c, values⟩, proof, false, hnew, hprove, ?_, ?_⟩
    · rw [hstart, verify_other_claim H _ _ _ _ _ p6 hcs hcl2]; rfl
    · constructor
      · intro h; cases h
      · intro h; exact absurd (hag.1 (h n (by omega))) hcl2

end GkrMimc
