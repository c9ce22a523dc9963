import Verif.Props.GkrSound
import Verif.Proofs.TrueRounds
import Verif.Model.Repaired

/-! The honest proof meets all the checks of the specification, and has a fixed shape, for any number `2^k` of chunks. -/

set_option linter.unusedSectionVars false

namespace GkrMimc

open Spec

variable {F : Type} [Field F] [DecidableEq F]

/-- The numbers of coefficients of the round polynomials of a layer, for `2^n` instances. -/
def RoundShape (l : Layer F) (n : Nat) (polys : List (List F)) : Prop :=
  polys.map List.length = List.replicate l.bGInputs (degL l.gates + 1) ++
    List.replicate l.bGInputs (degR l.gates + 1) ++ List.replicate n (degP l.gates + 1)

theorem layer_shape [SmallCasts F] (H : List F → F) {l : Layer F} (hl : RunLayer l) (k m : Nat) (vals : List (List F))
    (hv : WellChunked k (l.bGInputs + m) vals) (q' : List F) (hq' : q'.length = m + k) (st : Gate F → Nat → F)
    (nCore : Int) (hc : 1 ≤ nCore) (out : SumcheckOut F)
    (hp : (newMProver vals vals (chunksOf (2 ^ k) (2 ^ m) (chi q')) l.gates
        (l.gates.map fun g => tab (2 ^ (2 * l.bGInputs)) (st g))).prove H nCore = .ok out) :
    RoundShape l (m + k) out.polyCoeffs := by
  have hsz : SizedChunks l.gates k m l.bGInputs vals vals (chunksOf (2 ^ k) (2 ^ m) (chi q'))
      (l.gates.map fun g => tab (2 ^ (2 * l.bGInputs)) (st g)) :=
    ⟨hv, hv, chunksOf_wellChunked k m _, by simp, by
      intro t ht
      obtain ⟨g, _, rfl⟩ := List.mem_map.1 ht
      simp [two_mul]⟩
  have hne := hl.nonempty
  have hs := hsz.sized
  obtain ⟨out', h1, _, _, _, h5, _, _⟩ := prove_spec H hl.lawful hl.degrees hne hs
  rw [C18_prove H l.gates hl.lawful k m l.bGInputs _ _ _ _ hsz nCore hc, h1] at hp
  obtain rfl := Except.ok.inj hp
  exact h5

/-- The polynomials of a layer are the partial sums of what its goal sums. -/
theorem layer_sums [SmallCasts F] (H : List F → F) {l : Layer F} (hl : GoodLayer l) (k m : Nat) (vals : List (List F))
    (hv : WellChunked k (l.bGInputs + m) vals) (t : Goal F) (hq' : t.point.length = m + k)
    (nCore : Int) (hc : 1 ≤ nCore) (out : SumcheckOut F)
    (hp : (newMProver vals vals (chunksOf (2 ^ k) (2 ^ m) (chi t.point)) l.gates
        (l.gates.map fun g => tab (2 ^ (2 * l.bGInputs)) (staticW l.wires g.id t.weight l.bGInputs))).prove H nCore = .ok out) :
    TrueSums H out.polyCoeffs (goalSummand l (tableOf k m l vals) t) := by
  have hsh := layer_shape H hl.toRunLayer k m vals hv t.point hq' _ nCore hc out hp
  have hplen : out.polyCoeffs.length = 2 * l.bGInputs + (m + k) := by
    have := congrArg List.length hsh
    simp at this
    omega
  have hsz : SizedChunks l.gates k m l.bGInputs vals vals (chunksOf (2 ^ k) (2 ^ m) (chi t.point))
      (l.gates.map fun g => tab (2 ^ (2 * l.bGInputs)) (staticW l.wires g.id t.weight l.bGInputs)) :=
    ⟨hv, hv, chunksOf_wellChunked k m _, by simp, by
      intro t ht
      obtain ⟨g, _, rfl⟩ := List.mem_map.1 ht
      simp [two_mul]⟩
  have eeq : interleave (2 ^ k) (2 ^ m) (chunksOf (2 ^ k) (2 ^ m) (chi t.point)) = tab (2 ^ t.point.length) (chi t.point) := by
    rw [interleave_chunksOf, hq', pow_add]
  have hs := hsz.sized
  rw [C18_prove H l.gates hl.lawful k m l.bGInputs _ _ _ _ hsz nCore hc, eeq] at hp
  rw [eeq] at hs
  have := prove_sums H hl.lawful hl.degrees hl.nonempty hs hp
  intro j c hcj x
  rw [this j c hcj x]
  have hj := (List.getElem?_eq_some_iff.1 hcj).1
  refine cubeSum_ext _ _ _ fun b hb => ?_
  rw [goalSummand_eq hl _ t _ (by simp [hb]; omega)]
  rfl

/-- What `Carries` says about the messages of a layer. -/
theorem Carries.msg {proof : GkrProof F} {outs : List (SumcheckOut F)} (h : Carries proof outs) {i : Nat}
    {o : SumcheckOut F} (ho : outs[i]? = some o) {a b : F} {tl : List F} (hf : o.finalClaims = a :: b :: tl) :
    msgOf proof i = ⟨o.polyCoeffs, a, b⟩ := by
  obtain ⟨h1, h2, h3⟩ := h i o ho
  rw [hf] at h2 h3
  simp only [msgOf, List.getD_eq_getElem?_getD, h1, h2, h3]
  rfl

/-- The checks of one honestly proved layer. -/
theorem layer_checks (H : List F → F) {l : Layer F} (hl : GoodLayer l) (n : Nat) (t : Goal F) (a : Msg F)
    (hpt : t.point.length = n) (hn : a.rounds.length = 2 * l.bGInputs + n) (qP qL qR : List F) (fc : F)
    (hv : sumcheckVerify H t.claim a.rounds l.bGInputs = .ok (some ⟨qP, qL, qR, fc⟩))
    (hcomb : evaluateCombinator a.left a.right (eqPoly t.point qP) l.gates
        (l.gates.map fun g => mleF (staticW l.wires g.id t.weight l.bGInputs) (qL ++ qR)) = .ok fc) :
    RoundChecks H l t a ∧ ValueCheck H l t a ∧ qL = a.qL H l.bGInputs ∧ qR = a.qR H l.bGInputs ∧
      qP = a.qN H l.bGInputs := by
  obtain ⟨h1, h2, h3, h4, h5, h6, h7⟩ := (C17_accepts_iff H _ _ _ _).1 hv
  dsimp only at h4 h5 h6 h7
  have e4 : qL = a.qL H l.bGInputs := h4
  have e5 : qR = a.qR H l.bGInputs := h5
  have e6 : qP = a.qN H l.bGInputs := h6
  refine ⟨⟨h1, by omega, h2⟩, ?_, e4, e5, e6⟩
  rw [evaluateCombinator_eq _ _ _ _ _ (by simp), combinator_wiring hl _ _ _ (by rw [e4, Msg.qL_length h3])
    (by rw [e5, Msg.qR_length h3])] at hcomb
  have hcomb := Except.ok.inj hcomb
  unfold ValueCheck
  rw [← h7, ← hcomb, e4, e5, e6]

/-- The layers below an honestly proved one. -/
theorem layers_honest [SmallCasts F] (H : List F → F) (c : Circuit F) (k m : Nat)
    (values : List (List (List F))) (hA : HonestAssignment c k m values) (bN : Nat) (inputs : List (List F))
    (hin : values[0]? = some inputs) (nCore : Int) (hc : 1 ≤ nCore) (l0 : Layer F) (hl0 : c.layers[0]? = some l0)
    (layer : Nat) :
    ∀ (l : Layer F) (v : List (List F)) (out : SumcheckOut F), c.layers[layer]? = some l → values[layer]? = some v →
    HonestOut l m k (tableOf k m l v) out →
    ∃ rest, GkrProver.proveLayers H ⟨bN, c, values⟩ nCore layer out = .ok rest ∧ rest.length = layer ∧
      (∀ o ∈ rest, 2 ≤ o.finalClaims.length) ∧
      (∀ (i : Nat) (o : SumcheckOut F) (l : Layer F), rest[i]? = some o → c.layers[i]? = some l →
        RoundShape l (m + k) o.polyCoeffs) ∧
      ∀ proof top, Carries proof (rest ++ [out]) → out.qL = (msgOf proof layer).qL H l.bGInputs →
        out.qR = (msgOf proof layer).qR H l.bGInputs → out.qPrime = (msgOf proof layer).qN H l.bGInputs →
        (∀ i < layer, LayerRounds H c proof top i ∧ LayerValue H c proof top i) ∧
        InputsOk H l0.bGInputs (m + k) (tableOf k m l0 inputs) (msgOf proof 0) ∧
        ∀ i < layer, ∀ (l : Layer F) (v : List (List F)), c.layers[i]? = some l → values[i]? = some v →
          TrueMsg H l (tableOf k m l v) (goalOf H c.layers proof top i) (msgOf proof i) := by
  induction layer with
  | zero =>
    intro l v out hl hv ho
    obtain ⟨o1, o2, o3, tl, o4⟩ := ho
    refine ⟨[], rfl, rfl, by simp, by simp, ?_⟩
    intro proof top hcar e1 e2 e3
    refine ⟨by simp, ?_⟩
    rw [hl0] at hl
    obtain rfl := Option.some.inj hl
    have hvin : v = inputs := by rw [hin] at hv; exact (Option.some.inj hv).symm
    subst hvin
    have hm := hcar.msg (i := 0) (o := out) rfl o4
    refine ⟨⟨by rw [← e3]; exact o3, ?_, ?_⟩, by simp⟩
    · rw [← e1, ← e3, hm]
    · rw [← e2, ← e3, hm]
  | succ layer ih =>
    intro l v out hl hv ho
    obtain ⟨o1, o2, o3, tl, o4⟩ := ho
    have hlen : layer + 1 < c.layers.length := (List.getElem?_eq_some_iff.1 hl).1
    obtain ⟨l', hl'⟩ : ∃ l', c.layers[layer]? = some l' := ⟨_, List.getElem?_eq_getElem (by omega)⟩
    obtain ⟨v', hv'⟩ : ∃ v', values[layer]? = some v' :=
      ⟨_, List.getElem?_eq_getElem (by rw [hA.lengths]; omega)⟩
    have hgl := hA.good l' (List.mem_of_getElem? hl')
    have hch := hA.chunked layer l' v' hl' hv'
    have hw := hA.wired layer l' v' hl' hv'
    rw [hv] at hw
    have hw := Option.some.inj hw
    have hbG := hA.chained layer l' l hl' hl
    set V := tableOf k m l v with hV
    set V' := tableOf k m l' v' with hV'
    have hVV : V = wiredOutputs l'.wires (2 ^ (m + k)) (2 ^ l'.bGOutputs) V' := by
      rw [hV, hw, tableOf, ← hbG]
      exact interleave_wired l'.wires k m l'.bGInputs l'.bGOutputs v' hch
        (fun w hw => ⟨(hgl.inRange w hw).1, (hgl.inRange w hw).2.1⟩)
    set cl := mle V (out.qL ++ out.qPrime) with hcl
    set cr := mle V (out.qR ++ out.qPrime) with hcr
    set lam := H [cl, cr] with hlam
    have hqL : out.qL.length = l'.bGOutputs := by omega
    have hqR : out.qR.length = l'.bGOutputs := by omega
    obtain ⟨out', fc', tl', p1, p2, p3, p4, p5, p6, p7⟩ := layer_run H hgl.toRunLayer k m v' hch out.qPrime o3
      (fun g u => staticF l'.wires g.id out.qR l'.bGInputs u * lam + staticF l'.wires g.id out.qL l'.bGInputs u * 1)
      nCore hc
    have hsh := layer_shape H hgl.toRunLayer k m v' hch out.qPrime o3 _ nCore hc out' p1
    change out'.finalClaims = mle V' _ :: mle V' _ :: tl' at p5
    change sumcheckVerify H (hypercubeSum _ _ _ V' V' _ _) _ _ = _ at p6
    change evaluateCombinator (mle V' _) (mle V' _) _ _ _ = _ at p7
    obtain ⟨rest, r1, r2, r4, r5, r3⟩ := ih l' v' out' hl' hv' ⟨p2, p3, p4, tl', p5⟩
    have hround : GkrProver.intermediateRound ⟨bN, c, values⟩ layer out.qPrime out.qL out.qR 1 lam nCore =
        .ok (newMProver v' v' (chunksOf (2 ^ k) (2 ^ m) (chi out.qPrime)) l'.gates
          (l'.gates.map fun g => tab (2 ^ (2 * l'.bGInputs)) (fun u => staticF l'.wires g.id out.qR l'.bGInputs u * lam +
            staticF l'.wires g.id out.qL l'.bGInputs u * 1))) := by
      unfold GkrProver.intermediateRound layerAsBKTWithCopy
      rw [idx_some hv', ok_bind, sem_ok hc, ok_bind]
      simp only [go_pure, ok_bind]
      rw [hch.1, eqChunks k m out.qPrime o3 hc, ok_bind, idx_some hl', ok_bind]
      have := linComb_static hgl.toRunLayer out.qL out.qR hqL hqR lam
      rw [bind_eq_ok] at this
      obtain ⟨tL, t1, t2⟩ := this
      rw [bind_eq_ok] at t2
      obtain ⟨tR, t2, t3⟩ := t2
      rw [t1, ok_bind, t2, ok_bind, t3, ok_bind]
    refine ⟨rest ++ [out'], ?_, by simp [r2], ?_, ?_, ?_⟩
    · rw [GkrProver.proveLayers, o4]
      have i0 : idx (cl :: cr :: tl) 0 = .ok cl := rfl
      have i1 : idx (cl :: cr :: tl) 1 = .ok cr := rfl
      rw [i0, ok_bind, i1, ok_bind, ← hlam]
      dsimp only
      rw [hround, ok_bind, p1, ok_bind, r1, ok_bind]; rfl
    · intro o ho
      rcases List.mem_append.1 ho with h | h
      · exact r4 o h
      · rw [List.mem_singleton] at h; subst h; rw [p5]; simp
    · intro i o li hio hli
      rcases Nat.lt_or_ge i layer with h | h
      · rw [List.getElem?_append_left (by omega)] at hio
        exact r5 i o li hio hli
      · have hi : i < (rest ++ [out']).length := (List.getElem?_eq_some_iff.1 hio).1
        have hi : i = layer := by simp [r2] at hi; omega
        subst hi
        rw [List.getElem?_append_right (by omega)] at hio
        simp only [r2, Nat.sub_self, List.getElem?_cons_zero, Option.some.injEq] at hio
        rw [hl'] at hli
        obtain rfl := Option.some.inj hli
        rw [← hio]
        exact hsh
    · intro proof top hcar e1 e2 e3
      have hcar2 := hcar.left
      have hm := hcar.msg (i := layer + 1) (o := out) (by
        rw [List.getElem?_append_right (by simp [r2])]; simp [r2]) o4
      have hm' := hcar2.msg (i := layer) (o := out') (by
        rw [List.getElem?_append_right (by simp [r2])]; simp [r2]) p5
      have hgoal : goalOf H c.layers proof top layer =
          ⟨cl + lam * cr, out.qPrime, fun O => chi out.qL O + lam * chi out.qR O⟩ := by
        unfold goalOf
        rw [hl]
        dsimp only
        unfold goalBelow
        rw [← e1, ← e2, ← e3, hm]
      have hclaim : cl + lam * cr = hypercubeSum l'.gates (m + k) l'.bGInputs V' V'
          (tab (2 ^ out.qPrime.length) (chi out.qPrime))
          (l'.gates.map fun g => tab (2 ^ (2 * l'.bGInputs)) (fun u => staticF l'.wires g.id out.qR l'.bGInputs u * lam +
            staticF l'.wires g.id out.qL l'.bGInputs u * 1)) := by
        rw [hypercubeSum_layer2 hgl (m + k) V' out.qL out.qR out.qPrime hqL hqR o3 lam, ← hVV, add_comm, mul_comm lam]
      have hplen : out'.polyCoeffs.length = 2 * l'.bGInputs + (m + k) := by
        have := congrArg List.length hsh
        simp at this
        omega
      rw [← hclaim] at p6
      simp only [staticF_eq_W, staticW_comb] at p7
      obtain ⟨c1, c2, c3, c4, c5⟩ := layer_checks H hgl (m + k) (goalOf H c.layers proof top layer) (msgOf proof layer)
        (by rw [hgoal]; exact o3) (by rw [hm']; exact hplen) out'.qPrime out'.qL out'.qR fc'
        (by rw [hgoal, hm']; exact p6) (by rw [hgoal, hm']; exact p7)
      obtain ⟨r6, r7, r8⟩ := r3 proof top hcar2 c3 c4 c5
      refine ⟨?_, r7, ?_⟩
      swap
      · intro i hi li vi hli hvi
        rcases Nat.lt_succ_iff_lt_or_eq.1 hi with h | rfl
        · exact r8 i h li vi hli hvi
        · rw [hl'] at hli
          obtain rfl := Option.some.inj hli
          rw [hv'] at hvi
          obtain rfl := Option.some.inj hvi
          refine ⟨?_, by rw [← c3, ← c5, hm'], by rw [← c4, ← c5, hm']⟩
          rw [hgoal, hm']
          refine layer_sums H hgl k m v' hch ⟨cl + lam * cr, out.qPrime, fun O => chi out.qL O + lam * chi out.qR O⟩ o3 nCore hc
            out' ?_
          simp only [staticF_eq_W, staticW_comb] at p1
          exact p1
      intro i hi
      rcases Nat.lt_succ_iff_lt_or_eq.1 hi with h | rfl
      · exact r6 i h
      · refine ⟨?_, ?_⟩
        · intro li hli
          rw [hl'] at hli
          obtain rfl := Option.some.inj hli
          exact c1
        · intro li hli
          rw [hl'] at hli
          obtain rfl := Option.some.inj hli
          exact c2

/-- The honest proof has messages for all layers, of the right shape. -/
structure ProofShape (c : Circuit F) (n : Nat) (proof : GkrProof F) : Prop where
  rounds : proof.sumcheckProofs.length = c.layers.length
  left : proof.claimsLeft.length = c.layers.length
  right : proof.claimsRight.length = c.layers.length
  each : ∀ (i : Nat) (l : Layer F) (p : List (List F)), c.layers[i]? = some l → proof.sumcheckProofs[i]? = some p →
    RoundShape l n p

theorem prove_eq_proveAt (H : List F → F) (p : GkrProver F) (ln : Layer F)
    (hln : p.circuit.layers[p.circuit.layers.length - 1]? = some ln) (nCore : Int) :
    p.prove H nCore = p.proveAt H (getInitialQPrimeAndQ p.bN ln.bGOutputs).1 (getInitialQPrimeAndQ p.bN ln.bGOutputs).2 nCore := by
  have hpos : 0 < p.circuit.layers.length := by
    by_contra h
    have : p.circuit.layers.length = 0 := by omega
    rw [List.getElem?_eq_none (by omega)] at hln
    cases hln
  have hidx : idxPred p.circuit.layers p.circuit.layers.length = .ok ln := by
    unfold idxPred; rw [if_neg (by omega)]; exact idx_some hln
  unfold GkrProver.prove
  dsimp only
  rw [hidx, ok_bind]
  rfl

/-- The prover runs on honest values, for any number of chunks and any initial point; its proof meets the specification, and all
its messages say the truth. -/
theorem gkr_true_at [SmallCasts F] (H : List F → F) (c : Circuit F) (k m : Nat)
    (values : List (List (List F))) (hA : HonestAssignment c k m values) (inputs outputs : List (List F))
    (hin : values[0]? = some inputs) (hout : values[c.layers.length]? = some outputs) (nCore : Int) (hc : 1 ≤ nCore)
    (l0 ln : Layer F) (hl0 : c.layers[0]? = some l0) (hln : c.layers[c.layers.length - 1]? = some ln)
    (q q' : List F) (lq : q.length = ln.bGOutputs) (lq' : q'.length = m + k) :
    ∃ p proof, newGkrProver c values = .ok p ∧ p.circuit = c ∧ p.bN = m + k ∧ p.proveAt H q' q nCore = .ok proof ∧
      ProofShape c (m + k) proof ∧ GkrConsistent H (m + k) c.layers proof (tableOf k m l0 inputs)
        ⟨mle (interleave (2 ^ k) (2 ^ (ln.bGOutputs + m)) outputs) (q ++ q'), q', chi q⟩ ∧
      ∀ (i : Nat) (l : Layer F) (v : List (List F)), c.layers[i]? = some l → values[i]? = some v →
        TrueMsg H l (tableOf k m l v) (goalOf H c.layers proof
          ⟨mle (interleave (2 ^ k) (2 ^ (ln.bGOutputs + m)) outputs) (q ++ q'), q', chi q⟩ i) (msgOf proof i) := by
  have hpos : 0 < c.layers.length := List.length_pos_of_ne_nil hA.nonempty
  have hch0 := hA.chunked 0 l0 inputs hl0 hin
  obtain ⟨v00, hv00⟩ : ∃ v, inputs[0]? = some v :=
    ⟨_, List.getElem?_eq_getElem (by rw [hch0.1]; exact Nat.two_pow_pos _)⟩
  have hlen00 : v00.length = 2 ^ (l0.bGInputs + m) := hch0.2 v00 (List.mem_of_getElem? hv00)
  have hnew : newGkrProver c values = .ok ⟨m + k, c, values⟩ := by
    unfold newGkrProver
    rw [idx_some hin, ok_bind, idx_some hv00, ok_bind, idx_some hl0, ok_bind]
    have hlg : log2Ceil ((inputs.length * v00.length : Nat) : Int) = k + (l0.bGInputs + m) := by
      rw [hch0.1, hlen00, ← pow_add, log2Ceil_pow]
    simp only [hlg]
    rw [if_neg (by omega), go_pure]
    congr 2
    omega
  obtain ⟨n, hn⟩ : ∃ n, c.layers.length = n + 1 := ⟨c.layers.length - 1, by omega⟩
  rw [hn, Nat.add_sub_cancel] at hln
  obtain ⟨v, hv⟩ : ∃ v, values[n]? = some v := ⟨_, List.getElem?_eq_getElem (by rw [hA.lengths]; omega)⟩
  have hgl := hA.good ln (List.mem_of_getElem? hln)
  have hch := hA.chunked n ln v hln hv
  have hw := hA.wired n ln v hln hv
  rw [← hn, hout] at hw
  have hw := Option.some.inj hw
  have hidxP : idxPred c.layers (n + 1) = .ok ln := by
    unfold idxPred; rw [if_neg (by omega)]; exact idx_some hln
  set V := tableOf k m ln v with hV
  have hVV : interleave (2 ^ k) (2 ^ (ln.bGOutputs + m)) outputs =
      wiredOutputs ln.wires (2 ^ (m + k)) (2 ^ ln.bGOutputs) V := by
    rw [hw]
    exact interleave_wired ln.wires k m ln.bGInputs ln.bGOutputs v hch
      (fun w hw => ⟨(hgl.inRange w hw).1, (hgl.inRange w hw).2.1⟩)
  obtain ⟨out, fc, tl, p1, p2, p3, p4, p5, p6, p7⟩ := layer_run H hgl.toRunLayer k m v hch q' lq'
    (fun g => staticF ln.wires g.id q ln.bGInputs) nCore hc
  have hsh := layer_shape H hgl.toRunLayer k m v hch q' lq' _ nCore hc out p1
  change out.finalClaims = mle V _ :: mle V _ :: tl at p5
  change sumcheckVerify H (hypercubeSum _ _ _ V V _ _) _ _ = _ at p6
  change evaluateCombinator (mle V _) (mle V _) _ _ _ = _ at p7
  obtain ⟨rest, r1, r2, r4, r5, r3⟩ := layers_honest H c k m values hA (m + k) inputs hin nCore hc l0 hl0 n ln v out
    hln hv ⟨p2, p3, p4, tl, p5⟩
  have hround : GkrProver.initialRound ⟨m + k, c, values⟩ q' q nCore =
      .ok (newMProver v v (chunksOf (2 ^ k) (2 ^ m) (chi q')) ln.gates
        (ln.gates.map fun g => tab (2 ^ (2 * ln.bGInputs)) (staticF ln.wires g.id q ln.bGInputs))) := by
    unfold GkrProver.initialRound layerAsBKTWithCopy
    simp only [hn]
    rw [hidxP, ok_bind, getStaticTable_eq ln hgl.inRange q lq, ok_bind, Nat.add_sub_cancel, idx_some hv, ok_bind,
      sem_ok hc, ok_bind]
    simp only [go_pure, ok_bind]
    rw [hch.1, eqChunks k m q' lq' hc, ok_bind]
  have hall : ∀ o ∈ rest ++ [out], 2 ≤ o.finalClaims.length := by
    intro o ho
    rcases List.mem_append.1 ho with h | h
    · exact r4 o h
    · rw [List.mem_singleton] at h; subst h; rw [p5]; simp
  have m0 : mapGo (fun o : SumcheckOut F => idx o.finalClaims 0) (rest ++ [out]) =
      .ok ((rest ++ [out]).map fun o => o.finalClaims.getD 0 0) := by
    apply mapGo_ok
    intro o ho
    have := hall o ho
    rw [idx_ok (by omega)]; simp [List.getD_eq_getElem?_getD, List.getElem?_eq_getElem (show 0 < o.finalClaims.length by omega)]
  have m1 : mapGo (fun o : SumcheckOut F => idx o.finalClaims 1) (rest ++ [out]) =
      .ok ((rest ++ [out]).map fun o => o.finalClaims.getD 1 0) := by
    apply mapGo_ok
    intro o ho
    have := hall o ho
    rw [idx_ok (by omega)]; simp [List.getD_eq_getElem?_getD, List.getElem?_eq_getElem (show 1 < o.finalClaims.length by omega)]
  set proof : GkrProof F := ⟨(rest ++ [out]).map (fun o => o.polyCoeffs),
    (rest ++ [out]).map (fun o => o.finalClaims.getD 0 0),
    (rest ++ [out]).map (fun o => o.finalClaims.getD 1 0)⟩ with hproof
  have hcar : Carries proof (rest ++ [out]) := by
    intro i o ho
    have h2 := hall o (List.mem_of_getElem? ho)
    refine ⟨?_, ?_, ?_⟩
    · rw [hproof]; simp only [List.getElem?_map, ho, Option.map_some]
    · rw [hproof]; simp only [List.getElem?_map, ho, Option.map_some]
      rw [List.getD_eq_getElem?_getD, List.getElem?_eq_getElem (by omega)]; rfl
    · rw [hproof]; simp only [List.getElem?_map, ho, Option.map_some]
      rw [List.getD_eq_getElem?_getD, List.getElem?_eq_getElem (by omega)]; rfl
  have hlast : (rest ++ [out])[n]? = some out := by
    rw [List.getElem?_append_right (by simp [r2])]; simp [r2]
  refine ⟨⟨m + k, c, values⟩, proof, hnew, rfl, rfl, ?_, ?_, ?_⟩
  · unfold GkrProver.proveAt
    simp only [hn]
    rw [hround, ok_bind, p1, ok_bind, Nat.add_sub_cancel, r1, ok_bind, m0, ok_bind, m1, ok_bind]
    rfl
  · refine ⟨by simp [hproof, r2, hn], by simp [hproof, r2, hn], by simp [hproof, r2, hn], ?_⟩
    intro i l p hl hp
    simp only [hproof, List.getElem?_map, Option.map_eq_some_iff] at hp
    obtain ⟨o, ho, rfl⟩ := hp
    rcases Nat.lt_or_ge i n with h | h
    · rw [List.getElem?_append_left (by omega)] at ho
      exact r5 i o l ho hl
    · have hi : i < c.layers.length := (List.getElem?_eq_some_iff.1 hl).1
      obtain rfl : i = n := by omega
      rw [hlast] at ho
      rw [hln] at hl
      obtain rfl := Option.some.inj ho
      obtain rfl := Option.some.inj hl
      exact hsh
  · set top : Goal F := ⟨mle (interleave (2 ^ k) (2 ^ (ln.bGOutputs + m)) outputs) (q ++ q'), q', chi q⟩ with htop
    have hgoal : goalOf H c.layers proof top n = ⟨mle (interleave (2 ^ k) (2 ^ (ln.bGOutputs + m)) outputs) (q ++ q'), q', chi q⟩ := by
      unfold goalOf
      rw [List.getElem?_eq_none (by omega)]
    have hm := hcar.msg hlast p5
    have hclaim := hypercubeSum_layer ln hgl.inRange hgl.listed (m + k) V q q' lq lq'
    have hplen : out.polyCoeffs.length = 2 * ln.bGInputs + (m + k) := by
      have := congrArg List.length hsh
      simp at this
      omega
    obtain ⟨c1, c2, c3, c4, c5⟩ := layer_checks H hgl (m + k) (goalOf H c.layers proof top n) (msgOf proof n)
        (by rw [hgoal]; exact lq') (by rw [hm]; exact hplen) out.qPrime out.qL out.qR fc
        (by rw [hgoal, hm, hVV, ← hclaim]; exact p6) (by rw [hgoal, hm]; exact p7)
    obtain ⟨r6, r7, r8⟩ := r3 proof top hcar c3 c4 c5
    refine ⟨⟨?_, ?_⟩, ?_⟩
    rotate_left 2
    · intro i l vi hl hvi
      rcases Nat.lt_or_ge i n with h | h
      · exact r8 i h l vi hl hvi
      · have hi : i < c.layers.length := (List.getElem?_eq_some_iff.1 hl).1
        obtain rfl : i = n := by omega
        rw [hln] at hl
        obtain rfl := Option.some.inj hl
        rw [hv] at hvi
        obtain rfl := Option.some.inj hvi
        refine ⟨?_, by rw [← c3, ← c5, hm], by rw [← c4, ← c5, hm]⟩
        rw [hgoal, hm]
        refine layer_sums H hgl k m v hch
          ⟨mle (interleave (2 ^ k) (2 ^ (ln.bGOutputs + m)) outputs) (q ++ q'), q', chi q⟩ lq' nCore hc out ?_
        have e : ∀ g : Gate F, staticF ln.wires g.id q ln.bGInputs = staticW ln.wires g.id (chi q) ln.bGInputs :=
          fun g => funext fun u => staticF_eq_W _ _ _ _ u
        simp only [e] at p1
        exact p1
    · intro i l hl
      rcases Nat.lt_or_ge i n with h | h
      · exact ⟨(r6 i h).1 l hl, (r6 i h).2 l hl⟩
      · have hi : i < c.layers.length := (List.getElem?_eq_some_iff.1 hl).1
        obtain rfl : i = n := by omega
        rw [hln] at hl
        obtain rfl := Option.some.inj hl
        exact ⟨c1, c2⟩
    · intro l hl
      rw [hl0] at hl
      obtain rfl := Option.some.inj hl
      exact r7

/-- The prover runs on honest values, for any number of chunks and any initial point, and its proof meets the specification. -/
theorem gkr_honest_at [SmallCasts F] (H : List F → F) (c : Circuit F) (k m : Nat)
    (values : List (List (List F))) (hA : HonestAssignment c k m values) (inputs outputs : List (List F))
    (hin : values[0]? = some inputs) (hout : values[c.layers.length]? = some outputs) (nCore : Int) (hc : 1 ≤ nCore)
    (l0 ln : Layer F) (hl0 : c.layers[0]? = some l0) (hln : c.layers[c.layers.length - 1]? = some ln)
    (q q' : List F) (lq : q.length = ln.bGOutputs) (lq' : q'.length = m + k) :
    ∃ p proof, newGkrProver c values = .ok p ∧ p.circuit = c ∧ p.bN = m + k ∧ p.proveAt H q' q nCore = .ok proof ∧
      ProofShape c (m + k) proof ∧ GkrConsistent H (m + k) c.layers proof (tableOf k m l0 inputs)
        ⟨mle (interleave (2 ^ k) (2 ^ (ln.bGOutputs + m)) outputs) (q ++ q'), q', chi q⟩ := by
  obtain ⟨p, proof, h1, h2, h3, h4, h5, h6, _⟩ := gkr_true_at H c k m values hA inputs outputs hin hout nCore hc l0 ln hl0 hln
    q q' lq lq'
  exact ⟨p, proof, h1, h2, h3, h4, h5, h6⟩

/-- The same for the constants of the code. -/
theorem gkr_honest [SmallCasts F] (H : List F → F) (c : Circuit F) (k m : Nat)
    (values : List (List (List F))) (hA : HonestAssignment c k m values) (inputs outputs : List (List F))
    (hin : values[0]? = some inputs) (hout : values[c.layers.length]? = some outputs) (nCore : Int) (hc : 1 ≤ nCore)
    (l0 ln : Layer F) (hl0 : c.layers[0]? = some l0) (hln : c.layers[c.layers.length - 1]? = some ln) :
    ∃ p proof, newGkrProver c values = .ok p ∧ p.prove H nCore = .ok proof ∧ ProofShape c (m + k) proof ∧
      GkrConsistent H (m + k) c.layers proof (tableOf k m l0 inputs) (outputGoal k m ln outputs) := by
  obtain ⟨p, proof, h1, h2, h3, h4, h5, h6⟩ := gkr_honest_at H c k m values hA inputs outputs hin hout nCore hc l0 ln hl0 hln
    (getInitialQPrimeAndQ (m + k) ln.bGOutputs).2 (getInitialQPrimeAndQ (m + k) ln.bGOutputs).1
    (by simp [getInitialQPrimeAndQ]) (by simp [getInitialQPrimeAndQ])
  refine ⟨p, proof, h1, ?_, h5, h6⟩
  rw [prove_eq_proveAt H p ln (by rw [h2]; exact hln), h3]
  exact h4

end GkrMimc
