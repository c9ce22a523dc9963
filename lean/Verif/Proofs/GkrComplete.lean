import Verif.Props.SumcheckPar
import Verif.Model.Gkr
import Verif.Proofs.Tables

/-! Completeness of GKR. -/

set_option linter.unusedSectionVars false

namespace GkrMimc

open Spec Finset

variable {F : Type} [Field F] [DecidableEq F]

theorem mle_tab (f : Nat → F) (x : List F) : mle (tab (2 ^ x.length) f) x = mleF f x := by
  unfold mle
  apply mleF_congr
  intro i hi
  exact tab_getD hi

theorem interleave_chunksOf (K M : Nat) (f : Nat → F) : interleave K M (chunksOf K M f) = tab (M * K) f := by
  unfold interleave chunksOf
  apply List.ext_getElem
  · simp
  intro i h1 h2
  simp only [List.length_map, List.length_range] at h1
  have hK : 0 < K := by
    rcases Nat.eq_zero_or_pos K with h | h
    · subst h; simp at h1
    · exact h
  have e1 : i % K < K := Nat.mod_lt _ hK
  have e2 : i / K < M := by rw [Nat.div_lt_iff_lt_mul hK]; exact h1
  simp only [List.getElem_map, List.getElem_range, tab_get]
  have : (tab K (fun s => tab M (fun u => f (u * K + s)))).getD (i % K) [] = tab M (fun u => f (u * K + i % K)) := by
    rw [List.getD_eq_getElem?_getD, tab_getElem?, if_pos e1]; rfl
  rw [this, tab_getD e2, Nat.div_add_mod']

/-- A layer on which the protocol runs. -/
structure RunLayer (l : Layer F) : Prop where
  inRange : l.InRange
  nonempty : l.gates ≠ []
  lawful : ∀ g ∈ l.gates, LawfulGate g
  degrees : DegreesOk l.gates

/-- A layer on which the protocol works. -/
structure GoodLayer (l : Layer F) : Prop extends RunLayer l where
  listed : ListsGates l.gates l.wires

theorem chunksOf_wellChunked (k m : Nat) (f : Nat → F) : WellChunked k m (chunksOf (2 ^ k) (2 ^ m) f) := by
  refine ⟨by simp, ?_⟩
  intro c hc
  obtain ⟨s, _, rfl⟩ := List.mem_map.1 hc
  simp

/-- Proving one layer. -/
theorem layer_run [SmallCasts F] (H : List F → F) {l : Layer F} (hl : RunLayer l) (k m : Nat) (vals : List (List F))
    (hv : WellChunked k (l.bGInputs + m) vals) (q' : List F) (hq' : q'.length = m + k) (st : Gate F → Nat → F)
    (nCore : Int) (hc : 1 ≤ nCore) :
    ∃ (out : SumcheckOut F) (fc : F) (tl : List F),
      (newMProver vals vals (chunksOf (2 ^ k) (2 ^ m) (chi q')) l.gates
        (l.gates.map fun g => tab (2 ^ (2 * l.bGInputs)) (st g))).prove H nCore = .ok out ∧
      out.qL.length = l.bGInputs ∧ out.qR.length = l.bGInputs ∧ out.qPrime.length = m + k ∧
      out.finalClaims = mle (interleave (2 ^ k) (2 ^ (l.bGInputs + m)) vals) (out.qL ++ out.qPrime) ::
        mle (interleave (2 ^ k) (2 ^ (l.bGInputs + m)) vals) (out.qR ++ out.qPrime) :: tl ∧
      sumcheckVerify H (hypercubeSum l.gates (m + k) l.bGInputs (interleave (2 ^ k) (2 ^ (l.bGInputs + m)) vals)
        (interleave (2 ^ k) (2 ^ (l.bGInputs + m)) vals) (tab (2 ^ q'.length) (chi q'))
        (l.gates.map fun g => tab (2 ^ (2 * l.bGInputs)) (st g))) out.polyCoeffs l.bGInputs =
        .ok (some ⟨out.qPrime, out.qL, out.qR, fc⟩) ∧
      evaluateCombinator (mle (interleave (2 ^ k) (2 ^ (l.bGInputs + m)) vals) (out.qL ++ out.qPrime))
        (mle (interleave (2 ^ k) (2 ^ (l.bGInputs + m)) vals) (out.qR ++ out.qPrime)) (eqPoly q' out.qPrime) l.gates
        (l.gates.map fun g => mleF (st g) (out.qL ++ out.qR)) = .ok fc := by
  have hsz : SizedChunks l.gates k m l.bGInputs vals vals (chunksOf (2 ^ k) (2 ^ m) (chi q'))
      (l.gates.map fun g => tab (2 ^ (2 * l.bGInputs)) (st g)) :=
    ⟨hv, hv, chunksOf_wellChunked k m _, by simp, by
      intro t ht
      obtain ⟨g, _, rfl⟩ := List.mem_map.1 ht
      simp [two_mul]⟩
  have hne := hl.nonempty
  have eeq : interleave (2 ^ k) (2 ^ m) (chunksOf (2 ^ k) (2 ^ m) (chi q')) = tab (2 ^ q'.length) (chi q') := by
    rw [interleave_chunksOf, hq', pow_add]
  have hs := hsz.sized
  rw [eeq] at hs
  obtain ⟨out, fc, _, h2, h3, h4, h5, h6, _, h8, h9⟩ := C16_complete H l.gates hne hl.lawful hl.degrees _ _ _ _ _ _ hs
  have eqm : mle (tab (2 ^ q'.length) (chi q')) out.qPrime = eqPoly q' out.qPrime := by
    rw [hq', ← h6, mle_tab, mleF_chi q' out.qPrime (by omega)]
  have stm : ((l.gates.map fun g => tab (2 ^ (2 * l.bGInputs)) (st g)).map fun t => mle t (out.qL ++ out.qR)) =
      l.gates.map fun g => mleF (st g) (out.qL ++ out.qR) := by
    rw [List.map_map]
    apply List.map_congr_left
    intro g _
    have : 2 * l.bGInputs = (out.qL ++ out.qR).length := by simp [h4, h5]; omega
    rw [Function.comp, this, mle_tab]
  refine ⟨out, fc, _, ?_, h4, h5, h6, h8, h3, ?_⟩
  · rw [C18_prove H l.gates hl.lawful k m l.bGInputs _ _ _ _ hsz nCore hc, eeq]
    exact h2
  · rw [eqm, stm] at h9
    exact h9

/-- Linearity of the sum in the static tables. -/
theorem hsum_linear (gates : List (Gate F)) (A B n : Nat) (vL vR e : Nat → F) (s s' : Nat → Nat → F) (a b : F) :
    hsum gates A B n vL vR e (fun i u => s i u * a + s' i u * b) =
      hsum gates A B n vL vR e s * a + hsum gates A B n vL vR e s' * b := by
  unfold hsum
  simp only [Finset.sum_mul, ← Finset.sum_add_distrib]
  refine Finset.sum_congr rfl fun h _ => Finset.sum_congr rfl fun l _ => Finset.sum_congr rfl fun r _ =>
    Finset.sum_congr rfl fun i _ => by ring

/-- The claim of an intermediate layer, for any layer. -/
theorem hypercubeSum_counted2 {l : Layer F} (hl : RunLayer l) (bN : Nat) (inp : List F) (qL qR q' : List F)
    (hqL : qL.length = l.bGOutputs) (hqR : qR.length = l.bGOutputs) (hq' : q'.length = bN) (lam : F) :
    hypercubeSum l.gates bN l.bGInputs inp inp (tab (2 ^ q'.length) (chi q'))
      (l.gates.map fun g => tab (2 ^ (2 * l.bGInputs)) (fun u => staticF l.wires g.id qR l.bGInputs u * lam +
        staticF l.wires g.id qL l.bGInputs u * 1)) =
      mle (wiredOutputs (countedBy l.gates l.wires) (2 ^ bN) (2 ^ l.bGOutputs) inp) (qR ++ q') * lam +
        mle (wiredOutputs (countedBy l.gates l.wires) (2 ^ bN) (2 ^ l.bGOutputs) inp) (qL ++ q') := by
  have e := hsum_linear l.gates (2 ^ l.bGInputs) (2 ^ l.bGInputs) (2 ^ bN) (fun i => inp.getD i 0)
    (fun i => inp.getD i 0) (chi q') (fun i => staticF l.wires ((l.gates.map (·.id)).getD i "") qR l.bGInputs)
    (fun i => staticF l.wires ((l.gates.map (·.id)).getD i "") qL l.bGInputs) lam 1
  rw [hsum_counted l hl.inRange bN inp qR q' hqR hq',
    hsum_counted l hl.inRange bN inp qL q' hqL hq', mul_one] at e
  rw [← e, ← hsum_eq_hypercubeSum]
  apply hsum_congr
  · intros; rfl
  · intros; rfl
  · intro i hi; exact tab_getD (hq' ▸ hi)
  · intro i hi u hu
    have h2 : (l.gates.map (·.id)).getD i "" = l.gates[i].id := by simp [hi]
    rw [h2]
    simp only [List.getD_eq_getElem?_getD, List.getElem?_map, List.getElem?_eq_getElem hi, Option.map_some,
      Option.getD_some]
    rw [← List.getD_eq_getElem?_getD, tab_getD (by rwa [two_mul, pow_add])]

/-- The claim of an intermediate layer. -/
theorem hypercubeSum_layer2 {l : Layer F} (hl : GoodLayer l) (bN : Nat) (inp : List F) (qL qR q' : List F)
    (hqL : qL.length = l.bGOutputs) (hqR : qR.length = l.bGOutputs) (hq' : q'.length = bN) (lam : F) :
    hypercubeSum l.gates bN l.bGInputs inp inp (tab (2 ^ q'.length) (chi q'))
      (l.gates.map fun g => tab (2 ^ (2 * l.bGInputs)) (fun u => staticF l.wires g.id qR l.bGInputs u * lam +
        staticF l.wires g.id qL l.bGInputs u * 1)) =
      mle (wiredOutputs l.wires (2 ^ bN) (2 ^ l.bGOutputs) inp) (qR ++ q') * lam +
        mle (wiredOutputs l.wires (2 ^ bN) (2 ^ l.bGOutputs) inp) (qL ++ q') := by
  rw [hypercubeSum_counted2 hl.toRunLayer bN inp qL qR q' hqL hqR hq' lam, wiredOutputs_listed hl.listed]

/-- Evaluating a layer chunk by chunk is evaluating it on the interleaved table. -/
theorem interleave_wired (wires : List (Wire F)) (k m G O : Nat) (vals : List (List F)) (hv : WellChunked k (G + m) vals)
    (hr : ∀ w ∈ wires, w.L < 2 ^ G ∧ w.R < 2 ^ G) :
    interleave (2 ^ k) (2 ^ (O + m)) (vals.map (wiredOutputs wires (2 ^ m) (2 ^ O))) =
      wiredOutputs wires (2 ^ (m + k)) (2 ^ O) (interleave (2 ^ k) (2 ^ (G + m)) vals) := by
  set K := 2 ^ k with hK
  set n := 2 ^ m with hn
  have hK0 : 0 < K := Nat.two_pow_pos _
  have hn0 : 0 < n := Nat.two_pow_pos _
  apply List.ext_getElem
  · simp [interleave, wiredOutputs, pow_add, hK, hn]; ring
  intro j h1 h2
  simp only [interleave, wiredOutputs, List.getElem_map, List.getElem_range]
  have hj : j < 2 ^ (O + m) * K := by simpa [interleave] using h1
  set s := j % K with hs
  set u := j / K with hu
  have hsK : s < K := Nat.mod_lt _ hK0
  have hu2 : u < 2 ^ O * n := by rw [hu, Nat.div_lt_iff_lt_mul hK0]; rw [pow_add] at hj; exact hj
  have hjd : j = u * K + s := (Nat.div_add_mod' j K).symm
  have hN : 2 ^ (m + k) = n * K := by rw [pow_add]
  have hsl : s < vals.length := by rw [hv.1]; exact hsK
  have e1 : (vals.map (wiredOutputs wires n (2 ^ O))).getD s [] = (List.range (2 ^ O * n)).map fun j => wiredOutput wires n vals[s] (j / n) (j % n) := by simp [hsl, wiredOutputs]
  have e2 : ((List.range (2 ^ O * n)).map fun j => wiredOutput wires n vals[s] (j / n) (j % n)).getD u 0 =
      wiredOutput wires n vals[s] (u / n) (u % n) := by simp [hu2]
  rw [e1, e2, hN]
  have e3 : j / (n * K) = u / n := by rw [mul_comm, ← Nat.div_div_eq_div_mul]
  have e4 : j % (n * K) = u % n * K + s := by
    rw [mul_comm, Nat.mod_mul, ← hs, ← hu]; ring
  rw [e3, e4]
  unfold wiredOutput
  congr 1
  apply List.map_congr_left
  intro w hw
  obtain ⟨rL, rR⟩ := hr w (List.mem_of_mem_filter hw)
  have hmod : u % n < n := Nat.mod_lt _ hn0
  have key : ∀ x, x < 2 ^ G → vals[s].getD (x * n + u % n) 0 =
      ((List.range (2 ^ (G + m) * K)).map fun i => (vals.getD (i % K) []).getD (i / K) 0).getD
        (x * (n * K) + (u % n * K + s)) 0 := by
    intro x hx
    have hidx : x * (n * K) + (u % n * K + s) = (x * n + u % n) * K + s := by ring
    have hlt : x * n + u % n < 2 ^ (G + m) := by rw [pow_add]; exact mul_add_lt hx hmod
    have hlt2 : (x * n + u % n) * K + s < 2 ^ (G + m) * K := mul_add_lt hlt hsK
    have := (div_mod_lt (O := x * n + u % n) (N := K) (j := (x * n + u % n) * K + s) hsK).1 rfl
    rw [hidx]
    rw [List.getD_eq_getElem?_getD (l := List.map _ _), List.getElem?_map, List.getElem?_range hlt2]
    simp only [Option.map_some, Option.getD_some, this.1, this.2]
    simp [hsl]
  rw [key _ rL, key _ rR]

/-- The values of the layers of a circuit evaluated as wired, in `2^k` chunks of `2^m` instances. -/
structure HonestAssignment (c : Circuit F) (k m : Nat) (values : List (List (List F))) : Prop where
  nonempty : c.layers ≠ []
  good : ∀ l ∈ c.layers, GoodLayer l
  chained : ∀ (i : Nat) (l l' : Layer F), c.layers[i]? = some l → c.layers[i + 1]? = some l' → l.bGOutputs = l'.bGInputs
  lengths : values.length = c.layers.length + 1
  chunked : ∀ (i : Nat) (l : Layer F) (v : List (List F)), c.layers[i]? = some l → values[i]? = some v → WellChunked k (l.bGInputs + m) v
  wired : ∀ (i : Nat) (l : Layer F) (v : List (List F)), c.layers[i]? = some l → values[i]? = some v →
    values[i + 1]? = some (v.map (wiredOutputs l.wires (2 ^ m) (2 ^ l.bGOutputs)))

theorem eqChunks (k m : Nat) (q' : List F) (h : q'.length = m + k) {nCore : Int} (hc : 1 ≤ nCore) :
    getChunkedEqTable q' (2 ^ k) nCore = .ok (chunksOf (2 ^ k) (2 ^ m) (chi q')) := by
  obtain ⟨a, b, rfl, rfl, rfl⟩ : ∃ a b : List F, q' = a ++ b ∧ m = a.length ∧ k = b.length :=
    ⟨q'.take m, q'.drop m, by simp, by simp; omega, by simp; omega⟩
  exact getChunkedEqTable_eq a b hc

theorem mleF_linear (f g : Nat → F) (a b : F) (x : List F) :
    mleF (fun u => f u * a + g u * b) x = mleF f x * a + mleF g x * b := by
  unfold mleF
  rw [Finset.sum_mul, Finset.sum_mul, ← Finset.sum_add_distrib]
  exact Finset.sum_congr rfl fun i _ => by ring

theorem evalStatics_eq {l : Layer F} (hl : RunLayer l) (q nL nR : List F) (hq : q.length = l.bGOutputs)
    (hL : nL.length = l.bGInputs) (hR : nR.length = l.bGInputs) :
    evaluateStaticTables l q nL nR =
      .ok (l.gates.map fun g => mleF (staticF l.wires g.id q l.bGInputs) (nL ++ nR)) := by
  unfold evaluateStaticTables
  rw [getStaticTable_eq l hl.inRange q hq, ok_bind, mapGo_map]
  apply mapGo_ok
  intro g _
  have : 2 * l.bGInputs = (nL ++ nR).length := by simp [hL, hR]; omega
  rw [this, evaluate_tab]

theorem evalStatics2_eq {l : Layer F} (hl : RunLayer l) (qL qR nL nR : List F) (hqL : qL.length = l.bGOutputs)
    (hqR : qR.length = l.bGOutputs) (hL : nL.length = l.bGInputs) (hR : nR.length = l.bGInputs) (lam : F) :
    evaluateStaticTablesLinCombs l qL qR nL nR 1 lam =
      .ok (l.gates.map fun g => mleF (fun u => staticF l.wires g.id qR l.bGInputs u * lam +
        staticF l.wires g.id qL l.bGInputs u * 1) (nL ++ nR)) := by
  unfold evaluateStaticTablesLinCombs
  rw [getStaticTable_eq l hl.inRange qL hqL, ok_bind, getStaticTable_eq l hl.inRange qR hqR, ok_bind]
  have hlen : 2 * l.bGInputs = (nL ++ nR).length := by simp [hL, hR]; omega
  simp only [hlen]
  rw [gen_ok (fun i => (l.gates.map fun g => mleF (fun u => staticF l.wires g.id qR l.bGInputs u * lam +
        staticF l.wires g.id qL l.bGInputs u * 1) (nL ++ nR)).getD i 0)]
  · rw [List.length_map]
    congr 1
    symm
    have := eq_tab (l.gates.map fun g => mleF (fun u => staticF l.wires g.id qR l.bGInputs u * lam +
        staticF l.wires g.id qL l.bGInputs u * 1) (nL ++ nR)) 0
    rwa [List.length_map] at this
  · intro i hi
    have hi' : i < l.gates.length := by simpa using hi
    rw [idx_ok hi, ok_bind, idx_ok (by simpa using hi'), List.getElem_map, List.getElem_map, evaluate_tab, ok_bind,
      ok_bind, evaluate_tab, ok_bind]
    simp only [List.getD_eq_getElem?_getD, List.getElem?_map, List.getElem?_eq_getElem hi', Option.map_some,
      Option.getD_some, mleF_linear, go_pure]
    congr 1
    ring

/-- An honest sumcheck output for layer values `V`. -/
def HonestOut (l : Layer F) (m k : Nat) (V : List F) (out : SumcheckOut F) : Prop :=
  out.qL.length = l.bGInputs ∧ out.qR.length = l.bGInputs ∧ out.qPrime.length = m + k ∧
    ∃ tl, out.finalClaims = mle V (out.qL ++ out.qPrime) :: mle V (out.qR ++ out.qPrime) :: tl

/-- The proof carries the results of `outs` for layers `0, 1, …`. -/
def Carries (proof : GkrProof F) (outs : List (SumcheckOut F)) : Prop :=
  ∀ (i : Nat) (o : SumcheckOut F), outs[i]? = some o → proof.sumcheckProofs[i]? = some o.polyCoeffs ∧
    proof.claimsLeft[i]? = o.finalClaims[0]? ∧ proof.claimsRight[i]? = o.finalClaims[1]?

theorem Carries.left {proof : GkrProof F} {a b : List (SumcheckOut F)} (h : Carries proof (a ++ b)) : Carries proof a := by
  intro i o ho
  have hi : i < a.length := (List.getElem?_eq_some_iff.1 ho).1
  exact h i o (by rw [List.getElem?_append_left hi]; exact ho)

theorem linComb_static {l : Layer F} (hl : RunLayer l) (qL qR : List F) (hqL : qL.length = l.bGOutputs)
    (hqR : qR.length = l.bGOutputs) (lam : F) :
    (do
      let staticsL ← getStaticTable l qL
      let staticsR ← getStaticTable l qR
      gen staticsL.length fun i => do
        let a ← idx staticsL i
        let b ← idx staticsR i
        linearCombination a b 1 lam : Go (List (Table F))) =
    .ok (l.gates.map fun g => tab (2 ^ (2 * l.bGInputs)) (fun u => staticF l.wires g.id qR l.bGInputs u * lam +
        staticF l.wires g.id qL l.bGInputs u * 1)) := by
  rw [getStaticTable_eq l hl.inRange qL hqL, ok_bind, getStaticTable_eq l hl.inRange qR hqR, ok_bind]
  rw [gen_ok (fun i => (l.gates.map fun g => tab (2 ^ (2 * l.bGInputs)) (fun u => staticF l.wires g.id qR l.bGInputs u * lam +
        staticF l.wires g.id qL l.bGInputs u * 1)).getD i [])]
  · rw [List.length_map]
    congr 1
    symm
    have := eq_tab (l.gates.map fun g => tab (2 ^ (2 * l.bGInputs)) (fun u => staticF l.wires g.id qR l.bGInputs u * lam +
        staticF l.wires g.id qL l.bGInputs u * 1)) []
    rwa [List.length_map] at this
  · intro i hi
    have hi' : i < l.gates.length := by simpa using hi
    rw [idx_ok hi, ok_bind, idx_ok (by simpa using hi'), List.getElem_map, List.getElem_map, ok_bind,
      linearCombination_eq _ _ _ _ (by simp)]
    simp only [List.getD_eq_getElem?_getD, List.getElem?_map, List.getElem?_eq_getElem hi', Option.map_some,
      Option.getD_some, tab_length]
    congr 1
    apply tab_congr
    intro u hu
    rw [← List.getD_eq_getElem?_getD, ← List.getD_eq_getElem?_getD, tab_getD hu, tab_getD hu]

theorem idx_some {α : Type} {xs : List α} {i : Nat} {a : α} (h : xs[i]? = some a) : idx xs i = .ok a :=
  idx_eq_ok.2 h

/-- The layers below an honestly proved one: the prover runs and the verifier accepts. -/
theorem layers_complete [SmallCasts F] (H : List F → F) (c : Circuit F) (k m : Nat) (hk : 1 ≤ k)
    (values : List (List (List F))) (hA : HonestAssignment c k m values) (bN : Nat) (inputs : List (List F))
    (hin : values[0]? = some inputs) (nCore : Int) (hc : 1 ≤ nCore) (layer : Nat) :
    ∀ (l : Layer F) (v : List (List F)) (out : SumcheckOut F), c.layers[layer]? = some l → values[layer]? = some v →
    HonestOut l m k (interleave (2 ^ k) (2 ^ (l.bGInputs + m)) v) out →
    ∃ rest, GkrProver.proveLayers H ⟨bN, c, values⟩ nCore layer out = .ok rest ∧ rest.length = layer ∧
      (∀ o ∈ rest, 2 ≤ o.finalClaims.length) ∧
      ∀ proof fc, Carries proof (rest ++ [out]) →
        verifyLayers H c proof inputs layer ⟨out.qPrime, out.qL, out.qR, fc⟩ = .ok true := by
  induction layer with
  | zero =>
    intro l v out hl hv ho
    obtain ⟨o1, o2, o3, tl, o4⟩ := ho
    refine ⟨[], rfl, rfl, by simp, ?_⟩
    intro proof fc hcar
    obtain ⟨_, c2, c3⟩ := hcar 0 out rfl
    rw [o4] at c2 c3
    have hvin : v = inputs := by rw [hin] at hv; exact (Option.some.inj hv).symm
    subst hvin
    have hch := hA.chunked 0 l v hl hv
    have e := C07_evaluateMixedChunked_partial k m hk v out.qPrime out.qL out.qR (by omega) o3 (by rw [o1]; exact hch)
    unfold verifyLayers verifyInputs
    simp only
    rw [e]
    unfold evaluateLeftAndRight
    rw [o1, evaluate_eq, evaluate_eq]
    · simp only [ok_bind, go_pure]
      rw [idx_some c2, idx_some c3]
      simp
    · simp [interleave, pow_add, o2, o3]; ring
    · simp [interleave, pow_add, o1, o3]; ring
  | succ layer ih =>
    intro l v out hl hv ho
    obtain ⟨o1, o2, o3, tl, o4⟩ := ho
    -- the layer below
    have hlen : layer + 1 < c.layers.length := (List.getElem?_eq_some_iff.1 hl).1
    obtain ⟨l', hl'⟩ : ∃ l', c.layers[layer]? = some l' := ⟨_, List.getElem?_eq_getElem (by omega)⟩
    obtain ⟨v', hv'⟩ : ∃ v', values[layer]? = some v' :=
      ⟨_, List.getElem?_eq_getElem (by rw [hA.lengths]; omega)⟩
    have hgl := hA.good l' (List.mem_of_getElem? hl')
    have hch := hA.chunked layer l' v' hl' hv'
    have hw := hA.wired layer l' v' hl' hv'
    rw [hv] at hw
    have hw := Option.some.inj hw
    have hbG := hA.chained layer l' l hl' hl
    set V := interleave (2 ^ k) (2 ^ (l.bGInputs + m)) v with hV
    set V' := interleave (2 ^ k) (2 ^ (l'.bGInputs + m)) v' with hV'
    have hVV : V = wiredOutputs l'.wires (2 ^ (m + k)) (2 ^ l'.bGOutputs) V' := by
      rw [hV, hw, ← hbG]
      exact interleave_wired l'.wires k m l'.bGInputs l'.bGOutputs v' hch
        (fun w hw => ⟨(hgl.inRange w hw).1, (hgl.inRange w hw).2.1⟩)
    set cl := mle V (out.qL ++ out.qPrime) with hcl
    set cr := mle V (out.qR ++ out.qPrime) with hcr
    set lam := H [cl, cr] with hlam
    have hqL : out.qL.length = l'.bGOutputs := by omega
    have hqR : out.qR.length = l'.bGOutputs := by omega
    obtain ⟨out', fc', tl', p1, p2, p3, p4, p5, p6, p7⟩ := layer_run H hgl.toRunLayer k m v' hch out.qPrime o3
      (fun g u => staticF l'.wires g.id out.qR l'.bGInputs u * lam + staticF l'.wires g.id out.qL l'.bGInputs u * 1)
      nCore hc
    obtain ⟨rest, r1, r2, r4, r3⟩ := ih l' v' out' hl' hv' ⟨p2, p3, p4, tl', p5⟩
    have hround : GkrProver.intermediateRound ⟨bN, c, values⟩ layer out.qPrime out.qL out.qR 1 lam nCore =
        .ok (newMProver v' v' (chunksOf (2 ^ k) (2 ^ m) (chi out.qPrime)) l'.gates
          (l'.gates.map fun g => tab (2 ^ (2 * l'.bGInputs)) (fun u => staticF l'.wires g.id out.qR l'.bGInputs u * lam +
            staticF l'.wires g.id out.qL l'.bGInputs u * 1))) := by
      unfold GkrProver.intermediateRound layerAsBKTWithCopy
      rw [idx_some hv', ok_bind, sem_ok hc, ok_bind]
      simp only [go_pure, ok_bind]
      rw [hch.1, eqChunks k m out.qPrime o3 hc, ok_bind, idx_some hl', ok_bind]
      have := linComb_static hgl.toRunLayer out.qL out.qR hqL hqR lam
      rw [bind_eq_ok] at this
      obtain ⟨tL, t1, t2⟩ := this
      rw [bind_eq_ok] at t2
      obtain ⟨tR, t2, t3⟩ := t2
      rw [t1, ok_bind, t2, ok_bind, t3, ok_bind]
    refine ⟨rest ++ [out'], ?_, by simp [r2], ?_, ?_⟩
    · rw [GkrProver.proveLayers, o4]
      have i0 : idx (cl :: cr :: tl) 0 = .ok cl := rfl
      have i1 : idx (cl :: cr :: tl) 1 = .ok cr := rfl
      rw [i0, ok_bind, i1, ok_bind, ← hlam]
      dsimp only
      rw [hround, ok_bind, p1, ok_bind, r1, ok_bind]; rfl
    · intro o ho
      rcases List.mem_append.1 ho with h | h
      · exact r4 o h
      · rw [List.mem_singleton] at h; subst h; rw [p5]; simp
    · intro proof fc hcar
      have hcar2 := hcar.left
      obtain ⟨_, c2, c3⟩ := hcar (layer + 1) out (by
        rw [List.getElem?_append_right (by simp [r2])]; simp [r2])
      obtain ⟨d1, d2, d3⟩ := hcar2 layer out' (by
        rw [List.getElem?_append_right (by simp [r2])]; simp [r2])
      rw [o4] at c2 c3
      rw [p5] at d2 d3
      rw [verifyLayers, idx_some c2, ok_bind, idx_some c3, ok_bind, idx_some d1, ok_bind, idx_some hl', ok_bind]
      have hclaim : cr * lam + cl = hypercubeSum l'.gates (m + k) l'.bGInputs V' V'
          (tab (2 ^ out.qPrime.length) (chi out.qPrime))
          (l'.gates.map fun g => tab (2 ^ (2 * l'.bGInputs)) (fun u => staticF l'.wires g.id out.qR l'.bGInputs u * lam +
            staticF l'.wires g.id out.qL l'.bGInputs u * 1)) := by
        rw [hypercubeSum_layer2 hgl (m + k) V' out.qL out.qR out.qPrime hqL hqR o3 lam, ← hVV]
      rw [← hlam, hclaim, p6, ok_bind]
      simp only
      rw [evalEq_eq _ _ (by omega), ok_bind, idx_some d2, ok_bind, idx_some d3, ok_bind,
        evalStatics2_eq hgl.toRunLayer out.qL out.qR out'.qL out'.qR hqL hqR p2 p3 lam, ok_bind]
      rw [p7, ok_bind, if_neg (not_not.2 rfl)]
      exact r3 proof fc' hcar2

/-- Completeness. -/
theorem gkr_complete [SmallCasts F] (H : List F → F) (c : Circuit F) (k m : Nat) (hk : 1 ≤ k)
    (values : List (List (List F))) (hA : HonestAssignment c k m values) (inputs outputs : List (List F))
    (hin : values[0]? = some inputs) (hout : values[c.layers.length]? = some outputs) (nCore : Int) (hc : 1 ≤ nCore) :
    ∃ p proof, newGkrProver c values = .ok p ∧ p.prove H nCore = .ok proof ∧
      gkrVerify H (m + k) c proof inputs outputs = .ok true := by
  have hpos : 0 < c.layers.length := List.length_pos_of_ne_nil hA.nonempty
  obtain ⟨l0, hl0⟩ : ∃ l0, c.layers[0]? = some l0 := ⟨_, List.getElem?_eq_getElem hpos⟩
  have hch0 := hA.chunked 0 l0 inputs hl0 hin
  obtain ⟨v00, hv00⟩ : ∃ v, inputs[0]? = some v :=
    ⟨_, List.getElem?_eq_getElem (by rw [hch0.1]; exact Nat.two_pow_pos _)⟩
  have hlen00 : v00.length = 2 ^ (l0.bGInputs + m) := hch0.2 v00 (List.mem_of_getElem? hv00)
  have hnew : newGkrProver c values = .ok ⟨m + k, c, values⟩ := by
    unfold newGkrProver
    rw [idx_some hin, ok_bind, idx_some hv00, ok_bind, idx_some hl0, ok_bind]
    have hlg : log2Ceil ((inputs.length * v00.length : Nat) : Int) = k + (l0.bGInputs + m) := by
      rw [hch0.1, hlen00, ← pow_add, log2Ceil_pow]
    simp only [hlg]
    rw [if_neg (by omega), go_pure]
    congr 2
    omega
  -- the last layer
  obtain ⟨n, hn⟩ : ∃ n, c.layers.length = n + 1 := ⟨c.layers.length - 1, by omega⟩
  obtain ⟨l, hl⟩ : ∃ l, c.layers[n]? = some l := ⟨_, List.getElem?_eq_getElem (by omega)⟩
  obtain ⟨v, hv⟩ : ∃ v, values[n]? = some v := ⟨_, List.getElem?_eq_getElem (by rw [hA.lengths]; omega)⟩
  have hgl := hA.good l (List.mem_of_getElem? hl)
  have hch := hA.chunked n l v hl hv
  have hw := hA.wired n l v hl hv
  rw [← hn, hout] at hw
  have hw := Option.some.inj hw
  have hidxP : idxPred c.layers (n + 1) = .ok l := by
    unfold idxPred; rw [if_neg (by omega)]; exact idx_some hl
  set q' : List F := (getInitialQPrimeAndQ (m + k) l.bGOutputs).1 with hq'
  set q : List F := (getInitialQPrimeAndQ (m + k) l.bGOutputs).2 with hq
  have lq' : q'.length = m + k := by simp [hq', getInitialQPrimeAndQ]
  have lq : q.length = l.bGOutputs := by simp [hq, getInitialQPrimeAndQ]
  set V := interleave (2 ^ k) (2 ^ (l.bGInputs + m)) v with hV
  have hVV : interleave (2 ^ k) (2 ^ (l.bGOutputs + m)) outputs =
      wiredOutputs l.wires (2 ^ (m + k)) (2 ^ l.bGOutputs) V := by
    rw [hw]
    exact interleave_wired l.wires k m l.bGInputs l.bGOutputs v hch
      (fun w hw => ⟨(hgl.inRange w hw).1, (hgl.inRange w hw).2.1⟩)
  obtain ⟨out, fc, tl, p1, p2, p3, p4, p5, p6, p7⟩ := layer_run H hgl.toRunLayer k m v hch q' lq'
    (fun g => staticF l.wires g.id q l.bGInputs) nCore hc
  obtain ⟨rest, r1, r2, r4, r3⟩ := layers_complete H c k m hk values hA (m + k) inputs hin nCore hc n l v out hl hv
    ⟨p2, p3, p4, tl, p5⟩
  have hround : GkrProver.initialRound ⟨m + k, c, values⟩ q' q nCore =
      .ok (newMProver v v (chunksOf (2 ^ k) (2 ^ m) (chi q')) l.gates
        (l.gates.map fun g => tab (2 ^ (2 * l.bGInputs)) (staticF l.wires g.id q l.bGInputs))) := by
    unfold GkrProver.initialRound layerAsBKTWithCopy
    simp only [hn]
    rw [hidxP, ok_bind, getStaticTable_eq l hgl.inRange q lq, ok_bind, Nat.add_sub_cancel, idx_some hv, ok_bind,
      sem_ok hc, ok_bind]
    simp only [go_pure, ok_bind]
    rw [hch.1, eqChunks k m q' lq' hc, ok_bind]
  have hall : ∀ o ∈ rest ++ [out], 2 ≤ o.finalClaims.length := by
    intro o ho
    rcases List.mem_append.1 ho with h | h
    · exact r4 o h
    · rw [List.mem_singleton] at h; subst h; rw [p5]; simp
  have m0 : mapGo (fun o : SumcheckOut F => idx o.finalClaims 0) (rest ++ [out]) =
      .ok ((rest ++ [out]).map fun o => o.finalClaims.getD 0 0) := by
    apply mapGo_ok
    intro o ho
    have := hall o ho
    rw [idx_ok (by omega)]; simp [List.getD_eq_getElem?_getD, List.getElem?_eq_getElem (show 0 < o.finalClaims.length by omega)]
  have m1 : mapGo (fun o : SumcheckOut F => idx o.finalClaims 1) (rest ++ [out]) =
      .ok ((rest ++ [out]).map fun o => o.finalClaims.getD 1 0) := by
    apply mapGo_ok
    intro o ho
    have := hall o ho
    rw [idx_ok (by omega)]; simp [List.getD_eq_getElem?_getD, List.getElem?_eq_getElem (show 1 < o.finalClaims.length by omega)]
  set proof : GkrProof F := ⟨(rest ++ [out]).map (fun o => o.polyCoeffs),
    (rest ++ [out]).map (fun o => o.finalClaims.getD 0 0),
    (rest ++ [out]).map (fun o => o.finalClaims.getD 1 0)⟩ with hproof
  have hcar : Carries proof (rest ++ [out]) := by
    intro i o ho
    have h2 := hall o (List.mem_of_getElem? ho)
    refine ⟨?_, ?_, ?_⟩
    · rw [hproof]; simp only [List.getElem?_map, ho, Option.map_some]
    · rw [hproof]; simp only [List.getElem?_map, ho, Option.map_some]
      rw [List.getD_eq_getElem?_getD, List.getElem?_eq_getElem (by omega)]; rfl
    · rw [hproof]; simp only [List.getElem?_map, ho, Option.map_some]
      rw [List.getD_eq_getElem?_getD, List.getElem?_eq_getElem (by omega)]; rfl
  refine ⟨⟨m + k, c, values⟩, proof, hnew, ?_, ?_⟩
  · unfold GkrProver.prove
    simp only [hn]
    rw [hidxP, ok_bind]
    change (GkrProver.initialRound ⟨m + k, c, values⟩ q' q nCore >>= _) = _
    rw [hround, ok_bind, p1, ok_bind, Nat.add_sub_cancel, r1, ok_bind, m0, ok_bind, m1, ok_bind]
    rfl
  · unfold gkrVerify
    simp only [hn]
    rw [hidxP, ok_bind]
    change (evaluateChunked outputs (q ++ q') >>= _) = _
    have hwo : WellChunked k (l.bGOutputs + m) outputs := by
      rw [hw]
      refine ⟨by rw [List.length_map]; exact hch.1, ?_⟩
      intro x hx
      obtain ⟨y, _, rfl⟩ := List.mem_map.1 hx
      simp [wiredOutputs, pow_add]
    rw [C07_evaluateChunked_partial k (l.bGOutputs + m) hk outputs hwo (q ++ q') (by simp [lq, lq']; omega), evaluate_eq]
    rotate_left
    · simp [interleave, lq, lq', pow_add]; ring
    rw [ok_bind, hVV, ← hypercubeSum_layer l hgl.inRange hgl.listed (m + k) V q q' lq lq']
    obtain ⟨d1, d2, d3⟩ := hcar n out (by rw [List.getElem?_append_right (by simp [r2])]; simp [r2])
    rw [p5] at d2 d3
    rw [Nat.add_sub_cancel, idx_some d1, ok_bind, p6, ok_bind]
    simp only
    rw [evalEq_eq _ _ (by rw [p4]; exact lq'.le), ok_bind, idx_some d2, ok_bind, idx_some d3, ok_bind,
      evalStatics_eq hgl.toRunLayer q out.qL out.qR lq p2 p3, ok_bind]
    rw [p7, ok_bind, if_neg (not_not.2 rfl)]
    exact r3 proof fc hcar

end GkrMimc
