import Verif.Proofs.GkrSound
import Verif.Props.Mimc

/-! Properties C23, C24, C25: what the GKR verifier accepts. -/

set_option linter.unusedSectionVars false

namespace GkrMimc

open Spec Polynomial

variable {F : Type} [Field F] [DecidableEq F]

theorem goodCircuit_of {wiring : List (List (Wire F))} (hw : ∀ ws ∈ wiring, GoodWires ws) {G : Nat}
    (hG : Chained G (newCircuit wiring).layers) : GoodCircuit (newCircuit wiring) := by
  constructor
  · intro l hl
    obtain ⟨ws, hws, rfl⟩ := List.mem_map.1 hl
    exact (hw ws hws).layer
  · have : WellChunked 0 (G + 0) ([List.replicate (2 ^ G) 0] : List (List F)) := ⟨rfl, by simp⟩
    exact (wiredAssignment_facts 0 0 _ G _ hG this).2.2.1

theorem chained_first {G : Nat} {layers : List (Layer F)} (h : Chained G layers) {l0 : Layer F}
    (hl0 : layers[0]? = some l0) : l0.bGInputs = G := by
  cases layers with
  | nil => simp at hl0
  | cons l ls =>
    simp only [List.getElem?_cons_zero, Option.some.injEq] at hl0
    subst hl0
    exact h.1

/-- The goal that the outputs set for the last layer `ln`. -/
def outputGoal (k m : Nat) (ln : Layer F) (outputs : List (List F)) : Goal F :=
  initialGoal (m + k) ln.bGOutputs (interleave (2 ^ k) (2 ^ (ln.bGOutputs + m)) outputs)

/-- C23, what `Verify` checks exactly, for every proof, honest or not: the proof has messages for all layers, the checks of
the last layer hold, and then either the checks of all layers hold and the inputs match, or some layer below the last
one is reached whose rounds are consistent and whose final value is **wrong** (gkr/verifier.go:99). -/
theorem C23_accepts_iff (H : List F → F) (wiring : List (List (Wire F))) (hne : wiring ≠ [])
    (hw : ∀ ws ∈ wiring, GoodWires ws) (G k m : Nat) (hk : 1 ≤ k) (hG : Chained G (newCircuit wiring).layers)
    (ln : Layer F) (hln : (newCircuit wiring).layers[(newCircuit wiring).layers.length - 1]? = some ln)
    (inputs outputs : List (List F)) (hin : WellChunked k (G + m) inputs) (hout : WellChunked k (ln.bGOutputs + m) outputs)
    (proof : GkrProof F) :
    gkrVerify H (m + k) (newCircuit wiring) proof inputs outputs = .ok true ↔
      HasShape (newCircuit wiring) proof ∧
      LayerRounds H (newCircuit wiring) proof (outputGoal k m ln outputs) ((newCircuit wiring).layers.length - 1) ∧
      LayerValue H (newCircuit wiring) proof (outputGoal k m ln outputs) ((newCircuit wiring).layers.length - 1) ∧
      AcceptsBelow H (newCircuit wiring) proof (outputGoal k m ln outputs) (m + k) (interleave (2 ^ k) (2 ^ (G + m)) inputs)
        ((newCircuit wiring).layers.length - 1) := by
  have hne' : (newCircuit wiring).layers ≠ [] := by simpa [newCircuit] using hne
  obtain ⟨l0, hl0⟩ : ∃ l0, (newCircuit wiring).layers[0]? = some l0 :=
    ⟨_, List.getElem?_eq_getElem (List.length_pos_of_ne_nil hne')⟩
  have e := chained_first hG hl0
  have := gkrVerify_iff H (newCircuit wiring) proof hne' (goodCircuit_of hw hG) k m hk inputs outputs
    (fun l h => by rw [chained_first hG h]; exact hin) l0 ln hl0 hln hout
  rw [e] at this
  exact this

/-- C23 (full claim: acceptance implies all checks). Proved: acceptance implies all checks of the specification, unless
line 99 was reached: the missing case is the second alternative, which is real (`C23_negation`). -/
theorem C23_accept_partial (H : List F → F) (wiring : List (List (Wire F))) (hne : wiring ≠ [])
    (hw : ∀ ws ∈ wiring, GoodWires ws) (G k m : Nat) (hk : 1 ≤ k) (hG : Chained G (newCircuit wiring).layers)
    (ln : Layer F) (hln : (newCircuit wiring).layers[(newCircuit wiring).layers.length - 1]? = some ln)
    (inputs outputs : List (List F)) (hin : WellChunked k (G + m) inputs) (hout : WellChunked k (ln.bGOutputs + m) outputs)
    (proof : GkrProof F) (hacc : gkrVerify H (m + k) (newCircuit wiring) proof inputs outputs = .ok true) :
    GkrConsistent H (m + k) (newCircuit wiring).layers proof (interleave (2 ^ k) (2 ^ (G + m)) inputs)
      (outputGoal k m ln outputs) ∨
    ∃ (i : Nat) (l : Layer F), i < (newCircuit wiring).layers.length - 1 ∧ (newCircuit wiring).layers[i]? = some l ∧
      RoundChecks H l (goalOf H (newCircuit wiring).layers proof (outputGoal k m ln outputs) i) (msgOf proof i) ∧
      ¬ ValueCheck H l (goalOf H (newCircuit wiring).layers proof (outputGoal k m ln outputs) i) (msgOf proof i) := by
  obtain ⟨_, h2, h3, h4⟩ := (C23_accepts_iff H wiring hne hw G k m hk hG ln hln inputs outputs hin hout proof).1 hacc
  rcases h4 with ⟨h4, h5⟩ | ⟨i, hi, _, h5, h6⟩
  · refine .inl ⟨fun i l hl => ?_, h5⟩
    have hi : i < (newCircuit wiring).layers.length := (List.getElem?_eq_some_iff.1 hl).1
    by_cases h : i = (newCircuit wiring).layers.length - 1
    · subst h; exact ⟨h2 l hl, h3 l hl⟩
    · exact ⟨(h4 i (by omega)).1 l hl, (h4 i (by omega)).2 l hl⟩
  · right
    unfold LayerValue at h6
    push Not at h6
    obtain ⟨l, hl, h6⟩ := h6
    exact ⟨i, l, hi, hl, h5 l hl, h6⟩

/-- The numbers of rounds of a consistent proof are right. -/
theorem consistent_lengths (H : List F → F) (layers : List (Layer F)) (proof : GkrProof F) (top : Goal F) (bN : Nat)
    (htop : top.point.length = bN) (inputs : List F) (h : GkrConsistent H bN layers proof inputs top) :
    (∀ (i : Nat) (l : Layer F), layers[i]? = some l → (msgOf proof i).rounds.length = 2 * l.bGInputs + bN) ∧
    (∀ (i : Nat) (l : Layer F), layers[i]? = some l → (goalOf H layers proof top i).point.length = bN) := by
  have below : ∀ (i : Nat) (l : Layer F), layers[i + 1]? = some l →
      (goalOf H layers proof top i).point.length = (msgOf proof (i + 1)).rounds.length - 2 * l.bGInputs := by
    intro i l hl
    unfold goalOf
    rw [hl]
    exact Msg.qN_length
  have up : ∀ (i : Nat) (l : Layer F), layers[i]? = some l → (msgOf proof i).rounds.length - 2 * l.bGInputs ≤ bN := by
    intro i
    induction i with
    | zero =>
      intro l hl
      have := (h.first l hl).1
      rw [Msg.qN_length] at this
      omega
    | succ i ih =>
      intro l hl
      have hlt : i + 1 < layers.length := (List.getElem?_eq_some_iff.1 hl).1
      obtain ⟨l', hl'⟩ : ∃ l', layers[i]? = some l' := ⟨_, List.getElem?_eq_getElem (by omega)⟩
      have h1 := (h.each i l' hl').1.2.1
      have h2 := below i l hl
      have h3 := ih l' hl'
      omega
  have down : ∀ (d i : Nat) (l : Layer F), layers[i]? = some l → i + d + 1 = layers.length →
      bN ≤ (goalOf H layers proof top i).point.length := by
    intro d
    induction d with
    | zero =>
      intro i l hl hd
      unfold goalOf
      rw [List.getElem?_eq_none (by omega)]
      exact htop.ge
    | succ d ih =>
      intro i l hl hd
      obtain ⟨l', hl'⟩ : ∃ l', layers[i + 1]? = some l' := ⟨_, List.getElem?_eq_getElem (by omega)⟩
      have h1 := ih (i + 1) l' hl' (by omega)
      have h2 := (h.each (i + 1) l' hl').1.2.1
      have h3 := below i l' hl'
      omega
  have both : ∀ (i : Nat) (l : Layer F), layers[i]? = some l → (msgOf proof i).rounds.length = 2 * l.bGInputs + bN ∧
      (goalOf H layers proof top i).point.length = bN := by
    intro i l hl
    have hlt : i < layers.length := (List.getElem?_eq_some_iff.1 hl).1
    have h1 := down (layers.length - 1 - i) i l hl (by omega)
    have h2 := up i l hl
    have h3 := (h.each i l hl).1.2.1
    omega
  exact ⟨fun i l hl => (both i l hl).1, fun i l hl => (both i l hl).2⟩

/-- Soundness of the checks for claims about the outputs at any point `(q, q')`, for any circuit and its values. -/
theorem sound_circuit (H : List F → F) (c : Circuit F) (k m : Nat) (values : List (List (List F)))
    (hA : HonestAssignment c k m values) (inputs trueOutputs : List (List F)) (hin : values[0]? = some inputs)
    (htrue : values[c.layers.length]? = some trueOutputs) (l0 ln : Layer F) (hl0 : c.layers[0]? = some l0)
    (hln : c.layers[c.layers.length - 1]? = some ln)
    (D : Nat) (hD : ∀ l ∈ c.layers, ∀ g ∈ l.gates, g.degHL ≤ D ∧ g.degHR ≤ D ∧ g.degHPrime ≤ D)
    (proof : GkrProof F) (claim : F) (q q' : List F) (hq : q.length = ln.bGOutputs) (hq' : q'.length = m + k)
    (hall : GkrConsistent H (m + k) c.layers proof (tableOf k m l0 inputs) ⟨claim, q', chi q⟩)
    (hwrong : claim ≠ mle (interleave (2 ^ k) (2 ^ (ln.bGOutputs + m)) trueOutputs) (q ++ q')) :
    ∃ (i : Nat) (l : Layer F) (v : List (List F)), c.layers[i]? = some l ∧ values[i]? = some v ∧
      (BadRound H l (tableOf k m l v) (goalOf H c.layers proof ⟨claim, q', chi q⟩ i)
        (msgOf proof i) (D + 1) ∨ BadCombination H l.bGInputs (tableOf k m l v) (msgOf proof i)) := by
  have hpos := List.length_pos_of_ne_nil hA.nonempty
  obtain ⟨n, hn⟩ : ∃ n, c.layers.length = n + 1 := ⟨c.layers.length - 1, by omega⟩
  rw [hn, Nat.add_sub_cancel] at hln
  obtain ⟨v, hv⟩ : ∃ v, values[n]? = some v := ⟨_, List.getElem?_eq_getElem (by rw [hA.lengths]; omega)⟩
  have hgl := hA.good ln (List.mem_of_getElem? hln)
  obtain ⟨len1, len2⟩ := consistent_lengths H c.layers proof _ _ hq' _ hall
  apply sound_down H c proof _ k m values hA inputs hin l0 hl0 D hD hall len1 len2 n ln v hln hv
  have hgoal : goalOf H c.layers proof ⟨claim, q', chi q⟩ n = ⟨claim, q', chi q⟩ := by
    unfold goalOf
    rw [List.getElem?_eq_none (by omega)]
  rw [hgoal]
  have hwv := hA.wired n ln v hln hv
  rw [← hn] at hwv
  rw [htrue] at hwv
  have hwv := Option.some.inj hwv
  have hVV : interleave (2 ^ k) (2 ^ (ln.bGOutputs + m)) trueOutputs =
      wiredOutputs ln.wires (2 ^ (m + k)) (2 ^ ln.bGOutputs) (tableOf k m ln v) := by
    unfold tableOf
    rw [hwv]
    exact interleave_wired ln.wires k m ln.bGInputs ln.bGOutputs v (hA.chunked n ln v hln hv)
      (fun w hw => ⟨(hgl.inRange w hw).1, (hgl.inRange w hw).2.1⟩)
  rw [goal_top hgl (tableOf k m ln v) (m + k) _ _ _ hq hq', ← hVV]
  exact hwrong

theorem newCircuit_degrees {wiring : List (List (Wire F))} {D : Nat}
    (hD : ∀ ws ∈ wiring, ∀ w ∈ ws, w.gate.degHL ≤ D ∧ w.gate.degHR ≤ D ∧ w.gate.degHPrime ≤ D) :
    ∀ l ∈ (newCircuit wiring).layers, ∀ g ∈ l.gates, g.degHL ≤ D ∧ g.degHR ≤ D ∧ g.degHPrime ≤ D := by
  intro l hl g hg
  obtain ⟨ws, hws, rfl⟩ := List.mem_map.1 hl
  rw [show (newLayer ws).gates = _ from gatesOf_eq ws] at hg
  obtain ⟨w, hw', rfl⟩ := List.mem_map.1 hg
  exact hD ws hws w hw'

/-- The same for the circuit of a wiring. -/
theorem sound_at (H : List F → F) (wiring : List (List (Wire F))) (hne : wiring ≠ [])
    (hw : ∀ ws ∈ wiring, GoodWires ws) (G k m : Nat) (hG : Chained G (newCircuit wiring).layers)
    (ln : Layer F) (hln : (newCircuit wiring).layers[(newCircuit wiring).layers.length - 1]? = some ln)
    (D : Nat) (hD : ∀ ws ∈ wiring, ∀ w ∈ ws, w.gate.degHL ≤ D ∧ w.gate.degHR ≤ D ∧ w.gate.degHPrime ≤ D)
    (inputs trueOutputs : List (List F)) (hin : WellChunked k (G + m) inputs)
    (htrue : (wiredAssignment (2 ^ m) (newCircuit wiring).layers inputs).getLast? = some trueOutputs)
    (proof : GkrProof F) (claim : F) (q q' : List F) (hq : q.length = ln.bGOutputs) (hq' : q'.length = m + k)
    (hall : GkrConsistent H (m + k) (newCircuit wiring).layers proof (interleave (2 ^ k) (2 ^ (G + m)) inputs)
      ⟨claim, q', chi q⟩)
    (hwrong : claim ≠ mle (interleave (2 ^ k) (2 ^ (ln.bGOutputs + m)) trueOutputs) (q ++ q')) :
    ∃ (i : Nat) (l : Layer F) (v : List (List F)), (newCircuit wiring).layers[i]? = some l ∧
      (wiredAssignment (2 ^ m) (newCircuit wiring).layers inputs)[i]? = some v ∧
      (BadRound H l (tableOf k m l v) (goalOf H (newCircuit wiring).layers proof ⟨claim, q', chi q⟩ i)
        (msgOf proof i) (D + 1) ∨ BadCombination H l.bGInputs (tableOf k m l v) (msgOf proof i)) := by
  have hne' : (newCircuit wiring).layers ≠ [] := by simpa [newCircuit] using hne
  obtain ⟨a, b, _, _⟩ := wiredAssignment_facts k m (newCircuit wiring).layers G inputs hG hin
  obtain ⟨l0, hl0⟩ : ∃ l0, (newCircuit wiring).layers[0]? = some l0 :=
    ⟨_, List.getElem?_eq_getElem (List.length_pos_of_ne_nil hne')⟩
  have e0 := chained_first hG hl0
  rw [List.getLast?_eq_getElem?, a, Nat.add_sub_cancel] at htrue
  exact sound_circuit H _ k m _ (honest_of_wired wiring hne hw G k m hG inputs hin) inputs trueOutputs b htrue l0 ln hl0 hln D
    (newCircuit_degrees hD) proof claim q q' hq hq' (by unfold tableOf; rw [e0]; exact hall) hwrong

/-- C23, soundness of the checks: if a proof passes all of them (so `Verify` accepts it without line 99) and the outputs
differ from the circuit's at the initial point, then some challenge is unlucky: it is a root of a non-zero difference of
two polynomials, one of the proof and the honest one of degree at most `D+1`, or of a non-zero polynomial of degree 1.
Missing with respect to the full claim: proofs accepted through line 99. -/
theorem C23_sound_partial (H : List F → F) (wiring : List (List (Wire F))) (hne : wiring ≠ [])
    (hw : ∀ ws ∈ wiring, GoodWires ws) (G k m : Nat) (hG : Chained G (newCircuit wiring).layers)
    (ln : Layer F) (hln : (newCircuit wiring).layers[(newCircuit wiring).layers.length - 1]? = some ln)
    (D : Nat) (hD : ∀ ws ∈ wiring, ∀ w ∈ ws, w.gate.degHL ≤ D ∧ w.gate.degHR ≤ D ∧ w.gate.degHPrime ≤ D)
    (inputs outputs trueOutputs : List (List F)) (hin : WellChunked k (G + m) inputs)
    (htrue : (wiredAssignment (2 ^ m) (newCircuit wiring).layers inputs).getLast? = some trueOutputs)
    (proof : GkrProof F)
    (hall : GkrConsistent H (m + k) (newCircuit wiring).layers proof (interleave (2 ^ k) (2 ^ (G + m)) inputs)
      (outputGoal k m ln outputs))
    (hwrong : (outputGoal k m ln outputs).claim ≠ (outputGoal k m ln trueOutputs).claim) :
    ∃ (i : Nat) (l : Layer F) (v : List (List F)), (newCircuit wiring).layers[i]? = some l ∧
      (wiredAssignment (2 ^ m) (newCircuit wiring).layers inputs)[i]? = some v ∧
      (BadRound H l (tableOf k m l v) (goalOf H (newCircuit wiring).layers proof (outputGoal k m ln outputs) i)
        (msgOf proof i) (D + 1) ∨ BadCombination H l.bGInputs (tableOf k m l v) (msgOf proof i)) := by
  exact sound_at H wiring hne hw G k m hG ln hln D hD inputs trueOutputs hin htrue proof _ _ _ (by simp) (by simp) hall hwrong

/-- C23: a challenge of a round is unlucky for few values only: the two polynomials agree at no more than `d` points,
where `d` bounds the number of coefficients sent minus one and the honest degree. -/
theorem C23_unlucky_round (c : List F) (hc : c ≠ []) (Q : F[X]) (d : Nat) (hQ : Q.natDegree ≤ d) (hl : c.length ≤ d + 1)
    (hne : polyOf c ≠ Q) (s : Finset F) (hs : ∀ x ∈ s, (polyOf c).eval x = Q.eval x) : s.card ≤ d := by
  have h1 := few_agreements _ _ hne s hs
  have h2 := polyOf_natDegree c hc
  omega

/-- C23: for given claims, wrong ones combine to the right value for at most one challenge. -/
theorem C23_unlucky_combination (x y lam lam' : F) (h : ¬ (x = 0 ∧ y = 0)) (h1 : x + lam * y = 0) (h2 : x + lam' * y = 0) :
    lam = lam' := by
  by_contra hne
  have : (lam - lam') * y = 0 := by linear_combination h1 - h2
  rcases mul_eq_zero.1 this with h3 | h3
  · exact hne (sub_eq_zero.1 h3)
  · subst h3
    exact h ⟨by simpa using h1, rfl⟩

/-! ### The forgery -/

/-- Constant round polynomials, each half of the one before. -/
def halving : Nat → F → List (List F)
  | 0, _ => []
  | n + 1, x => [x / 2] :: halving n (x / 2)

theorem polyOf_single (x y : F) : (polyOf [x]).eval y = x := by simp [polyOf]

theorem halving_length (n : Nat) : ∀ x : F, (halving n x).length = n := by
  induction n with
  | zero => intro x; rfl
  | succ n ih => intro x; simp [halving, ih]

theorem halving_ne (n : Nat) : ∀ x : F, ∀ c ∈ halving n x, c ≠ [] := by
  induction n with
  | zero => intro x c h; cases h
  | succ n ih =>
    intro x c h
    rcases List.mem_cons.1 h with rfl | h
    · simp
    · exact ih _ c h

theorem halving_consistent (h2 : (2 : F) ≠ 0) (H : List F → F) (n : Nat) : ∀ x : F, Consistent H (halving n x) x := by
  induction n with
  | zero => intro x; trivial
  | succ n ih =>
    intro x
    refine ⟨?_, ?_⟩
    · rw [polyOf_single, polyOf_single]; field_simp; ring
    · rw [polyOf_single]; exact ih _

theorem halving_last (H : List F → F) (n : Nat) : ∀ x : F, lastValue H (halving n x) x = x / 2 ^ n := by
  induction n with
  | zero => intro x; simp [halving, lastValue]
  | succ n ih =>
    intro x
    rw [halving, lastValue, polyOf_single, ih, pow_succ]
    rw [div_div, mul_comm]

theorem sum_mid (toStr : F → String) (c : F) (weight : Nat → F) (nL nR : List F) :
    wiringValue (newLayer (mimcMidWires toStr c)).wires weight nL nR 0 (-c) = 0 := by
  simp [wiringValue, newLayer, mimcMidWires, cipher_eval, copyGate]

theorem sum_last (toStr : F → String) (c : F) (weight : Nat → F) (nL nR : List F) :
    wiringValue (newLayer (mimcLastWires toStr c)).wires weight nL nR (-c ^ 7) 0 = 0 := by
  simp [wiringValue, newLayer, mimcLastWires, cipher_eval]

/-- The forged proof for the MiMC circuit with constants `cs ++ [c, d]` and `2^bN` instances: the
polynomials of the layers below the last two are all 0. -/
def forgedProof (n bN : Nat) (c d : F) : GkrProof F where
  sumcheckProofs := List.replicate n (halving (2 + bN) 0) ++ [halving (2 + bN) (-d ^ 7), halving (2 + bN) 0]
  claimsLeft := List.replicate n 0 ++ [0, -d ^ 7]
  claimsRight := List.replicate n 0 ++ [-c, 0]

/-- The value check of the layer below the last fails for the forged proof. -/
theorem forged_value (h2 : (2 : F) ≠ 0) (H : List F → F) (toStr : F → String) (n : Nat) (c d : F) (hd : d ≠ 0) :
    ¬ ValueCheck H (newLayer (mimcMidWires toStr c)) (goalBelow H 1 ⟨halving (2 + n) 0, -d ^ 7, 0⟩)
      ⟨halving (2 + n) (-d ^ 7), 0, -c⟩ := by
  intro this
  unfold ValueCheck at this
  have e : (goalBelow H 1 ⟨halving (2 + n) 0, -d ^ 7, (0 : F)⟩).claim = -d ^ 7 := by
    unfold goalBelow; ring
  rw [e] at this
  dsimp only at this
  rw [halving_last, sum_mid, mul_zero] at this
  have hne : -d ^ 7 / 2 ^ (2 + n) ≠ 0 := div_ne_zero (neg_ne_zero.2 (pow_ne_zero _ hd)) (pow_ne_zero _ h2)
  exact hne this

/-- C23: the forgery. For the MiMC-shaped circuit with any constants (the last one not 0), any challenge function, any
number of instances, **any** inputs and any outputs whose extension vanishes at the initial point (all zeros, say), the
verifier accepts one and the same proof, which uses neither the inputs nor the outputs. -/
theorem C23_forgery (h2 : (2 : F) ≠ 0) (H : List F → F) (toStr : F → String) (cs : List F) (c d : F) (hd : d ≠ 0)
    (k m : Nat) (hk : 1 ≤ k) (inputs outputs : List (List F)) (hin : WellChunked k (1 + m) inputs)
    (hout : WellChunked k m outputs)
    (hzero : (initialGoal (m + k) 0 (interleave (2 ^ k) (2 ^ m) outputs)).claim = 0) :
    gkrVerify H (m + k) (newCircuit (mimcWiring toStr (cs ++ [c, d]))) (forgedProof cs.length (m + k) c d) inputs outputs =
      .ok true := by
  have hw : mimcWiring toStr (cs ++ [c, d]) = cs.map (mimcMidWires toStr) ++ [mimcMidWires toStr c, mimcLastWires toStr d] := by
    rw [show cs ++ [c, d] = (cs ++ [c]) ++ [d] by simp, mimcWiring_append]; simp
  have hlayers : (newCircuit (mimcWiring toStr (cs ++ [c, d]))).layers = cs.map (fun c => newLayer (mimcMidWires toStr c)) ++
      [newLayer (mimcMidWires toStr c), newLayer (mimcLastWires toStr d)] := by
    rw [hw]; simp [newCircuit]
  have hlen : (newCircuit (mimcWiring toStr (cs ++ [c, d]))).layers.length = cs.length + 2 := by rw [hlayers]; simp
  have hln : (newCircuit (mimcWiring toStr (cs ++ [c, d]))).layers[cs.length + 1]? = some (newLayer (mimcLastWires toStr d)) := by
    rw [hlayers, List.getElem?_append_right (by simp)]; simp
  have hlm : (newCircuit (mimcWiring toStr (cs ++ [c, d]))).layers[cs.length]? = some (newLayer (mimcMidWires toStr c)) := by
    rw [hlayers, List.getElem?_append_right (by simp)]; simp
  have hm1 : msgOf (forgedProof cs.length (m + k) c d) (cs.length + 1) = ⟨halving (2 + (m + k)) 0, -d ^ 7, 0⟩ := by
    unfold msgOf forgedProof
    simp [List.getElem?_append_right]
  have hm0 : msgOf (forgedProof cs.length (m + k) c d) cs.length = ⟨halving (2 + (m + k)) (-d ^ 7), 0, -c⟩ := by
    unfold msgOf forgedProof
    simp [List.getElem?_append_right]
  rw [C23_accepts_iff H _ (by rw [hw]; simp) (mimcWiring_good toStr _) 1 k m hk (mimcWiring_chained toStr _)
    (newLayer (mimcLastWires toStr d)) (by rw [hlen]; exact hln) inputs outputs hin
    (by rw [last_bGOutputs, Nat.zero_add]; exact hout)]
  set top := outputGoal k m (newLayer (mimcLastWires toStr d)) outputs with htop
  have htc : top.claim = 0 := by
    rw [htop]; unfold outputGoal; rw [last_bGOutputs, Nat.zero_add]; exact hzero
  have htp : top.point.length = m + k := by simp [htop, outputGoal, initialGoal]
  have hg1 : goalOf H (newCircuit (mimcWiring toStr (cs ++ [c, d]))).layers (forgedProof cs.length (m + k) c d) top
      (cs.length + 1) = top := by
    unfold goalOf
    rw [List.getElem?_eq_none (by omega)]
  have hg0 : goalOf H (newCircuit (mimcWiring toStr (cs ++ [c, d]))).layers (forgedProof cs.length (m + k) c d) top
      cs.length = goalBelow H 1 ⟨halving (2 + (m + k)) 0, -d ^ 7, 0⟩ := by
    unfold goalOf
    rw [hln, hm1]
    dsimp only
    rw [last_bGInputs]
  rw [hlen, show cs.length + 2 - 1 = cs.length + 1 from rfl]
  refine ⟨?_, ?_, ?_, .inr ⟨cs.length, by omega, fun j h1 h2 => by omega, ?_, ?_⟩⟩
  · unfold HasShape; rw [hlen]; simp [forgedProof]
  · intro l hl
    rw [hln] at hl
    obtain rfl := Option.some.inj hl
    rw [hg1, hm1]
    refine ⟨halving_ne _ _, ?_, ?_⟩
    · rw [last_bGInputs, halving_length, htp]
    · rw [htc]; exact halving_consistent h2 H _ _
  · intro l hl
    rw [hln] at hl
    obtain rfl := Option.some.inj hl
    rw [hg1, hm1]
    unfold ValueCheck
    rw [htc]
    dsimp only
    rw [halving_last, sum_last]; simp
  · intro l hl
    rw [hlm] at hl
    obtain rfl := Option.some.inj hl
    rw [hg0, hm0]
    refine ⟨halving_ne _ _, ?_, ?_⟩
    · rw [mid_bGInputs, halving_length]
      have : (goalBelow H 1 ⟨halving (2 + (m + k)) 0, -d ^ 7, (0 : F)⟩).point.length = m + k := by
        change (Msg.qN H 1 _).length = _
        rw [Msg.qN_length, halving_length]; omega
      rw [this]
    · have : (goalBelow H 1 ⟨halving (2 + (m + k)) 0, -d ^ 7, (0 : F)⟩).claim = -d ^ 7 := by
        unfold goalBelow; ring
      rw [this]
      exact halving_consistent h2 H _ _
  · intro hall
    have := hall _ hlm
    rw [hg0, hm0] at this
    exact forged_value h2 H toStr (m + k) c d hd this

theorem mle_zero (n : Nat) (x : List F) : mle (List.replicate n 0) x = 0 := by
  unfold mle mleF
  apply Finset.sum_eq_zero
  intro i _
  beta_reduce
  rw [List.getD_eq_getElem?_getD, List.getElem?_replicate]
  split_ifs <;> simp

theorem interleave_zero (k m : Nat) : interleave (2 ^ k) (2 ^ m) (List.replicate (2 ^ k) (List.replicate (2 ^ m) (0 : F))) =
    List.replicate (2 ^ m * 2 ^ k) 0 := by
  apply List.ext_getElem
  · simp [interleave]
  intro i h1 h2
  simp only [interleave, List.getElem_map, List.getElem_replicate, List.getElem_range]
  have : i % 2 ^ k < 2 ^ k := Nat.mod_lt _ (Nat.two_pow_pos _)
  simp only [List.getD_eq_getElem?_getD, List.getElem?_replicate, if_pos this, Option.getD_some]
  split_ifs <;> simp

theorem arks_split : ∃ cs c d, arks.take 91 = cs ++ [c, d] ∧ cs.length = 89 ∧ d ≠ 0 := by
  have hl := arks_length
  have h90 : arks[90]? ≠ some 0 := by decide +kernel
  refine ⟨arks.take 89, arks[89], arks[90], ?_, by simp; omega, ?_⟩
  · rw [List.take_succ_eq_append_getElem (by omega), List.take_succ_eq_append_getElem (by omega),
      List.append_assoc]
    exact congrArg (arks.take 89 ++ ·) (List.singleton_append ..)
  · intro h
    rw [List.getElem?_eq_getElem (by omega), h] at h90
    exact h90 rfl

/-- C23: the negation of the claim for the code as it is, with the real circuit, constants and challenge function. For
every number `2^(m+k)` of instances (`k ≥ 1`) one proof makes `Verify` accept the outputs `0, …, 0` for **all** inputs. -/
theorem C23_negation (k m : Nat) (hk : 1 ≤ k) : ∃ (c : Circuit Fr) (proof : GkrProof Fr),
    createMimcCircuit frString arks = .ok c ∧ ∀ inputs, WellChunked k (1 + m) inputs →
      gkrVerify mimcHash (m + k) c proof inputs (List.replicate (2 ^ k) (List.replicate (2 ^ m) 0)) = .ok true := by
  obtain ⟨cs, c, d, h, _, hd⟩ := arks_split
  refine ⟨_, forgedProof cs.length (m + k) c d, mimc_circuit, fun inputs hin => ?_⟩
  rw [h]
  refine C23_forgery (by decide) mimcHash frString cs c d hd k m hk inputs _ hin ⟨by simp, by simp⟩ ?_
  unfold initialGoal
  rw [interleave_zero]
  exact mle_zero _ _

/-- C23: those outputs are wrong for most inputs, e.g. as soon as two instances have the same block and different states:
the circuit then gives them different outputs. -/
theorem C23_outputs_wrong (s s' b : Fr) (h : s ≠ s') : mimcExpected ([s, s'], [b, b]) ≠ [0, 0] := by
  intro he
  unfold mimcExpected at he
  simp only [List.zipWith_cons_cons, List.zipWith_nil_left, List.cons.injEq, and_true] at he
  apply h
  apply (mimcCipher_bijective (arks.take 91) b).1
  have := he.1.trans he.2.symm
  exact add_right_cancel this

/-! ### Examples -/

/-- One layer with one addition, on two instances with both inputs 1: the outputs are 2 and 2. -/
def doubleWiring : List (List (Wire Fr)) := [[⟨0, 0, 0, addGate⟩]]

theorem doubleWiring_good : ∀ ws ∈ doubleWiring, GoodWires ws := by
  intro ws hws
  simp only [doubleWiring, List.mem_cons, List.not_mem_nil, or_false] at hws
  subst hws
  have hsh : ShippedGate frString (addGate : Gate Fr) := .add
  refine ⟨by simp, by decide +kernel, ?_, ?_⟩
  · intro w hw
    simp only [List.mem_cons, List.not_mem_nil, or_false] at hw
    subst hw; exact hsh.lawful
  · intro w hw
    simp only [List.mem_cons, List.not_mem_nil, or_false] at hw
    subst hw
    obtain ⟨_, _, _, h1, h2, h3⟩ := C11_degrees frString _ hsh
    dsimp only
    omega

/-- With the challenge 3 in all rounds, a proof of one constant polynomial is accepted for the outputs 0 and 12. -/
theorem double_accepts : gkrVerify (fun _ => 3) 1 (newCircuit doubleWiring) ⟨[[[6]]], [1], [1]⟩ [[1], [1]] [[0], [12]] = .ok true := by
  decide +kernel

/-- `C23_accept_partial` and `C23_sound_partial` on a proof for wrong outputs: all the checks hold, and some challenge is unlucky (it is
that of the only round: the polynomials agree at 3). -/
example : ∃ (i : Nat) (l : Layer Fr) (v : List (List Fr)) (t : Goal Fr),
    BadRound (fun _ => 3) l (tableOf 1 0 l v) t (msgOf ⟨[[[6]]], [1], [1]⟩ i) 2 ∨
      BadCombination (fun _ => 3) l.bGInputs (tableOf 1 0 l v) (msgOf ⟨[[[6]]], [1], [1]⟩ i) := by
  rcases C23_accept_partial (fun _ => 3) doubleWiring (by simp [doubleWiring]) doubleWiring_good 0 1 0 le_rfl
    ⟨by decide +kernel, trivial⟩ _ rfl [[1], [1]] [[0], [12]] ⟨rfl, by simp⟩ ⟨rfl, by decide +kernel⟩ _ double_accepts with hall | ⟨i, l, hi, _⟩
  · obtain ⟨i, l, v, _, _, h⟩ := C23_sound_partial (fun _ => 3) doubleWiring (by simp [doubleWiring]) doubleWiring_good 0 1 0
      ⟨by decide +kernel, trivial⟩ _ rfl 1 (by decide +kernel) [[1], [1]] [[0], [12]] [[2], [2]] ⟨rfl, by simp⟩ (by decide +kernel) _ hall
      (by decide +kernel)
    exact ⟨i, l, v, _, h⟩
  · simp [newCircuit, doubleWiring] at hi

/-- `C23_unlucky_round`: `12 - 6X` and `X²` agree at two points at most. -/
example (s : Finset Fr) (hs : ∀ x ∈ s, (polyOf [12, -6]).eval x = (X ^ 2 : Fr[X]).eval x) : s.card ≤ 2 :=
  C23_unlucky_round [12, -6] (by simp) (X ^ 2) 2 (by simp) (by simp) (fun h => by
    have := congrArg (eval 0) h
    simp [polyOf, Finset.sum_range_succ] at this
    exact absurd this (by decide +kernel)) s hs

end GkrMimc
