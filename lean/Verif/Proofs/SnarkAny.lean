import Verif.Proofs.SnarkGkr
import Verif.Spec.Gadget

/-! The GKR gadget on a circuit that stands for any native circuit of 91 layers. -/

set_option linter.unusedSectionVars false

namespace GkrMimc

open Spec

variable {F : Type} [Field F] [DecidableEq F]

theorem csForN_add (n : Nat) (f : Nat → F) (body : Nat → F → Cs F F) (h : ∀ i < n, ∀ s, body i s = pure (s + f i)) (s : F) :
    Cs.forN n s body = pure (s + ∑ i ∈ Finset.range n, f i) := by
  unfold Cs.forN
  induction n with
  | zero => simp
  | succ n ih =>
    rw [List.range_succ, List.foldlM_append, ih (fun i hi => h i (by omega)), pure_bind, List.foldlM_cons, h n (by omega),
      pure_bind, List.foldlM_nil, Finset.sum_range_succ, add_assoc]

theorem groupTable_mle (G : Nat) (ws : List (Wire F)) (q hL hR : List F) (h1 : hL.length = G) (h2 : hR.length = G)
    (hr : ∀ w ∈ ws, w.L < 2 ^ G ∧ w.R < 2 ^ G) :
    mlEval (groupTable G ws q) (hL ++ hR) = pure ((ws.map fun w => chi q w.O * chi hL w.L * chi hR w.R).sum) := by
  have hlen : (groupTable G ws q).length = 2 ^ (hL ++ hR).length := by
    rw [groupTable, List.length_map, List.length_range, List.length_append, h1, h2, two_mul]
  rw [mlEval_eq, evaluate_eq _ _ hlen, Cs.go_ok]
  congr 1
  have e : mle (groupTable G ws q) (hL ++ hR) = mleF (fun u => (ws.map fun w => if u = 2 ^ G * w.L + w.R then chi q w.O else 0).sum)
      (hL ++ hR) := by
    unfold mle
    apply mleF_congr
    intro i hi
    rw [← hlen] at hi
    unfold groupTable at hi ⊢
    rw [List.getD_eq_getElem _ _ hi]
    simp
  rw [e]
  unfold mleF
  simp only [← list_sum_mul_right]
  rw [← list_sum_finset]
  apply list_sum_congr
  intro w hw
  obtain ⟨a, b⟩ := hr w hw
  simp only [ite_mul, zero_mul]
  rw [Finset.sum_ite_eq']
  have hlt : 2 ^ G * w.L + w.R < 2 ^ (hL ++ hR).length := by
    rw [List.length_append, h1, h2, pow_add, mul_comm]
    exact mul_add_lt a b
  rw [if_pos (Finset.mem_range.2 hlt), show 2 ^ G * w.L = w.L * 2 ^ hR.length by rw [h2, mul_comm],
    chi_append hL hR w.L (by rw [h2]; exact b), mul_assoc]

theorem sum_groups (groups : List (List (Wire F))) (f : Wire F → F) :
    ∑ i ∈ Finset.range groups.length, ((groups.getD i []).map f).sum = (groups.flatten.map f).sum := by
  induction groups with
  | nil => simp
  | cons g gs ih =>
    rw [List.length_cons, Finset.sum_range_succ', List.flatten_cons, List.map_append, List.sum_append, ← ih, add_comm]
    simp

theorem computes_ok {α : Type} {x : Cs F α} {a : α} (h : x.Computes (.ok a)) : x = pure a := h

theorem combine_eq {sl : SnarkLayer F} {l : Layer F} (h : Represents sl l) (hr : l.InRange) (q q' hL hR h' : List F)
    (vl vr : F) (hq : q.length = l.bGOutputs) (h1 : hL.length = l.bGInputs) (h2 : hR.length = l.bGInputs) :
    sl.combine q q' hL hR h' vl vr = Cs.go (do
      let e ← evalEq q' h'
      return e * wiringValue l.wires (chi q) hL hR vl vr) := by
  obtain ⟨groups, hp, g1, g2, hg⟩ := h.groups
  have hsub : ∀ i ws, groups[i]? = some ws → ∀ w ∈ ws, w ∈ l.wires := fun i ws hi w hw =>
    hp.subset (List.mem_flatten.2 ⟨ws, List.mem_of_getElem? hi, hw⟩)
  unfold SnarkLayer.combine
  dsimp only
  rw [csForN_add _ (fun i => ((groups.getD i []).map fun w => chi q w.O * chi hL w.L * chi hR w.R * w.gate.eval vl vr).sum)]
  · rw [pure_bind, ← g1, sum_groups, eqEvalGadget_eq, Cs.go_bind, (hp.map _).sum_eq]
    congr 1
    funext e
    rw [go_pure, Cs.go_ok]
    congr 1
    unfold csMul csConst wiringValue
    ring
  · intro i hi s
    have hi' : i < groups.length := by omega
    have e1 : groups[i]? = some (groups.getD i []) := by
      rw [List.getD_eq_getElem _ _ hi', List.getElem?_eq_getElem hi']
    obtain ⟨a, b⟩ := hg i _ e1
    obtain ⟨gate, hgate⟩ : ∃ g, sl.gates[i]? = some g := ⟨_, List.getElem?_eq_getElem hi⟩
    obtain ⟨table, htable⟩ : ∃ g, sl.staticTable[i]? = some g := ⟨_, List.getElem?_eq_getElem (by omega)⟩
    obtain ⟨f, f1, f2⟩ := a gate hgate
    rw [idx_some htable, Cs.go_ok, pure_bind, computes_ok (b table htable q hq), pure_bind,
      groupTable_mle _ _ _ _ _ h1 h2 (fun w hw => ⟨(hr w (hsub i _ e1 w hw)).1, (hr w (hsub i _ e1 w hw)).2.1⟩), pure_bind,
      idx_some hgate, Cs.go_ok, pure_bind, computes_ok (f1 vl vr), pure_bind]
    congr 1
    rw [csAdd_eq, List.sum_nil, add_zero]
    congr 1
    unfold csMul
    rw [← list_sum_mul_right]
    apply list_sum_congr
    intro w hw
    rw [f2 w hw]

theorem combineLinAny_eq {sl : SnarkLayer F} {l : Layer F} (h : Represents sl l) (hr : l.InRange) (qL qR q' hL hR h' : List F)
    (lam vl vr : F) (hqL : qL.length = l.bGOutputs) (hqR : qR.length = l.bGOutputs) (h1 : hL.length = l.bGInputs)
    (h2 : hR.length = l.bGInputs) :
    sl.combineWithLinearComb qL qR q' hL hR h' (csConst 1) lam vl vr = Cs.go (do
      let e ← evalEq q' h'
      return e * wiringValue l.wires (fun O => chi qL O + lam * chi qR O) hL hR vl vr) := by
  obtain ⟨groups, hp, g1, g2, hg⟩ := h.groups
  have hsub : ∀ i ws, groups[i]? = some ws → ∀ w ∈ ws, w ∈ l.wires := fun i ws hi w hw =>
    hp.subset (List.mem_flatten.2 ⟨ws, List.mem_of_getElem? hi, hw⟩)
  unfold SnarkLayer.combineWithLinearComb
  dsimp only
  rw [csForN_add _ (fun i => ((groups.getD i []).map fun w => (chi qL w.O + lam * chi qR w.O) * chi hL w.L * chi hR w.R *
    w.gate.eval vl vr).sum)]
  · rw [pure_bind, ← g1, sum_groups, eqEvalGadget_eq, Cs.go_bind, (hp.map _).sum_eq]
    congr 1
    funext e
    rw [go_pure, Cs.go_ok]
    congr 1
    unfold csMul csConst wiringValue
    ring
  · intro i hi s
    have hi' : i < groups.length := by omega
    have e1 : groups[i]? = some (groups.getD i []) := by
      rw [List.getD_eq_getElem _ _ hi', List.getElem?_eq_getElem hi']
    obtain ⟨a, b⟩ := hg i _ e1
    obtain ⟨gate, hgate⟩ : ∃ g, sl.gates[i]? = some g := ⟨_, List.getElem?_eq_getElem hi⟩
    obtain ⟨table, htable⟩ : ∃ g, sl.staticTable[i]? = some g := ⟨_, List.getElem?_eq_getElem (by omega)⟩
    obtain ⟨f, f1, f2⟩ := a gate hgate
    have hin := fun w hw => (⟨(hr w (hsub i _ e1 w hw)).1, (hr w (hsub i _ e1 w hw)).2.1⟩ :
      w.L < 2 ^ l.bGInputs ∧ w.R < 2 ^ l.bGInputs)
    rw [idx_some htable, Cs.go_ok, pure_bind, computes_ok (b table htable qL hqL), pure_bind,
      computes_ok (b table htable qR hqR), pure_bind, groupTable_mle _ _ _ _ _ h1 h2 hin, pure_bind,
      groupTable_mle _ _ _ _ _ h1 h2 hin, pure_bind, idx_some hgate, Cs.go_ok, pure_bind, computes_ok (f1 vl vr), pure_bind]
    congr 1
    rw [csAdd_eq, csAdd_eq, List.sum_nil, add_zero, add_zero]
    congr 1
    unfold csMul csConst
    rw [one_mul, mul_comm lam, ← list_sum_mul_right]
    have e2 : ∀ xs : List (Wire F), ∀ f g : Wire F → F, (xs.map f).sum + (xs.map g).sum = (xs.map fun w => f w + g w).sum := by
      intro xs f g
      rw [List.sum_map_add]
    rw [e2, ← list_sum_mul_right]
    apply list_sum_congr
    intro w hw
    rw [f2 w hw]
    ring

variable (arks : List F) (H : List F → F)

/-- The checks of one layer of the gadget, any number of inputs. -/
theorem layerGadgetAny_sat {α : Type} (hH : ∀ c, snarkMimcHash arks c = pure (H c)) (l : Layer F) (t : Goal F) (a : Msg F)
    (comb : SumcheckVerdict F → Cs F F) (hcomb : ∀ v : SumcheckVerdict F, v.qL.length = l.bGInputs → v.qR.length = l.bGInputs →
      comb v = Cs.go (do let e ← evalEq t.point v.qPrime; return e * wiringValue l.wires t.weight v.qL v.qR a.left a.right))
    (f : SumcheckVerdict F → Cs F α) (Q : α → Prop) :
    (sumcheckAssertValid arks a.rounds t.claim l.bGInputs >>= fun v => comb v >>= fun actual =>
      Cs.assertIsEqual v.finalClaim actual >>= fun _ => f v).Sat Q ↔
    RoundChecks H l t a ∧ ValueCheck H l t a ∧
      (f ⟨a.qN H l.bGInputs, a.qL H l.bGInputs, a.qR H l.bGInputs, lastValue H a.rounds t.claim⟩).Sat Q := by
  rw [Cs.sat_bind, sumcheckAssert_sat arks H hH]
  set g := l.bGInputs with hg
  have key : 2 * g ≤ a.rounds.length → ∀ v : SumcheckVerdict F, v = ⟨a.qN H g, a.qL H g, a.qR H g, lastValue H a.rounds t.claim⟩ →
      ((comb v >>= fun actual => Cs.assertIsEqual v.finalClaim actual >>= fun _ => f v).Sat Q ↔
      t.point.length ≤ (a.qN H g).length ∧ ValueCheck H l t a ∧ (f v).Sat Q) := by
    intro hr v hv
    have lL := Msg.qL_length (H := H) (g := g) (a := a) (by omega)
    have lR := Msg.qR_length (H := H) (g := g) (a := a) (by omega)
    subst hv
    rw [hcomb _ lL lR, sat_evalEq, Cs.sat_bind, Cs.sat_assert]
    rfl
  unfold RoundChecks
  constructor
  · rintro ⟨h1, h2, h3, h4⟩
    have lN := Msg.qN_length (H := H) (g := g) (a := a)
    obtain ⟨h5, h6, h7⟩ := (key h3 _ rfl).1 h4
    exact ⟨⟨h1, by omega, h2⟩, h6, h7⟩
  · rintro ⟨⟨h1, h2, h3⟩, h4, h5⟩
    have lN := Msg.qN_length (H := H) (g := g) (a := a)
    exact ⟨h1, h3, by omega, (key (by omega) _ rfl).2 ⟨by omega, h4, h5⟩⟩

section
variable {sc : SnarkCircuit F} {c : Circuit F}

theorem snarkLayersAny_sat (hH : ∀ c, snarkMimcHash arks c = pure (H c)) (hlen : c.layers.length = 91)
    (hr : ∀ l ∈ c.layers, l.InRange) (hrep : RepresentsCircuit sc c)
    (hch : ∀ (i : Nat) (l l' : Layer F), c.layers[i]? = some l → c.layers[i + 1]? = some l' → l.bGOutputs = l'.bGInputs)
    (proof : GkrProof F) (hs : HasShape c proof) (top : Goal F) (l0 : Layer F) (hl0 : c.layers[0]? = some l0)
    (P : List F → List F → List F → Prop) (layer : Nat) :
    ∀ (v : SumcheckVerdict F) (l' : Layer F), c.layers[layer]? = some l' → 2 * l'.bGInputs ≤ (msgOf proof layer).rounds.length →
      IsVerdict H l'.bGInputs (msgOf proof layer) v →
    ((snarkLayers arks sc proof layer v).Sat (fun v => P v.qL v.qR v.qPrime) ↔
      (∀ i < layer, LayerRounds H c proof top i ∧ LayerValue H c proof top i) ∧
      P ((msgOf proof 0).qL H l0.bGInputs) ((msgOf proof 0).qR H l0.bGInputs) ((msgOf proof 0).qN H l0.bGInputs)) := by
  obtain ⟨s1, s2, s3⟩ := hs
  rw [hlen] at s1 s2 s3
  induction layer with
  | zero =>
    intro v l' hl' _ ⟨h1, h2, h3⟩
    rw [hl0] at hl'
    obtain rfl := Option.some.inj hl'
    rw [snarkLayers, Cs.sat_pure, h1, h2, h3]
    exact ⟨fun h => ⟨fun i hi => by omega, h⟩, fun h => h.2⟩
  | succ layer ih =>
    intro v l' hl' hr' ⟨h1, h2, h3⟩
    have hle : layer + 1 < 91 := hlen ▸ (List.getElem?_eq_some_iff.1 hl').1
    obtain ⟨l, hl⟩ : ∃ l, c.layers[layer]? = some l := ⟨_, List.getElem?_eq_getElem (by omega)⟩
    obtain ⟨sl, hsl, hsr⟩ := hrep layer l hl
    have hch' := hch layer l l' hl hl'
    set a := msgOf proof (layer + 1) with ha
    set b := msgOf proof layer with hb
    have hgoal : goalOf H c.layers proof top layer = goalBelow H l'.bGInputs a := by
      unfold goalOf; rw [hl']
    have lL := Msg.qL_length (H := H) (g := l'.bGInputs) (a := a) (by omega)
    have lR := Msg.qR_length (H := H) (g := l'.bGInputs) (a := a) (by omega)
    rw [snarkLayers, sat_idx _ _ 0, sat_idx _ _ 0, hH, pure_bind, sat_idx _ _ []]
    rw [idx_some hsl, Cs.go_ok, pure_bind]
    have e1 : csAdd (proof.claimsLeft.getD (layer + 1) 0) (csMul (H [proof.claimsLeft.getD (layer + 1) 0,
        proof.claimsRight.getD (layer + 1) 0]) (proof.claimsRight.getD (layer + 1) 0)) = (goalBelow H l'.bGInputs a).claim := by
      rw [csAdd_eq, List.sum_nil, add_zero]; rfl
    have e3 : proof.sumcheckProofs.getD layer [] = b.rounds := rfl
    rw [e1, hsr.bG, e3, idx_getD (show layer < proof.claimsLeft.length by omega) 0, Cs.go_ok,
      idx_getD (show layer < proof.claimsRight.length by omega) 0, Cs.go_ok]
    simp only [pure_bind]
    rw [layerGadgetAny_sat arks H hH l (goalBelow H l'.bGInputs a) b (fun w => sl.combineWithLinearComb v.qL v.qR
      v.qPrime w.qL w.qR w.qPrime (csConst 1) (H [proof.claimsLeft.getD (layer + 1) 0, proof.claimsRight.getD (layer + 1) 0])
      (proof.claimsLeft.getD layer 0) (proof.claimsRight.getD layer 0))]
    · have split : (∀ i < layer + 1, LayerRounds H c proof top i ∧ LayerValue H c proof top i) ↔
          (RoundChecks H l (goalBelow H l'.bGInputs a) b ∧ ValueCheck H l (goalBelow H l'.bGInputs a) b) ∧
          ∀ i < layer, LayerRounds H c proof top i ∧ LayerValue H c proof top i := by
        rw [← hgoal, ← layerRounds_iff H _ proof top hl, ← layerValue_iff H _ proof top hl]
        constructor
        · intro h; exact ⟨h layer (by omega), fun i hi => h i (by omega)⟩
        · rintro ⟨h, h'⟩ i hi
          by_cases hil : i = layer
          · subst hil; exact h
          · exact h' i (by omega)
      rw [split]
      constructor
      · rintro ⟨_, _, _, q1, q2, q3⟩
        have := (ih _ l hl (by have := q1.2.1; omega) ⟨rfl, rfl, rfl⟩).1 q3
        exact ⟨⟨⟨q1, q2⟩, this.1⟩, this.2⟩
      · rintro ⟨⟨⟨q1, q2⟩, q3⟩, q4⟩
        exact ⟨by omega, by omega, by omega, q1, q2, (ih _ l hl (by have := q1.2.1; omega) ⟨rfl, rfl, rfl⟩).2 ⟨q3, q4⟩⟩
    · intro w w1 w2
      rw [combineLinAny_eq hsr (hr l (List.mem_of_getElem? hl)) _ _ _ _ _ _ _ _ _ (by rw [h1, hch']; exact lL)
        (by rw [h2, hch']; exact lR) w1 w2, h1, h2, h3]
      rfl

/-- The gadget's assertions hold iff the proof has messages for the first 91 layers and passes all the checks of the
specification for them. -/
theorem snarkAssertValidAny_iff (hH : ∀ c, snarkMimcHash arks c = pure (H c)) (hlen : c.layers.length = 91)
    (hr : ∀ l ∈ c.layers, l.InRange) (hrep : RepresentsCircuit sc c)
    (hch : ∀ (i : Nat) (l l' : Layer F), c.layers[i]? = some l → c.layers[i + 1]? = some l' → l.bGOutputs = l'.bGInputs)
    (l0 ln : Layer F) (hl0 : c.layers[0]? = some l0) (hl : c.layers[90]? = some ln) (proof : GkrProof F)
    (bN : Nat) (q q' vInput vOutput : List F) (hq : q.length = ln.bGOutputs) (hq' : q'.length = bN)
    (hin : vInput.length = 2 ^ (l0.bGInputs + bN)) (hout : vOutput.length = 2 ^ (ln.bGOutputs + bN)) :
    (snarkAssertValid arks sc proof q q' vInput vOutput).Satisfied ↔
      HasShape c proof ∧ GkrConsistent H bN c.layers proof vInput ⟨mle vOutput (q ++ q'), q', chi q⟩ := by
  set G := l0.bGInputs with hG0
  set top : Goal F := ⟨mle vOutput (q ++ q'), q', chi q⟩ with htop
  set a := msgOf proof 90 with ha
  have hgoal : goalOf H c.layers proof top 90 = top := by
    unfold goalOf; rw [List.getElem?_eq_none (by omega)]
  obtain ⟨sl, hsl, hsr⟩ := hrep 90 ln hl
  have get : ∀ i < 91, ∃ l, c.layers[i]? = some l := fun i hi => ⟨_, List.getElem?_eq_getElem (by omega)⟩
  have hcons : GkrConsistent H bN c.layers proof vInput top ↔
      (RoundChecks H ln top a ∧ ValueCheck H ln top a) ∧
      (∀ i < 90, LayerRounds H c proof top i ∧ LayerValue H c proof top i) ∧
      InputsOk H G bN vInput (msgOf proof 0) := by
    constructor
    · rintro ⟨h1, h2⟩
      have := h1 90 ln hl
      rw [hgoal] at this
      refine ⟨this, fun i hi => ?_, h2 _ hl0⟩
      obtain ⟨l, hli⟩ := get i (by omega)
      rw [layerRounds_iff H _ proof top hli, layerValue_iff H _ proof top hli]
      exact h1 i _ hli
    · rintro ⟨h1, h2, h3⟩
      constructor
      · intro i li hli
        have hi : i < 91 := by rw [← hlen]; exact (List.getElem?_eq_some_iff.1 hli).1
        by_cases h90 : i = 90
        · subst h90
          rw [hl] at hli
          obtain rfl := Option.some.inj hli
          rw [hgoal]
          exact h1
        · have := h2 i (by omega)
          exact ⟨this.1 li hli, this.2 li hli⟩
      · intro l hli
        rw [hl0] at hli
        obtain rfl := Option.some.inj hli
        exact h3
  have hclaim : mlEval vOutput (q ++ q') = pure top.claim := by
    rw [mlEval_eq, evaluate_eq _ _ (by rw [List.length_append, hq, hq']; exact hout)]
    rfl
  rw [hcons]
  unfold snarkAssertValid Cs.Satisfied HasShape
  dsimp only
  rw [hlen, hclaim, pure_bind, sat_idx _ _ [], show idx sc.layers (mimcRounds - 1) = _ from idx_some hsl, Cs.go_ok]
  simp only [pure_bind]
  have e3 : proof.sumcheckProofs.getD (mimcRounds - 1) [] = a.rounds := rfl
  rw [hsr.bG, e3]
  by_cases s2 : 91 ≤ proof.claimsLeft.length
  swap
  · constructor
    · rintro ⟨_, h⟩
      rw [Cs.sat_bind, sumcheckAssert_sat arks H hH] at h
      have := h.2.2.2
      rw [sat_idx _ _ 0] at this
      unfold mimcRounds at this
      exact absurd this.1 (by omega)
    · rintro ⟨h, _⟩; exact absurd h.2.1 s2
  by_cases s3 : 91 ≤ proof.claimsRight.length
  swap
  · constructor
    · rintro ⟨_, h⟩
      rw [Cs.sat_bind, sumcheckAssert_sat arks H hH] at h
      have := h.2.2.2
      rw [sat_idx _ _ 0, sat_idx _ _ 0] at this
      unfold mimcRounds at this
      exact absurd this.2.1 (by omega)
    · rintro ⟨h, _⟩; exact absurd h.2.2 s3
  rw [idx_getD (show mimcRounds - 1 < proof.claimsLeft.length by unfold mimcRounds; omega) 0, Cs.go_ok,
      idx_getD (show mimcRounds - 1 < proof.claimsRight.length by unfold mimcRounds; omega) 0, Cs.go_ok]
  simp only [pure_bind]
  rw [layerGadgetAny_sat arks H hH ln top a (fun w => sl.combine q q' w.qL w.qR w.qPrime
      (proof.claimsLeft.getD (mimcRounds - 1) 0) (proof.claimsRight.getD (mimcRounds - 1) 0))]
  swap
  · intro w w1 w2
    rw [combine_eq hsr (hr ln (List.mem_of_getElem? hl)) _ _ _ _ _ _ _ hq w1 w2]
    rfl
  have hend : ∀ (v : SumcheckVerdict F), (do
      let cl ← Cs.go (idx proof.claimsLeft 0)
      let cr ← Cs.go (idx proof.claimsRight 0)
      let (expectedVL, expectedVR) ← mlEvalMixed vInput v.qL v.qR v.qPrime
      Cs.assertIsEqual expectedVL cl
      Cs.assertIsEqual expectedVR cr : Cs F Unit).Sat (fun _ => True) ↔
      ((mlEvalMixed vInput v.qL v.qR v.qPrime).Sat fun e => e.1 = (msgOf proof 0).left ∧ e.2 = (msgOf proof 0).right) := by
    intro v
    rw [sat_idx _ _ 0, sat_idx _ _ 0, Cs.sat_bind]
    constructor
    · rintro ⟨_, _, h⟩
      refine (Cs.sat_congr fun e => ?_).1 h
      rw [Cs.sat_bind, Cs.sat_assert, Cs.sat_assert, and_true]
      rfl
    · intro h
      refine ⟨by omega, by omega, (Cs.sat_congr fun e => ?_).1 h⟩
      rw [Cs.sat_bind, Cs.sat_assert, Cs.sat_assert, and_true]
      rfl
  have hmix : ∀ x y z : List F, x.length = G → y.length = G → bN ≤ z.length →
      ((mlEvalMixed vInput x y z).Sat (fun e => e.1 = (msgOf proof 0).left ∧ e.2 = (msgOf proof 0).right) ↔
      z.length = bN ∧ mle vInput (x ++ z) = (msgOf proof 0).left ∧ mle vInput (y ++ z) = (msgOf proof 0).right) := by
    intro x y z hx hy hz
    by_cases hzb : z.length = bN
    · rw [mlEvalMixed_eq _ _ _ _ (by omega) (by rw [hx, hzb]; exact hin), Cs.sat_go]
      unfold evaluateLeftAndRight
      rw [evaluate_eq _ _ (by rw [List.length_append, hx, hzb]; exact hin), ok_bind,
        evaluate_eq _ _ (by rw [List.length_append, hy, hzb]; exact hin), ok_bind, go_pure]
      constructor
      · rintro ⟨e, he, h⟩
        obtain rfl := Except.ok.inj he
        exact ⟨hzb, h⟩
      · rintro ⟨_, h⟩
        exact ⟨_, rfl, h⟩
    · constructor
      · intro h
        exfalso
        unfold mlEvalMixed at h
        dsimp only at h
        have hcs : vInput.length / 2 ^ x.length = 2 ^ bN := by
          rw [hin, hx, pow_add, Nat.mul_div_cancel_left _ (Nat.two_pow_pos _)]
        obtain ⟨n, hn⟩ : ∃ n, 2 ^ x.length = n + 1 := ⟨2 ^ x.length - 1, by have := Nat.two_pow_pos x.length; omega⟩
        unfold Cs.forN at h
        rw [Cs.sat_bind, hcs, hn, List.range_succ_eq_map, List.foldlM_cons, Cs.sat_bind] at h
        beta_reduce at h
        unfold sliceBetween at h
        have hle : (0 + 1) * 2 ^ bN ≤ vInput.length := by
          rw [hin, pow_add, Nat.zero_add]; exact Nat.mul_le_mul_right _ (Nat.one_le_two_pow)
        rw [if_pos ⟨by simp, hle⟩, Cs.go_ok, pure_bind, mlEval_eq, C03_evaluate_too_many bN, Cs.go_error_bind, Cs.sat_go] at h
        · obtain ⟨_, h, _⟩ := h
          cases h
        · simp only [Nat.zero_mul, Nat.zero_add, Nat.one_mul, List.drop_zero, List.length_take]
          rw [Nat.min_eq_left]
          simpa using hle
        · omega
      · rintro ⟨h, _⟩; exact absurd h hzb
  have hrest : ∀ (v : SumcheckVerdict F), 91 ≤ proof.sumcheckProofs.length → RoundChecks H ln top a → IsVerdict H ln.bGInputs a v →
      ((do
        let v ← snarkLayers arks sc proof (mimcRounds - 1) v
        let cl ← Cs.go (idx proof.claimsLeft 0)
        let cr ← Cs.go (idx proof.claimsRight 0)
        let (expectedVL, expectedVR) ← mlEvalMixed vInput v.qL v.qR v.qPrime
        Cs.assertIsEqual expectedVL cl
        Cs.assertIsEqual expectedVR cr : Cs F Unit).Sat (fun _ => True) ↔
      (∀ i < 90, LayerRounds H c proof top i ∧ LayerValue H c proof top i) ∧
      InputsOk H G bN vInput (msgOf proof 0)) := by
    intro v s1 hrc hv
    have hr90 : 2 * ln.bGInputs + bN ≤ a.rounds.length := by have := hrc.2.1; rw [← hq']; exact this
    rw [Cs.sat_bind, Cs.sat_congr hend, show mimcRounds - 1 = 90 from rfl,
      snarkLayersAny_sat arks H hH hlen hr hrep hch proof ⟨by omega, by omega, by omega⟩ top l0 hl0
        (fun x y z => (mlEvalMixed vInput x y z).Sat fun e => e.1 = (msgOf proof 0).left ∧ e.2 = (msgOf proof 0).right)
        90 v ln hl (by rw [← ha]; omega) hv]
    apply and_congr_right
    intro hall
    -- the number of coordinates left for the instances does not decrease
    have hdown : ∀ d, d ≤ 90 → ∀ l, c.layers[90 - d]? = some l → 2 * l.bGInputs + bN ≤ (msgOf proof (90 - d)).rounds.length := by
      intro d
      induction d with
      | zero =>
        intro _ l hli
        rw [Nat.sub_zero, hl] at hli
        obtain rfl := Option.some.inj hli
        exact hr90
      | succ d ih =>
        intro hd l hli
        obtain ⟨l', hl'⟩ := get (90 - d) (by omega)
        have hi := ih (by omega) l' hl'
        have h1 := (hall (90 - (d + 1)) (by omega)).1 _ hli
        have hgo : goalOf H c.layers proof top (90 - (d + 1)) = goalBelow H l'.bGInputs (msgOf proof (90 - d)) := by
          unfold goalOf
          rw [show 90 - (d + 1) + 1 = 90 - d by omega, hl']
        have h2 := h1.2.1
        rw [hgo] at h2
        change 2 * l.bGInputs + (Msg.qN H l'.bGInputs (msgOf proof (90 - d))).length ≤ _ at h2
        rw [Msg.qN_length] at h2
        omega
    have hr0 := hdown 90 (by omega) l0 (by simpa using hl0)
    rw [Nat.sub_self] at hr0
    have lN := Msg.qN_length (H := H) (g := l0.bGInputs) (a := msgOf proof 0)
    exact hmix _ _ _ (Msg.qL_length (by omega)) (Msg.qR_length (by omega)) (by omega)
  have s1iff : mimcRounds - 1 < proof.sumcheckProofs.length ↔ 91 ≤ proof.sumcheckProofs.length := by
    unfold mimcRounds; omega
  rw [s1iff]
  constructor
  · rintro ⟨s1, hrc, hv, h⟩
    have := (hrest _ s1 hrc ⟨rfl, rfl, rfl⟩).1 h
    exact ⟨⟨s1, s2, s3⟩, ⟨hrc, hv⟩, this⟩
  · rintro ⟨⟨s1, _, _⟩, ⟨hrc, hv⟩, h⟩
    exact ⟨s1, hrc, hv, (hrest _ s1 hrc ⟨rfl, rfl, rfl⟩).2 h⟩

end

end GkrMimc
