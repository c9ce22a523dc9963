import Verif.Proofs.Snark

/-! The GKR gadget in terms of the checks of the specification. -/

set_option linter.unusedSectionVars false

namespace GkrMimc

open Spec

variable {F : Type} [Field F] [DecidableEq F]

theorem assertLoop_sat (arks : List F) (H : List F → F) (hH : ∀ c, snarkMimcHash arks c = pure (H c)) (cs : List (List F)) :
    ∀ (e : F) (hs : List F) (Q : F × List F → Prop),
    (cs.foldlM (fun (s : F × List F) poly => (do
      let zeroAndOne ← uniZeroAndOne poly
      Cs.assertIsEqual zeroAndOne s.1
      let h ← snarkMimcHash arks poly
      let claim ← uniEval poly h
      return (claim, s.2 ++ [h]) : Cs F (F × List F))) (e, hs)).Sat Q ↔
    (∀ c ∈ cs, c ≠ []) ∧ Consistent H cs e ∧ Q (lastValue H cs e, hs ++ cs.map H) := by
  induction cs with
  | nil =>
    intro e hs Q
    rw [List.foldlM_nil, Cs.sat_pure]
    simp [Consistent, lastValue]
  | cons c cs ih =>
    intro e hs Q
    rw [List.foldlM_cons, Cs.sat_bind, Cs.sat_bind]
    by_cases hc : c = []
    · subst hc
      rw [uniZeroAndOne_nil, Cs.sat_go]
      constructor
      · rintro ⟨a, h, _⟩; cases h
      · rintro ⟨h, _⟩; exact absurd rfl (h [] (by simp))
    · rw [uniZeroAndOne_eq c hc, Cs.sat_pure, Cs.sat_bind, Cs.sat_assert, hH, pure_bind, uniEval_eq, pure_bind, Cs.sat_pure, ih]
      simp only [Consistent, lastValue, List.map_cons, List.mem_cons, forall_eq_or_imp, List.append_assoc, List.singleton_append]
      tauto

/-- The sumcheck gadget: the checks of the native verifier. -/
theorem sumcheckAssert_sat (arks : List F) (H : List F → F) (hH : ∀ c, snarkMimcHash arks c = pure (H c))
    (cs : List (List F)) (claim : F) (bG : Nat) (Q : SumcheckVerdict F → Prop) :
    (sumcheckAssertValid arks cs claim bG).Sat Q ↔ (∀ c ∈ cs, c ≠ []) ∧ Consistent H cs claim ∧ 2 * bG ≤ cs.length ∧
      Q ⟨(cs.map H).drop (2 * bG), (cs.map H).take bG, ((cs.map H).drop bG).take bG, lastValue H cs claim⟩ := by
  have slices : ∀ xs : List F, (xs.take (2 * bG)).drop bG = (xs.drop bG).take bG := by
    intro xs; rw [List.drop_take, two_mul, Nat.add_sub_cancel]
  unfold sumcheckAssertValid
  rw [Cs.sat_bind, assertLoop_sat arks H hH]
  dsimp only
  rw [List.nil_append]
  unfold sliceTo sliceFrom sliceBetween
  rw [Cs.sat_bind, Cs.sat_go]
  constructor
  · rintro ⟨h1, h2, a, ha, h3⟩
    split_ifs at ha with hl
    obtain rfl := Except.ok.inj ha
    rw [Cs.sat_bind, Cs.sat_go] at h3
    obtain ⟨b, hb, h3⟩ := h3
    split_ifs at hb with hl2
    obtain rfl := Except.ok.inj hb
    rw [Cs.sat_bind, Cs.sat_go] at h3
    obtain ⟨d, hd, h3⟩ := h3
    split_ifs at hd with hl3
    obtain rfl := Except.ok.inj hd
    rw [Cs.sat_pure, slices] at h3
    exact ⟨h1, h2, by simpa using hl3, h3⟩
  · rintro ⟨h1, h2, h3, h4⟩
    refine ⟨h1, h2, _, if_pos (by simp; omega), ?_⟩
    rw [Cs.sat_bind, Cs.sat_go]
    refine ⟨_, if_pos (by simp; omega), ?_⟩
    rw [Cs.sat_bind, Cs.sat_go]
    refine ⟨_, if_pos (by simp; omega), ?_⟩
    rw [Cs.sat_pure, slices]
    exact h4

/-! ### The layers of the MiMC circuit -/

/-- A gadget layer other than the last one. -/
def snarkMid (c : F) : SnarkLayer F := ⟨2, 8, 8, 1, [snarkCipherGate c, snarkCopyGate], [getCipherTable, getCopyTable]⟩

/-- The last gadget layer. -/
def snarkLast (c : F) : SnarkLayer F := ⟨2, 8, 8, 1, [snarkCipherGate c], [getFinalCipherTable]⟩

theorem createSnark_eq (arks : List F) (h : 91 ≤ arks.length) :
    createSnarkMimcCircuit arks = .ok ⟨tab 90 (fun i => snarkMid (arks.getD i 0)) ++ [snarkLast (arks.getD 90 0)], 0⟩ := by
  unfold createSnarkMimcCircuit
  dsimp only
  rw [gen_ok (fun i => snarkMid (arks.getD i 0))]
  · rw [ok_bind, idx_getD (show mimcRounds - 1 < arks.length by unfold mimcRounds; omega) 0, ok_bind, go_pure]
    rfl
  · intro i hi
    rw [idx_getD (show i < arks.length by unfold mimcRounds at hi; omega) 0, ok_bind, go_pure]
    rfl

theorem native_layers (toStr : F → String) (arks : List F) (h : 91 ≤ arks.length) :
    (newCircuit (mimcWiring toStr (arks.take 91))).layers =
      tab 90 (fun i => newLayer (mimcMidWires toStr (arks.getD i 0))) ++ [newLayer (mimcLastWires toStr (arks.getD 90 0))] := by
  rw [List.take_succ_eq_append_getElem (show 90 < arks.length by omega), mimcWiring_append]
  unfold newCircuit
  dsimp only
  rw [List.map_append, List.map_map]
  congr 1
  · apply List.ext_getElem
    · simp; omega
    · intro i h1 h2
      simp only [tab_length] at h2
      simp [show i < arks.length by omega]
  · simp [show 90 < arks.length by omega]

theorem snarkCipher_eq (c vl vr : F) : snarkCipherGate c vl vr = pure (vl + (vr + c) ^ 7) := by
  unfold snarkCipherGate csMul csConst
  dsimp only
  rw [csAdd_eq, csAdd_eq, List.sum_nil]
  congr 1
  ring

theorem eval4 (t x y : F) : mlEval [0, 0, t, 0] [x, y] = pure (t * chi [x] 1 * chi [y] 0) := by
  rw [mlEval_eq, evaluate_eq _ _ rfl, Cs.go_ok]
  congr 1
  unfold mle mleF
  simp [Finset.sum_range_succ, chi, show Nat.testBit 2 1 = true from rfl]
  ring

theorem chi_one_zero (x : F) : chi [x] 0 = 1 - x := by simp [chi]
theorem chi_one_one (x : F) : chi [x] 1 = x := by simp [chi]

theorem singleton_of {α : Type} {l : List α} (h : l.length = 1) : ∃ a, l = [a] := List.length_eq_one_iff.1 h

theorem combineLin_eq (toStr : F → String) (c : F) (qL qR q' hL hR h' : List F) (lam vl vr : F) (h1 : qL.length = 1)
    (h2 : qR.length = 1) (h3 : hL.length = 1) (h4 : hR.length = 1) :
    (snarkMid c).combineWithLinearComb qL qR q' hL hR h' (csConst 1) lam vl vr = Cs.go (do
      let e ← evalEq q' h'
      return e * wiringValue (newLayer (mimcMidWires toStr c)).wires (fun O => chi qL O + lam * chi qR O) hL hR vl vr) := by
  obtain ⟨a, rfl⟩ := singleton_of h1
  obtain ⟨b, rfl⟩ := singleton_of h2
  obtain ⟨x, rfl⟩ := singleton_of h3
  obtain ⟨y, rfl⟩ := singleton_of h4
  unfold SnarkLayer.combineWithLinearComb
  dsimp only
  have e : ∀ body : Nat → F → Cs F F, Cs.forN (snarkMid c).gates.length (csConst 0) body =
      (body 0 (csConst 0) >>= fun s => body 1 s >>= fun s => pure s) := fun _ => rfl
  rw [e]
  have i0 : idx (snarkMid c).staticTable 0 = .ok getCipherTable := rfl
  have i1 : idx (snarkMid c).staticTable 1 = .ok getCopyTable := rfl
  have g0 : idx (snarkMid c).gates 0 = .ok (snarkCipherGate c) := rfl
  have g1 : idx (snarkMid c).gates 1 = .ok snarkCopyGate := rfl
  have t0 : ∀ q : F, getCipherTable [q] = pure [0, 0, 1 - q, 0] := fun _ => rfl
  have t1 : ∀ q : F, getCopyTable [q] = pure [0, 0, q, 0] := fun _ => rfl
  have ap : [x] ++ [y] = [x, y] := rfl
  have cp : snarkCopyGate vl vr = (pure vl : Cs F F) := rfl
  simp only [i0, i1, g0, g1, Cs.go_ok, pure_bind, t0, t1, ap, eval4, snarkCipher_eq, cp, eqEvalGadget_eq, Cs.go_bind,
    go_pure, csAdd_eq, csMul, csConst, List.sum_nil]
  congr 1
  funext e
  congr 1
  simp only [wiringValue, newLayer, mimcMidWires, List.map_cons, List.map_nil, List.sum_cons, List.sum_nil, cipher_eval,
    copyGate, chi_one_zero, chi_one_one]
  ring

theorem combineTop_eq (toStr : F → String) (c : F) (q' hL hR h' : List F) (vl vr : F)
    (h3 : hL.length = 1) (h4 : hR.length = 1) :
    (snarkLast c).combine [] q' hL hR h' vl vr = Cs.go (do
      let e ← evalEq q' h'
      return e * wiringValue (newLayer (mimcLastWires toStr c)).wires (chi []) hL hR vl vr) := by
  obtain ⟨x, rfl⟩ := singleton_of h3
  obtain ⟨y, rfl⟩ := singleton_of h4
  unfold SnarkLayer.combine
  dsimp only
  have e : ∀ body : Nat → F → Cs F F, Cs.forN (snarkLast c).gates.length (csConst 0) body =
      (body 0 (csConst 0) >>= fun s => pure s) := fun _ => rfl
  rw [e]
  have i0 : idx (snarkLast c).staticTable 0 = .ok getFinalCipherTable := rfl
  have g0 : idx (snarkLast c).gates 0 = .ok (snarkCipherGate c) := rfl
  have t0 : ∀ q : List F, getFinalCipherTable q = pure [0, 0, 1, 0] := fun _ => rfl
  have ap : [x] ++ [y] = [x, y] := rfl
  simp only [i0, g0, Cs.go_ok, pure_bind, t0, ap, eval4, snarkCipher_eq, eqEvalGadget_eq, Cs.go_bind,
    go_pure, csAdd_eq, csMul, csConst, List.sum_nil]
  congr 1
  funext e
  congr 1
  simp only [wiringValue, newLayer, mimcLastWires, List.map_cons, List.map_nil, List.sum_cons, List.sum_nil, cipher_eval,
    chi_nil]
  ring

/-- Satisfaction through an index. -/
theorem sat_idx {α β : Type} (xs : List α) (i : Nat) (d : α) (f : α → Cs F β) (Q : β → Prop) :
    (Cs.go (idx xs i) >>= f).Sat Q ↔ i < xs.length ∧ (f (xs.getD i d)).Sat Q := by
  rw [Cs.sat_bind, Cs.sat_go]
  constructor
  · rintro ⟨a, h, hf⟩
    rw [idx_eq_ok] at h
    have hi := (List.getElem?_eq_some_iff.1 h).1
    refine ⟨hi, ?_⟩
    rw [List.getD_eq_getElem?_getD, h]
    exact hf
  · rintro ⟨hi, hf⟩
    exact ⟨_, idx_getD hi d, hf⟩

variable (toStr : F → String) (arks : List F) (H : List F → F)

/-- The gadget's circuit, for at least 91 constants. -/
def snarkCircuit (arks : List F) : SnarkCircuit F :=
  ⟨tab 90 (fun i => snarkMid (arks.getD i 0)) ++ [snarkLast (arks.getD 90 0)], 0⟩

/-- The native circuit with the same constants. -/
def nativeCircuit (toStr : F → String) (arks : List F) : Circuit F := newCircuit (mimcWiring toStr (arks.take 91))

theorem native_mid (h : 91 ≤ arks.length) {i : Nat} (hi : i < 90) :
    (nativeCircuit toStr arks).layers[i]? = some (newLayer (mimcMidWires toStr (arks.getD i 0))) := by
  unfold nativeCircuit
  rw [native_layers toStr arks h, List.getElem?_append_left (by simpa using hi), tab_getElem?, if_pos hi]

theorem native_last (h : 91 ≤ arks.length) :
    (nativeCircuit toStr arks).layers[90]? = some (newLayer (mimcLastWires toStr (arks.getD 90 0))) := by
  unfold nativeCircuit
  rw [native_layers toStr arks h, List.getElem?_append_right (by simp)]
  simp

theorem native_length (h : 91 ≤ arks.length) : (nativeCircuit toStr arks).layers.length = 91 := by
  unfold nativeCircuit
  rw [native_layers toStr arks h]
  simp

theorem snark_mid {i : Nat} (hi : i < 90) : (snarkCircuit arks).layers[i]? = some (snarkMid (arks.getD i 0)) := by
  unfold snarkCircuit
  dsimp only
  rw [List.getElem?_append_left (by simpa using hi), tab_getElem?, if_pos hi]

theorem snark_last : (snarkCircuit arks).layers[90]? = some (snarkLast (arks.getD 90 0)) := by
  unfold snarkCircuit
  dsimp only
  rw [List.getElem?_append_right (by simp)]
  simp

/-- Satisfaction through `evalEq` followed by a computation. -/
theorem sat_evalEq {β : Type} (q h : List F) (w : F) (f : F → Cs F β) (Q : β → Prop) :
    (Cs.go (do let e ← evalEq q h; return e * w) >>= f).Sat Q ↔
      q.length ≤ h.length ∧ (f (eqPoly q h * w)).Sat Q := by
  by_cases hl : q.length ≤ h.length
  · rw [evalEq_eq q h hl, ok_bind, go_pure, Cs.go_ok, pure_bind]
    exact ⟨fun a => ⟨hl, a⟩, fun a => a.2⟩
  · rw [evalEq_err q h (by omega), error_bind, Cs.go_error_bind, Cs.sat_go]
    constructor
    · rintro ⟨a, h, _⟩; cases h
    · rintro ⟨a, _⟩; exact absurd a hl

theorem layerRounds_iff (c : Circuit F) (proof : GkrProof F) (top : Goal F) {i : Nat} {l : Layer F} (hl : c.layers[i]? = some l) :
    LayerRounds H c proof top i ↔ RoundChecks H l (goalOf H c.layers proof top i) (msgOf proof i) := by
  unfold LayerRounds
  refine ⟨fun h => h l hl, fun h l'' h'' => ?_⟩
  rw [hl] at h''
  obtain rfl := Option.some.inj h''
  exact h

theorem layerValue_iff (c : Circuit F) (proof : GkrProof F) (top : Goal F) {i : Nat} {l : Layer F} (hl : c.layers[i]? = some l) :
    LayerValue H c proof top i ↔ ValueCheck H l (goalOf H c.layers proof top i) (msgOf proof i) := by
  unfold LayerValue
  refine ⟨fun h => h l hl, fun h l'' h'' => ?_⟩
  rw [hl] at h''
  obtain rfl := Option.some.inj h''
  exact h

/-- The checks of one layer of the gadget. -/
theorem layerGadget_sat {α : Type} (hH : ∀ c, snarkMimcHash arks c = pure (H c)) (l : Layer F) (hl : l.bGInputs = 1) (t : Goal F) (a : Msg F)
    (comb : SumcheckVerdict F → Cs F F) (hcomb : ∀ v : SumcheckVerdict F, v.qL.length = 1 → v.qR.length = 1 →
      comb v = Cs.go (do let e ← evalEq t.point v.qPrime; return e * wiringValue l.wires t.weight v.qL v.qR a.left a.right))
    (f : SumcheckVerdict F → Cs F α) (Q : α → Prop) :
    (sumcheckAssertValid arks a.rounds t.claim 1 >>= fun v => comb v >>= fun actual =>
      Cs.assertIsEqual v.finalClaim actual >>= fun _ => f v).Sat Q ↔
    RoundChecks H l t a ∧ ValueCheck H l t a ∧
      (f ⟨a.qN H 1, a.qL H 1, a.qR H 1, lastValue H a.rounds t.claim⟩).Sat Q := by
  rw [Cs.sat_bind, sumcheckAssert_sat arks H hH]
  have key : 2 * 1 ≤ a.rounds.length → ∀ v : SumcheckVerdict F, v = ⟨a.qN H 1, a.qL H 1, a.qR H 1, lastValue H a.rounds t.claim⟩ →
      ((comb v >>= fun actual => Cs.assertIsEqual v.finalClaim actual >>= fun _ => f v).Sat Q ↔
      t.point.length ≤ (a.qN H 1).length ∧ ValueCheck H l t a ∧ (f v).Sat Q) := by
    intro hr v hv
    have lL := Msg.qL_length (H := H) (g := 1) (a := a) (by omega)
    have lR := Msg.qR_length (H := H) (g := 1) (a := a) (by omega)
    subst hv
    rw [hcomb _ lL lR, sat_evalEq, Cs.sat_bind, Cs.sat_assert]
    unfold ValueCheck
    rw [hl]
  unfold RoundChecks
  rw [hl]
  constructor
  · rintro ⟨h1, h2, h3, h4⟩
    have lN := Msg.qN_length (H := H) (g := 1) (a := a)
    obtain ⟨h5, h6, h7⟩ := (key h3 _ rfl).1 h4
    exact ⟨⟨h1, by omega, h2⟩, h6, h7⟩
  · rintro ⟨⟨h1, h2, h3⟩, h4, h5⟩
    have lN := Msg.qN_length (H := H) (g := 1) (a := a)
    exact ⟨h1, h3, by omega, (key (by omega) _ rfl).2 ⟨by omega, h4, h5⟩⟩

theorem snarkLayers_sat (hA : 91 ≤ arks.length) (hH : ∀ c, snarkMimcHash arks c = pure (H c)) (proof : GkrProof F)
    (hs : HasShape (nativeCircuit toStr arks) proof) (top : Goal F) (P : List F → List F → List F → Prop) (layer : Nat) :
    ∀ (v : SumcheckVerdict F), layer ≤ 90 → 2 ≤ (msgOf proof layer).rounds.length → IsVerdict H 1 (msgOf proof layer) v →
    ((snarkLayers arks (snarkCircuit arks) proof layer v).Sat (fun v => P v.qL v.qR v.qPrime) ↔
      (∀ i < layer, LayerRounds H (nativeCircuit toStr arks) proof top i ∧ LayerValue H (nativeCircuit toStr arks) proof top i) ∧
      P ((msgOf proof 0).qL H 1) ((msgOf proof 0).qR H 1) ((msgOf proof 0).qN H 1)) := by
  have hlen := native_length toStr arks hA
  obtain ⟨s1, s2, s3⟩ := hs
  rw [hlen] at s1 s2 s3
  induction layer with
  | zero =>
    intro v _ _ ⟨h1, h2, h3⟩
    rw [snarkLayers, Cs.sat_pure, h1, h2, h3]
    exact ⟨fun h => ⟨fun i hi => by omega, h⟩, fun h => h.2⟩
  | succ layer ih =>
    intro v hle hr ⟨h1, h2, h3⟩
    have hl := native_mid toStr arks hA (show layer < 90 by omega)
    set l := newLayer (mimcMidWires toStr (arks.getD layer 0)) with hldef
    have hg : l.bGInputs = 1 := mid_bGInputs _ _
    obtain ⟨l', hl', hg'⟩ : ∃ l', (nativeCircuit toStr arks).layers[layer + 1]? = some l' ∧ l'.bGInputs = 1 := by
      by_cases h : layer + 1 < 90
      · exact ⟨_, native_mid toStr arks hA h, mid_bGInputs _ _⟩
      · rw [show layer + 1 = 90 by omega]
        exact ⟨_, native_last toStr arks hA, last_bGInputs _ _⟩
    set a := msgOf proof (layer + 1) with ha
    set b := msgOf proof layer with hb
    have hgoal : goalOf H (nativeCircuit toStr arks).layers proof top layer = goalBelow H 1 a := by
      unfold goalOf; rw [hl']; dsimp only; rw [hg']
    have lL := Msg.qL_length (H := H) (g := 1) (a := a) (by omega)
    have lR := Msg.qR_length (H := H) (g := 1) (a := a) (by omega)
    rw [snarkLayers, sat_idx _ _ 0, sat_idx _ _ 0, hH, pure_bind, sat_idx _ _ []]
    rw [idx_some (snark_mid arks (show layer < 90 by omega)), Cs.go_ok, pure_bind]
    have e1 : csAdd (proof.claimsLeft.getD (layer + 1) 0) (csMul (H [proof.claimsLeft.getD (layer + 1) 0,
        proof.claimsRight.getD (layer + 1) 0]) (proof.claimsRight.getD (layer + 1) 0)) = (goalBelow H 1 a).claim := by
      rw [csAdd_eq, List.sum_nil, add_zero]; rfl
    have e2 : (snarkMid (arks.getD layer 0)).bG = 1 := rfl
    have e3 : proof.sumcheckProofs.getD layer [] = b.rounds := rfl
    rw [e1, e2, e3, idx_getD (show layer < proof.claimsLeft.length by omega) 0, Cs.go_ok,
      idx_getD (show layer < proof.claimsRight.length by omega) 0, Cs.go_ok]
    simp only [pure_bind]
    rw [layerGadget_sat arks H hH l hg (goalBelow H 1 a) b (fun w => (snarkMid (arks.getD layer 0)).combineWithLinearComb v.qL v.qR
      v.qPrime w.qL w.qR w.qPrime (csConst 1) (H [proof.claimsLeft.getD (layer + 1) 0, proof.claimsRight.getD (layer + 1) 0])
      (proof.claimsLeft.getD layer 0) (proof.claimsRight.getD layer 0))]
    · have split : (∀ i < layer + 1, LayerRounds H (nativeCircuit toStr arks) proof top i ∧
          LayerValue H (nativeCircuit toStr arks) proof top i) ↔
          (RoundChecks H l (goalBelow H 1 a) b ∧ ValueCheck H l (goalBelow H 1 a) b) ∧
          ∀ i < layer, LayerRounds H (nativeCircuit toStr arks) proof top i ∧
          LayerValue H (nativeCircuit toStr arks) proof top i := by
        rw [← hgoal, ← layerRounds_iff H _ proof top hl, ← layerValue_iff H _ proof top hl]
        constructor
        · intro h; exact ⟨h layer (by omega), fun i hi => h i (by omega)⟩
        · rintro ⟨h, h'⟩ i hi
          by_cases hil : i = layer
          · subst hil; exact h
          · exact h' i (by omega)
      rw [split]
      constructor
      · rintro ⟨_, _, _, q1, q2, q3⟩
        have hr' : 2 ≤ b.rounds.length := by have := q1.2.1; rw [hg] at this; omega
        have := (ih _ (by omega) hr' ⟨rfl, rfl, rfl⟩).1 q3
        exact ⟨⟨⟨q1, q2⟩, this.1⟩, this.2⟩
      · rintro ⟨⟨⟨q1, q2⟩, q3⟩, q4⟩
        have hr' : 2 ≤ b.rounds.length := by have := q1.2.1; rw [hg] at this; omega
        exact ⟨by omega, by omega, by omega, q1, q2, (ih _ (by omega) hr' ⟨rfl, rfl, rfl⟩).2 ⟨q3, q4⟩⟩
    · intro w w1 w2
      rw [combineLin_eq toStr _ _ _ _ _ _ _ _ _ _ (by rw [h1]; exact lL) (by rw [h2]; exact lR) w1 w2, h1, h2, h3]
      rfl

/-- The gadget's assertions hold iff the proof has messages for all layers and passes all the checks of the
specification. -/
theorem snarkAssertValid_iff (hA : 91 ≤ arks.length) (hH : ∀ c, snarkMimcHash arks c = pure (H c)) (proof : GkrProof F)
    (bN : Nat) (q' vInput vOutput : List F) (hq : q'.length = bN) (hin : vInput.length = 2 ^ (1 + bN))
    (hout : vOutput.length = 2 ^ bN) :
    (snarkAssertValid arks (snarkCircuit arks) proof [] q' vInput vOutput).Satisfied ↔
      HasShape (nativeCircuit toStr arks) proof ∧
      GkrConsistent H bN (nativeCircuit toStr arks).layers proof vInput ⟨mle vOutput q', q', chi []⟩ := by
  have hlen := native_length toStr arks hA
  have hl := native_last toStr arks hA
  set l := newLayer (mimcLastWires toStr (arks.getD 90 0)) with hldef
  have hg : l.bGInputs = 1 := last_bGInputs _ _
  set top : Goal F := ⟨mle vOutput q', q', chi []⟩ with htop
  set a := msgOf proof 90 with ha
  have hgoal : goalOf H (nativeCircuit toStr arks).layers proof top 90 = top := by
    unfold goalOf; rw [List.getElem?_eq_none (by omega)]
  have h0 := native_mid toStr arks hA (show 0 < 90 by omega)
  have hcons : GkrConsistent H bN (nativeCircuit toStr arks).layers proof vInput top ↔
      (RoundChecks H l top a ∧ ValueCheck H l top a) ∧
      (∀ i < 90, LayerRounds H (nativeCircuit toStr arks) proof top i ∧ LayerValue H (nativeCircuit toStr arks) proof top i) ∧
      InputsOk H 1 bN vInput (msgOf proof 0) := by
    constructor
    · rintro ⟨h1, h2⟩
      have := h1 90 l hl
      rw [hgoal] at this
      refine ⟨this, fun i hi => ?_, ?_⟩
      · rw [layerRounds_iff H _ proof top (native_mid toStr arks hA hi), layerValue_iff H _ proof top (native_mid toStr arks hA hi)]
        exact h1 i _ (native_mid toStr arks hA hi)
      · have := h2 _ h0
        rw [mid_bGInputs] at this
        exact this
    · rintro ⟨h1, h2, h3⟩
      constructor
      · intro i li hli
        have hi : i < 91 := by rw [← hlen]; exact (List.getElem?_eq_some_iff.1 hli).1
        by_cases h90 : i = 90
        · subst h90
          rw [hl] at hli
          obtain rfl := Option.some.inj hli
          rw [hgoal]
          exact h1
        · have := h2 i (by omega)
          exact ⟨this.1 li hli, this.2 li hli⟩
      · intro l0 hl0
        rw [h0] at hl0
        obtain rfl := Option.some.inj hl0
        rw [mid_bGInputs]
        exact h3
  have hclaim : mlEval vOutput ([] ++ q') = pure top.claim := by
    rw [List.nil_append, mlEval_eq, evaluate_eq _ _ (by rw [hq]; exact hout)]
    rfl
  rw [hcons]
  unfold snarkAssertValid Cs.Satisfied HasShape
  dsimp only
  rw [hlen, hclaim, pure_bind, sat_idx _ _ [], show idx (snarkCircuit arks).layers (mimcRounds - 1) = _ from idx_some (snark_last arks),
    Cs.go_ok]
  simp only [pure_bind]
  have e2 : (snarkLast (arks.getD 90 0)).bG = 1 := rfl
  have e3 : proof.sumcheckProofs.getD (mimcRounds - 1) [] = a.rounds := rfl
  rw [e2, e3]
  by_cases s2 : 91 ≤ proof.claimsLeft.length
  swap
  · constructor
    · rintro ⟨_, h⟩
      rw [Cs.sat_bind, sumcheckAssert_sat arks H hH] at h
      have := h.2.2.2
      rw [sat_idx _ _ 0] at this
      unfold mimcRounds at this
      exact absurd this.1 (by omega)
    · rintro ⟨h, _⟩; exact absurd h.2.1 s2
  by_cases s3 : 91 ≤ proof.claimsRight.length
  swap
  · constructor
    · rintro ⟨_, h⟩
      rw [Cs.sat_bind, sumcheckAssert_sat arks H hH] at h
      have := h.2.2.2
      rw [sat_idx _ _ 0, sat_idx _ _ 0] at this
      unfold mimcRounds at this
      exact absurd this.2.1 (by omega)
    · rintro ⟨h, _⟩; exact absurd h.2.2 s3
  rw [idx_getD (show mimcRounds - 1 < proof.claimsLeft.length by unfold mimcRounds; omega) 0, Cs.go_ok,
      idx_getD (show mimcRounds - 1 < proof.claimsRight.length by unfold mimcRounds; omega) 0, Cs.go_ok]
  simp only [pure_bind]
  rw [layerGadget_sat arks H hH l hg top a (fun w => (snarkLast (arks.getD 90 0)).combine [] q' w.qL w.qR w.qPrime
      (proof.claimsLeft.getD (mimcRounds - 1) 0) (proof.claimsRight.getD (mimcRounds - 1) 0))]
  swap
  · intro w w1 w2
    rw [combineTop_eq toStr _ _ _ _ _ _ _ w1 w2]
    rfl
  have hend : ∀ (v : SumcheckVerdict F), (do
      let cl ← Cs.go (idx proof.claimsLeft 0)
      let cr ← Cs.go (idx proof.claimsRight 0)
      let (expectedVL, expectedVR) ← mlEvalMixed vInput v.qL v.qR v.qPrime
      Cs.assertIsEqual expectedVL cl
      Cs.assertIsEqual expectedVR cr : Cs F Unit).Sat (fun _ => True) ↔
      ((mlEvalMixed vInput v.qL v.qR v.qPrime).Sat fun e => e.1 = (msgOf proof 0).left ∧ e.2 = (msgOf proof 0).right) := by
    intro v
    rw [sat_idx _ _ 0, sat_idx _ _ 0, Cs.sat_bind]
    constructor
    · rintro ⟨_, _, h⟩
      refine (Cs.sat_congr fun e => ?_).1 h
      rw [Cs.sat_bind, Cs.sat_assert, Cs.sat_assert, and_true]
      rfl
    · intro h
      refine ⟨by omega, by omega, (Cs.sat_congr fun e => ?_).1 h⟩
      rw [Cs.sat_bind, Cs.sat_assert, Cs.sat_assert, and_true]
      rfl
  have hmix : ∀ x y z : List F, x.length = 1 → y.length = 1 → bN ≤ z.length →
      ((mlEvalMixed vInput x y z).Sat (fun e => e.1 = (msgOf proof 0).left ∧ e.2 = (msgOf proof 0).right) ↔
      z.length = bN ∧ mle vInput (x ++ z) = (msgOf proof 0).left ∧ mle vInput (y ++ z) = (msgOf proof 0).right) := by
    intro x y z hx hy hz
    by_cases hzb : z.length = bN
    · rw [mlEvalMixed_eq _ _ _ _ (by omega) (by rw [hx, hzb]; exact hin), Cs.sat_go]
      unfold evaluateLeftAndRight
      rw [evaluate_eq _ _ (by rw [List.length_append, hx, hzb]; exact hin), ok_bind,
        evaluate_eq _ _ (by rw [List.length_append, hy, hzb]; exact hin), ok_bind, go_pure]
      constructor
      · rintro ⟨e, he, h⟩
        obtain rfl := Except.ok.inj he
        exact ⟨hzb, h⟩
      · rintro ⟨_, h⟩
        exact ⟨_, rfl, h⟩
    · constructor
      · intro h
        exfalso
        unfold mlEvalMixed at h
        dsimp only at h
        have hcs : vInput.length / 2 ^ x.length = 2 ^ bN := by rw [hin, hx, pow_add, Nat.mul_div_cancel_left _ (by norm_num)]
        have hn : List.range (2 ^ x.length) = [0, 1] := by rw [hx]; rfl
        unfold Cs.forN at h
        rw [Cs.sat_bind, hn, hcs, List.foldlM_cons, Cs.sat_bind] at h
        beta_reduce at h
        unfold sliceBetween at h
        have hle : (0 + 1) * 2 ^ bN ≤ vInput.length := by rw [hin, pow_add]; omega
        rw [if_pos ⟨by simp, hle⟩, Cs.go_ok, pure_bind, mlEval_eq, C03_evaluate_too_many bN, Cs.go_error_bind, Cs.sat_go] at h
        · obtain ⟨_, h, _⟩ := h
          cases h
        · simp only [Nat.zero_mul, Nat.zero_add, Nat.one_mul, List.drop_zero, List.length_take]
          rw [Nat.min_eq_left]
          simpa using hle
        · omega
      · rintro ⟨h, _⟩; exact absurd h hzb
  have hrest : ∀ (v : SumcheckVerdict F), 91 ≤ proof.sumcheckProofs.length → RoundChecks H l top a → IsVerdict H 1 a v →
      ((do
        let v ← snarkLayers arks (snarkCircuit arks) proof (mimcRounds - 1) v
        let cl ← Cs.go (idx proof.claimsLeft 0)
        let cr ← Cs.go (idx proof.claimsRight 0)
        let (expectedVL, expectedVR) ← mlEvalMixed vInput v.qL v.qR v.qPrime
        Cs.assertIsEqual expectedVL cl
        Cs.assertIsEqual expectedVR cr : Cs F Unit).Sat (fun _ => True) ↔
      (∀ i < 90, LayerRounds H (nativeCircuit toStr arks) proof top i ∧ LayerValue H (nativeCircuit toStr arks) proof top i) ∧
      InputsOk H 1 bN vInput (msgOf proof 0)) := by
    intro v s1 hr hv
    have hr90 : 2 ≤ a.rounds.length := by have := hr.2.1; rw [hg] at this; omega
    rw [Cs.sat_bind, Cs.sat_congr hend, show mimcRounds - 1 = 90 from rfl,
      snarkLayers_sat toStr arks H hA hH proof ⟨by omega, by omega, by omega⟩ top (fun x y z => (mlEvalMixed vInput x y z).Sat
        fun e => e.1 = (msgOf proof 0).left ∧ e.2 = (msgOf proof 0).right) 90 v (by omega) hr90 hv]
    apply and_congr_right
    intro hall
    -- the number of rounds does not decrease
    have hdown : ∀ d, d ≤ 90 → 2 + bN ≤ (msgOf proof (90 - d)).rounds.length := by
      intro d
      induction d with
      | zero =>
        intro _
        have := hr.2.1
        rw [hg] at this
        change 2 * 1 + q'.length ≤ _ at this
        rw [hq] at this
        simpa using this
      | succ d ih =>
        intro hd
        have hi := ih (by omega)
        have hm := native_mid toStr arks hA (show 90 - (d + 1) < 90 by omega)
        have h1 := (hall (90 - (d + 1)) (by omega)).1 _ hm
        obtain ⟨l', hl', hg'⟩ : ∃ l', (nativeCircuit toStr arks).layers[90 - (d + 1) + 1]? = some l' ∧ l'.bGInputs = 1 := by
          by_cases h : 90 - (d + 1) + 1 < 90
          · exact ⟨_, native_mid toStr arks hA h, mid_bGInputs _ _⟩
          · rw [show 90 - (d + 1) + 1 = 90 by omega]
            exact ⟨_, hl, hg⟩
        have hgo : goalOf H (nativeCircuit toStr arks).layers proof top (90 - (d + 1)) =
            goalBelow H 1 (msgOf proof (90 - d)) := by
          unfold goalOf
          rw [hl']
          dsimp only
          rw [hg', show 90 - (d + 1) + 1 = 90 - d by omega]
        have h2 := h1.2.1
        rw [hgo, mid_bGInputs] at h2
        change 2 * 1 + (Msg.qN H 1 (msgOf proof (90 - d))).length ≤ _ at h2
        rw [Msg.qN_length] at h2
        omega
    have hr0 := hdown 90 (by omega)
    rw [Nat.sub_self] at hr0
    have lN := Msg.qN_length (H := H) (g := 1) (a := msgOf proof 0)
    exact hmix _ _ _ (Msg.qL_length (by omega)) (Msg.qR_length (by omega)) (by omega)
  have s1iff : mimcRounds - 1 < proof.sumcheckProofs.length ↔ 91 ≤ proof.sumcheckProofs.length := by
    unfold mimcRounds; omega
  rw [s1iff]
  constructor
  · rintro ⟨s1, hr, hv, h⟩
    have := (hrest _ s1 hr ⟨rfl, rfl, rfl⟩).1 h
    exact ⟨⟨s1, s2, s3⟩, ⟨hr, hv⟩, this⟩
  · rintro ⟨⟨s1, _, _⟩, ⟨hr, hv⟩, h⟩
    exact ⟨s1, hr, hv, (hrest _ s1 hr ⟨rfl, rfl, rfl⟩).2 h⟩

end GkrMimc
