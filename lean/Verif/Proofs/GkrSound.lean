import Verif.Props.Gkr
import Verif.Spec.Gkr
import Verif.Props.Mle

/-! Acceptance and soundness of GKR. -/

set_option linter.unusedSectionVars false

namespace GkrMimc

open Spec Finset Polynomial

variable {F : Type} [Field F] [DecidableEq F]

/-- A static table with weights for the outputs. -/
def staticW (wires : List (Wire F)) (id : String) (weight : Nat → F) (G u : Nat) : F :=
  (wires.map fun w => if w.gate.id = id ∧ u = 2 ^ G * w.L + w.R then weight w.O else 0).sum

theorem staticF_eq_W (wires : List (Wire F)) (id : String) (q : List F) (G u : Nat) :
    staticF wires id q G u = staticW wires id (chi q) G u := rfl

theorem staticW_comb (wires : List (Wire F)) (id : String) (f g : Nat → F) (lam : F) (G u : Nat) :
    staticW wires id g G u * lam + staticW wires id f G u * 1 = staticW wires id (fun O => f O + lam * g O) G u := by
  unfold staticW
  induction wires with
  | nil => simp
  | cons w ws ih =>
    simp only [List.map_cons, List.sum_cons]
    rw [← ih]
    split_ifs <;> ring

theorem mleF_staticW (wires : List (Wire F)) (id : String) (weight : Nat → F) (G : Nat) (nL nR : List F)
    (hL : nL.length = G) (hR : nR.length = G) (hr : ∀ w ∈ wires, w.L < 2 ^ G ∧ w.R < 2 ^ G) :
    mleF (staticW wires id weight G) (nL ++ nR) =
      (wires.map fun w => if w.gate.id = id then weight w.O * chi nL w.L * chi nR w.R else 0).sum := by
  unfold mleF staticW
  have e : ∀ u, (wires.map fun w => if w.gate.id = id ∧ u = 2 ^ G * w.L + w.R then weight w.O else 0).sum *
      chi (nL ++ nR) u = (wires.map fun w => (if w.gate.id = id ∧ u = 2 ^ G * w.L + w.R then weight w.O else 0) *
      chi (nL ++ nR) u).sum := fun u => (list_sum_mul_right _ _ _).symm
  simp only [e]
  rw [← list_sum_finset]
  apply list_sum_congr
  intro w hw
  obtain ⟨h1, h2⟩ := hr w hw
  by_cases hid : w.gate.id = id
  · simp only [hid, true_and, if_true, ite_mul, zero_mul]
    rw [Finset.sum_ite_eq']
    have hlt : 2 ^ G * w.L + w.R < 2 ^ (nL ++ nR).length := by
      rw [List.length_append, hL, hR, pow_add, mul_comm]
      exact mul_add_lt h1 h2
    rw [if_pos (mem_range.2 hlt), show 2 ^ G * w.L = w.L * 2 ^ nR.length by rw [hR, mul_comm],
      chi_append nL nR w.L (by rw [hR]; exact h2), mul_assoc]
  · simp [hid]

theorem combinator_wiring {l : Layer F} (hl : GoodLayer l) (weight : Nat → F) (nL nR : List F)
    (hL : nL.length = l.bGInputs) (hR : nR.length = l.bGInputs) (vl vr e : F) :
    combinator l.gates vl vr e (l.gates.map fun g => mleF (staticW l.wires g.id weight l.bGInputs) (nL ++ nR)) =
      e * wiringValue l.wires weight nL nR vl vr := by
  unfold combinator wiringValue
  rw [mul_comm]
  congr 1
  rw [← listed_sum hl.listed (fun f w => weight w.O * chi nL w.L * chi nR w.R * f vl vr) (fun _ _ _ => rfl),
    countedBy_sum, list_map_sum_eq]
  apply Finset.sum_congr rfl
  intro i _
  have e1 : (l.gates.map fun g => mleF (staticW l.wires g.id weight l.bGInputs) (nL ++ nR)).getD i 0 =
      mleF (staticW l.wires l.gates[i].id weight l.bGInputs) (nL ++ nR) := by simp
  rw [e1, mleF_staticW l.wires _ weight _ nL nR hL hR
    (fun w hw => ⟨(hl.inRange w hw).1, (hl.inRange w hw).2.1⟩), ← list_sum_mul_right]
  apply list_sum_congr
  intro w _
  rw [ite_mul, zero_mul]

/-- `EvaluateCombinator` in an intermediate layer. -/
theorem combinator_below {l : Layer F} (hl : GoodLayer l) (qL qR nL nR : List F) (hqL : qL.length = l.bGOutputs)
    (hqR : qR.length = l.bGOutputs) (hL : nL.length = l.bGInputs) (hR : nR.length = l.bGInputs) (lam vl vr e : F) :
    (evaluateStaticTablesLinCombs l qL qR nL nR 1 lam >>= fun st => evaluateCombinator vl vr e l.gates st) =
      .ok (e * wiringValue l.wires (fun O => chi qL O + lam * chi qR O) nL nR vl vr) := by
  rw [evalStatics2_eq hl.toRunLayer qL qR nL nR hqL hqR hL hR lam, ok_bind, evaluateCombinator_eq _ _ _ _ _ (by simp)]
  simp only [staticF_eq_W, staticW_comb]
  rw [combinator_wiring hl _ nL nR hL hR]

/-- `EvaluateCombinator` in the last layer. -/
theorem combinator_top {l : Layer F} (hl : GoodLayer l) (q nL nR : List F) (hq : q.length = l.bGOutputs)
    (hL : nL.length = l.bGInputs) (hR : nR.length = l.bGInputs) (vl vr e : F) :
    (evaluateStaticTables l q nL nR >>= fun st => evaluateCombinator vl vr e l.gates st) =
      .ok (e * wiringValue l.wires (chi q) nL nR vl vr) := by
  rw [evalStatics_eq hl.toRunLayer q nL nR hq hL hR, ok_bind, evaluateCombinator_eq _ _ _ _ _ (by simp)]
  have := combinator_wiring hl (chi q) nL nR hL hR vl vr e
  rw [← this]
  rfl

/-- A verdict holds the challenge point of the messages. -/
def IsVerdict (H : List F → F) (g : Nat) (a : Msg F) (v : SumcheckVerdict F) : Prop :=
  v.qL = a.qL H g ∧ v.qR = a.qR H g ∧ v.qPrime = a.qN H g

theorem Msg.qL_length {H : List F → F} {g : Nat} {a : Msg F} (h : 2 * g ≤ a.rounds.length) : (a.qL H g).length = g := by
  simp [Msg.qL]; omega

theorem Msg.qR_length {H : List F → F} {g : Nat} {a : Msg F} (h : 2 * g ≤ a.rounds.length) : (a.qR H g).length = g := by
  simp [Msg.qR]; omega

theorem Msg.qN_length {H : List F → F} {g : Nat} {a : Msg F} : (a.qN H g).length = a.rounds.length - 2 * g := by
  simp [Msg.qN]

/-- The result of the sumcheck verifier in terms of the round checks. -/
theorem sumcheck_cases (H : List F → F) (l : Layer F) (t : Goal F) (a : Msg F) :
    (RoundChecks H l t a ∧ ∃ v, sumcheckVerify H t.claim a.rounds l.bGInputs = .ok (some v) ∧
      IsVerdict H l.bGInputs a v ∧ v.finalClaim = lastValue H a.rounds t.claim) ∨
    (¬ RoundChecks H l t a ∧ ((∃ e, sumcheckVerify H t.claim a.rounds l.bGInputs = .error e) ∨
      sumcheckVerify H t.claim a.rounds l.bGInputs = .ok none ∨
      ∃ v, sumcheckVerify H t.claim a.rounds l.bGInputs = .ok (some v) ∧ v.qPrime.length < t.point.length)) := by
  by_cases hr : RoundChecks H l t a
  · left
    obtain ⟨h1, h2, h3⟩ := hr
    exact ⟨⟨h1, h2, h3⟩, ⟨a.qN H l.bGInputs, a.qL H l.bGInputs, a.qR H l.bGInputs, _⟩,
      (C17_accepts_iff H _ _ _ _).2 ⟨h1, h3, by omega, rfl, rfl, rfl, rfl⟩, ⟨rfl, rfl, rfl⟩, rfl⟩
  · right
    refine ⟨hr, ?_⟩
    cases hs : sumcheckVerify H t.claim a.rounds l.bGInputs with
    | error e => exact .inl ⟨e, rfl⟩
    | ok o =>
      cases o with
      | none => exact .inr (.inl rfl)
      | some v =>
        obtain ⟨h1, h2, h3, _, _, h6, _⟩ := (C17_accepts_iff H _ _ _ _).1 hs
        refine .inr (.inr ⟨v, rfl, ?_⟩)
        by_contra hlt
        apply hr
        refine ⟨h1, ?_, h2⟩
        rw [h6] at hlt
        simp at hlt
        omega

/-- `EvaluateMixedChunked` panics if the point is too long. -/
theorem mixed_too_long (k M : Nat) (hk : 1 ≤ k) (chunks : List (List F)) (h : WellChunked k M chunks)
    (hPrime hL hR : List F) (hp : M + k < hL.length + hPrime.length) (hp2 : k ≤ hPrime.length) :
    ∃ e, evaluateMixedChunked chunks hPrime hL hR = .error e := by
  obtain ⟨a, b, rfl, hb⟩ : ∃ a b : List F, hPrime = a ++ b ∧ b.length = k :=
    ⟨hPrime.take (hPrime.length - k), hPrime.drop (hPrime.length - k), by simp, by simp; omega⟩
  have hbn : b ≠ [] := by rintro rfl; simp at hb; omega
  unfold evaluateMixedChunked
  rw [h.1, log2Ceil_pow]
  dsimp only
  rw [if_neg (by simp; omega)]
  have hc : (a ++ b).length - k = a.length := by simp [hb]
  rw [hc, List.drop_left', List.take_left', eq_chunksOf h]
  · unfold chunksOf
    rw [← hb, chunkedEvalRecombine_eq _ b hbn (fun s u => (interleave (2 ^ b.length) (2 ^ M) chunks).getD (u * 2 ^ b.length + s) 0),
      ok_bind]
    unfold evaluateLeftAndRight
    rw [C03_evaluate_too_many M]
    · exact ⟨_, rfl⟩
    · simp
    · simp at hp ⊢; omega
  · rfl
  · rfl

variable (H : List F → F) (c : Circuit F) (proof : GkrProof F) (top : Goal F)

theorem acceptsBelow_succ (bN : Nat) (inputs : List F) (n : Nat) :
    AcceptsBelow H c proof top bN inputs (n + 1) ↔ LayerRounds H c proof top n ∧
      (LayerValue H c proof top n → AcceptsBelow H c proof top bN inputs n) := by
  unfold AcceptsBelow
  constructor
  · rintro (⟨h1, h2⟩ | ⟨i, hi, h1, h2, h3⟩)
    · exact ⟨(h1 n (by omega)).1, fun _ => .inl ⟨fun i hi => h1 i (by omega), h2⟩⟩
    · rcases Nat.lt_succ_iff_lt_or_eq.1 hi with hi' | rfl
      · exact ⟨(h1 n hi' (by omega)).1, fun _ => .inr ⟨i, hi', fun j a b => h1 j a (by omega), h2, h3⟩⟩
      · exact ⟨h2, fun h => absurd h h3⟩
  · rintro ⟨h1, h2⟩
    by_cases hv : LayerValue H c proof top n
    · rcases h2 hv with ⟨a, b⟩ | ⟨i, hi, a, b, d⟩
      · refine .inl ⟨fun i hi => ?_, b⟩
        rcases Nat.lt_succ_iff_lt_or_eq.1 hi with hi' | rfl
        · exact a i hi'
        · exact ⟨h1, hv⟩
      · refine .inr ⟨i, by omega, fun j hj hj2 => ?_, b, d⟩
        rcases Nat.lt_succ_iff_lt_or_eq.1 hj2 with hj' | rfl
        · exact a j hj hj'
        · exact ⟨h1, hv⟩
    · exact .inr ⟨n, by omega, fun j a b => by omega, h1, hv⟩

/-- The circuit and the inputs on which acceptance is characterised. -/
structure GoodCircuit (c : Circuit F) : Prop where
  good : ∀ l ∈ c.layers, GoodLayer l
  chained : ∀ (i : Nat) (l l' : Layer F), c.layers[i]? = some l → c.layers[i + 1]? = some l' → l.bGOutputs = l'.bGInputs

theorem idx_getD {α : Type} {xs : List α} {i : Nat} (h : i < xs.length) (d : α) : idx xs i = .ok (xs.getD i d) := by
  rw [idx_ok h]; simp [h]

theorem verifyLayers_iff (hc : GoodCircuit c) (k m : Nat) (hk : 1 ≤ k) (inputs : List (List F))
    (hs1 : c.layers.length ≤ proof.sumcheckProofs.length) (hs2 : c.layers.length ≤ proof.claimsLeft.length)
    (hs3 : c.layers.length ≤ proof.claimsRight.length)
    (hin : ∀ l0 : Layer F, c.layers[0]? = some l0 → WellChunked k (l0.bGInputs + m) inputs) (layer : Nat) :
    ∀ (l l0 : Layer F) (v : SumcheckVerdict F), c.layers[layer]? = some l → c.layers[0]? = some l0 →
    2 * l.bGInputs + (m + k) ≤ (msgOf proof layer).rounds.length → IsVerdict H l.bGInputs (msgOf proof layer) v →
    (verifyLayers H c proof inputs layer v = .ok true ↔
      AcceptsBelow H c proof top (m + k) (interleave (2 ^ k) (2 ^ (l0.bGInputs + m)) inputs) layer) := by
  induction layer with
  | zero =>
    intro l l0 v hl hl0 hlen ⟨v1, v2, v3⟩
    rw [hl] at hl0
    obtain rfl := Option.some.inj hl0
    have hpos : 0 < c.layers.length := (List.getElem?_eq_some_iff.1 hl).1
    have hA : AcceptsBelow H c proof top (m + k) (interleave (2 ^ k) (2 ^ (l.bGInputs + m)) inputs) 0 ↔
        InputsOk H l.bGInputs (m + k) (interleave (2 ^ k) (2 ^ (l.bGInputs + m)) inputs) (msgOf proof 0) := by
      unfold AcceptsBelow
      constructor
      · rintro (⟨_, h⟩ | ⟨i, hi, _⟩)
        · exact h l hl
        · omega
      · intro h
        refine .inl ⟨fun i hi => by omega, fun l' hl' => ?_⟩
        rw [hl] at hl'
        obtain rfl := Option.some.inj hl'
        exact h
    rw [hA, verifyLayers]
    unfold verifyInputs InputsOk
    have lL := Msg.qL_length (H := H) (show 2 * l.bGInputs ≤ (msgOf proof 0).rounds.length by omega)
    have lR := Msg.qR_length (H := H) (show 2 * l.bGInputs ≤ (msgOf proof 0).rounds.length by omega)
    have lN := Msg.qN_length (H := H) (g := l.bGInputs) (a := msgOf proof 0)
    have hw := hin l hl
    rw [v1, v2, v3]
    by_cases hn : ((msgOf proof 0).qN H l.bGInputs).length = m + k
    · rw [C07_evaluateMixedChunked_partial k m hk inputs _ _ _ (by omega) hn (by rw [lL]; exact hw)]
      unfold evaluateLeftAndRight
      rw [lL, evaluate_eq, evaluate_eq]
      · simp only [ok_bind, go_pure]
        rw [idx_getD (by omega) 0, idx_getD (by omega) 0]
        simp only [ok_bind]
        change _ ↔ _ ∧ _ = (msgOf proof 0).left ∧ _ = (msgOf proof 0).right
        change (if _ ≠ (msgOf proof 0).left ∨ _ ≠ (msgOf proof 0).right then _ else _) = _ ↔ _
        split_ifs with h
        · constructor
          · intro h2; cases h2
          · rintro ⟨_, a, b⟩
            rcases h with h | h
            · exact absurd a h
            · exact absurd b h
        · push Not at h
          exact ⟨fun _ => ⟨hn, h⟩, fun _ => rfl⟩
      · simp [interleave, pow_add, lR, hn]; ring
      · simp [interleave, pow_add, lL, hn]; ring
    · obtain ⟨e, he⟩ := mixed_too_long k (l.bGInputs + m) hk inputs hw ((msgOf proof 0).qN H l.bGInputs)
        ((msgOf proof 0).qL H l.bGInputs) ((msgOf proof 0).qR H l.bGInputs) (by omega) (by omega)
      rw [he]
      constructor
      · intro h; cases h
      · intro h; exact absurd h.1 hn
  | succ layer ih =>
    intro l l0 v hl hl0 hlen ⟨v1, v2, v3⟩
    have hlt : layer + 1 < c.layers.length := (List.getElem?_eq_some_iff.1 hl).1
    obtain ⟨l', hl'⟩ : ∃ l', c.layers[layer]? = some l' := ⟨_, List.getElem?_eq_getElem (by omega)⟩
    have hgl := hc.good l' (List.mem_of_getElem? hl')
    have hbG := hc.chained layer l' l hl' hl
    have hgoal : goalOf H c.layers proof top layer = goalBelow H l.bGInputs (msgOf proof (layer + 1)) := by
      unfold goalOf; rw [hl]
    have lL := Msg.qL_length (H := H) (show 2 * l.bGInputs ≤ (msgOf proof (layer + 1)).rounds.length by omega)
    have lR := Msg.qR_length (H := H) (show 2 * l.bGInputs ≤ (msgOf proof (layer + 1)).rounds.length by omega)
    have lN := Msg.qN_length (H := H) (g := l.bGInputs) (a := msgOf proof (layer + 1))
    have hR : LayerRounds H c proof top layer ↔ RoundChecks H l' (goalOf H c.layers proof top layer) (msgOf proof layer) := by
      unfold LayerRounds
      refine ⟨fun h => h l' hl', fun h l'' h'' => ?_⟩
      rw [hl'] at h''
      obtain rfl := Option.some.inj h''
      exact h
    have hV : LayerValue H c proof top layer ↔ ValueCheck H l' (goalOf H c.layers proof top layer) (msgOf proof layer) := by
      unfold LayerValue
      refine ⟨fun h => h l' hl', fun h l'' h'' => ?_⟩
      rw [hl'] at h''
      obtain rfl := Option.some.inj h''
      exact h
    rw [acceptsBelow_succ, hR, hV, verifyLayers, idx_getD (by omega) 0, ok_bind, idx_getD (by omega) 0, ok_bind,
      idx_getD (by omega) [], ok_bind, idx_some hl', ok_bind]
    set a := msgOf proof (layer + 1) with ha
    set b := msgOf proof layer with hb
    set t := goalOf H c.layers proof top layer with ht
    have eL : proof.claimsLeft.getD (layer + 1) 0 = a.left := rfl
    have eR : proof.claimsRight.getD (layer + 1) 0 = a.right := rfl
    have eS : proof.sumcheckProofs.getD layer [] = b.rounds := rfl
    have eC : a.right * H [a.left, a.right] + a.left = t.claim := by
      rw [hgoal]; unfold goalBelow; ring
    have eP : t.point = a.qN H l.bGInputs := by rw [hgoal]; rfl
    have eW : t.weight = fun O => chi (a.qL H l.bGInputs) O + H [a.left, a.right] * chi (a.qR H l.bGInputs) O := by
      rw [hgoal]; rfl
    rw [eL, eR, eS]
    rw [eC]
    rcases sumcheck_cases H l' t b with ⟨hok, w, hw, ⟨w1, w2, w3⟩, hfc⟩ | ⟨hno, ⟨e, he⟩ | he | ⟨w, hw, hwl⟩⟩
    · have hlen' : 2 * l'.bGInputs + (m + k) ≤ b.rounds.length := by
        have := hok.2.1
        rw [eP] at this
        omega
      have kL := Msg.qL_length (H := H) (show 2 * l'.bGInputs ≤ b.rounds.length by omega)
      have kR := Msg.qR_length (H := H) (show 2 * l'.bGInputs ≤ b.rounds.length by omega)
      have kN := Msg.qN_length (H := H) (g := l'.bGInputs) (a := b)
      rw [hw, ok_bind]
      dsimp only
      have hev : v.qPrime.length ≤ w.qPrime.length := by
        rw [v3, w3]
        have := hok.2.1
        rw [eP] at this
        omega
      rw [evalEq_eq _ _ hev, ok_bind, idx_getD (by omega) 0, ok_bind, idx_getD (by omega) 0, ok_bind]
      change (evaluateStaticTablesLinCombs l' v.qL v.qR w.qL w.qR 1 (H [a.left, a.right]) >>= fun statics =>
        evaluateCombinator b.left b.right (eqPoly v.qPrime w.qPrime) l'.gates statics >>= fun comb =>
        if w.finalClaim ≠ comb then pure true else verifyLayers H c proof inputs layer w) = _ ↔ _
      rw [← bind_assoc, combinator_below hgl v.qL v.qR w.qL w.qR (by rw [v1]; omega) (by rw [v2]; omega)
        (by rw [w1]; omega) (by rw [w2]; omega), ok_bind]
      have hval : w.finalClaim = eqPoly v.qPrime w.qPrime * wiringValue l'.wires
          (fun O => chi v.qL O + H [a.left, a.right] * chi v.qR O) w.qL w.qR b.left b.right ↔ ValueCheck H l' t b := by
        unfold ValueCheck
        rw [hfc, eP, eW, v1, v2, v3, w1, w2, w3]
      by_cases hv : ValueCheck H l' t b
      · rw [if_neg (not_not.2 (hval.2 hv)), ih l' l0 w hl' hl0 hlen' ⟨w1, w2, w3⟩]
        exact ⟨fun h => ⟨hok, fun _ => h⟩, fun h => h.2 hv⟩
      · rw [if_pos (fun h => hv (hval.1 h))]
        exact ⟨fun _ => ⟨hok, fun h => absurd h hv⟩, fun _ => rfl⟩
    · rw [he]
      exact ⟨fun h => (by cases h), fun h => absurd h.1 hno⟩
    · rw [he]
      exact ⟨fun h => (by cases h), fun h => absurd h.1 hno⟩
    · rw [hw, ok_bind]
      dsimp only
      rw [evalEq_err _ _ (by rw [v3, ← eP]; exact hwl)]
      exact ⟨fun h => (by cases h), fun h => absurd h.1 hno⟩

theorem gkrVerify_iff (hne : c.layers ≠ []) (hc : GoodCircuit c) (k m : Nat) (hk : 1 ≤ k) (inputs outputs : List (List F))
    (hin : ∀ l0 : Layer F, c.layers[0]? = some l0 → WellChunked k (l0.bGInputs + m) inputs)
    (l0 ln : Layer F) (hl0 : c.layers[0]? = some l0) (hln : c.layers[c.layers.length - 1]? = some ln)
    (hout : WellChunked k (ln.bGOutputs + m) outputs) :
    gkrVerify H (m + k) c proof inputs outputs = .ok true ↔
      HasShape c proof ∧
      LayerRounds H c proof (initialGoal (m + k) ln.bGOutputs (interleave (2 ^ k) (2 ^ (ln.bGOutputs + m)) outputs)) (c.layers.length - 1) ∧
      LayerValue H c proof (initialGoal (m + k) ln.bGOutputs (interleave (2 ^ k) (2 ^ (ln.bGOutputs + m)) outputs)) (c.layers.length - 1) ∧
      AcceptsBelow H c proof (initialGoal (m + k) ln.bGOutputs (interleave (2 ^ k) (2 ^ (ln.bGOutputs + m)) outputs)) (m + k)
        (interleave (2 ^ k) (2 ^ (l0.bGInputs + m)) inputs) (c.layers.length - 1) := by
  have hpos : 0 < c.layers.length := List.length_pos_of_ne_nil hne
  set n := c.layers.length - 1 with hn
  have hgl := hc.good ln (List.mem_of_getElem? hln)
  set top := initialGoal (m + k) ln.bGOutputs (interleave (2 ^ k) (2 ^ (ln.bGOutputs + m)) outputs) with htop
  set q' : List F := (getInitialQPrimeAndQ (m + k) ln.bGOutputs).1 with hq'
  set q : List F := (getInitialQPrimeAndQ (m + k) ln.bGOutputs).2 with hq
  have lq' : q'.length = m + k := by simp [hq', getInitialQPrimeAndQ]
  have lq : q.length = ln.bGOutputs := by simp [hq, getInitialQPrimeAndQ]
  have tP : top.point = q' := rfl
  have tW : top.weight = chi q := rfl
  have tC : top.claim = mle (interleave (2 ^ k) (2 ^ (ln.bGOutputs + m)) outputs) (q ++ q') := rfl
  have hgoal : goalOf H c.layers proof top n = top := by
    unfold goalOf
    rw [List.getElem?_eq_none (by omega)]
  have hR : LayerRounds H c proof top n ↔ RoundChecks H ln top (msgOf proof n) := by
    unfold LayerRounds
    rw [hgoal]
    refine ⟨fun h => h ln hln, fun h l'' h'' => ?_⟩
    rw [hln] at h''
    obtain rfl := Option.some.inj h''
    exact h
  have hV : LayerValue H c proof top n ↔ ValueCheck H ln top (msgOf proof n) := by
    unfold LayerValue
    rw [hgoal]
    refine ⟨fun h => h ln hln, fun h l'' h'' => ?_⟩
    rw [hln] at h''
    obtain rfl := Option.some.inj h''
    exact h
  have hidxP : idxPred c.layers c.layers.length = .ok ln := by
    unfold idxPred; rw [if_neg (by omega)]; exact idx_some hln
  have hev : evaluateChunked outputs (q ++ q') = .ok top.claim := by
    rw [tC, C07_evaluateChunked_partial k (ln.bGOutputs + m) hk outputs hout (q ++ q') (by simp [lq, lq']; omega), evaluate_eq]
    rw [List.length_append, lq, lq']
    simp [interleave, ← pow_add]; omega
  rw [hR, hV]
  unfold gkrVerify
  dsimp only
  rw [hidxP, ok_bind]
  change (evaluateChunked outputs (q ++ q') >>= _) = _ ↔ _
  rw [hev, ok_bind]
  by_cases s1 : c.layers.length ≤ proof.sumcheckProofs.length
  swap
  · rw [idx_err (by omega)]
    exact ⟨fun h => (by cases h), fun h => absurd h.1.1 s1⟩
  rw [idx_getD (by omega) [], ok_bind]
  change (sumcheckVerify H top.claim (msgOf proof n).rounds ln.bGInputs >>= _) = _ ↔ _
  rcases sumcheck_cases H ln top (msgOf proof n) with ⟨hok, w, hw, ⟨w1, w2, w3⟩, hfc⟩ | ⟨hno, ⟨e, he⟩ | he | ⟨w, hw, hwl⟩⟩
  · have hlen' : 2 * ln.bGInputs + (m + k) ≤ (msgOf proof n).rounds.length := by
      have := hok.2.1
      rw [tP] at this
      omega
    have kL := Msg.qL_length (H := H) (show 2 * ln.bGInputs ≤ (msgOf proof n).rounds.length by omega)
    have kR := Msg.qR_length (H := H) (show 2 * ln.bGInputs ≤ (msgOf proof n).rounds.length by omega)
    have kN := Msg.qN_length (H := H) (g := ln.bGInputs) (a := msgOf proof n)
    rw [hw, ok_bind]
    dsimp only
    change (evalEq q' w.qPrime >>= _) = _ ↔ _
    rw [evalEq_eq _ _ (by rw [w3]; omega), ok_bind]
    by_cases s2 : c.layers.length ≤ proof.claimsLeft.length
    swap
    · rw [idx_err (by omega)]
      exact ⟨fun h => (by cases h), fun h => absurd h.1.2.1 s2⟩
    by_cases s3 : c.layers.length ≤ proof.claimsRight.length
    swap
    · rw [idx_getD (by omega) 0, ok_bind, idx_err (by omega)]
      exact ⟨fun h => (by cases h), fun h => absurd h.1.2.2 s3⟩
    rw [idx_getD (by omega) 0, ok_bind, idx_getD (by omega) 0, ok_bind]
    change (evaluateStaticTables ln q w.qL w.qR >>= fun statics =>
      evaluateCombinator (msgOf proof n).left (msgOf proof n).right (eqPoly q' w.qPrime) ln.gates statics >>= fun comb =>
      if w.finalClaim ≠ comb then pure false else verifyLayers H c proof inputs n w) = _ ↔ _
    rw [← bind_assoc, combinator_top hgl q w.qL w.qR lq (by rw [w1]; omega) (by rw [w2]; omega), ok_bind]
    have hval : w.finalClaim = eqPoly q' w.qPrime * wiringValue ln.wires (chi q) w.qL w.qR (msgOf proof n).left
        (msgOf proof n).right ↔ ValueCheck H ln top (msgOf proof n) := by
      unfold ValueCheck
      rw [hfc, tP, tW, w1, w2, w3]
    by_cases hv : ValueCheck H ln top (msgOf proof n)
    · rw [if_neg (not_not.2 (hval.2 hv)),
        verifyLayers_iff H c proof top hc k m hk inputs s1 s2 s3 hin n ln l0 w hln hl0 hlen' ⟨w1, w2, w3⟩]
      exact ⟨fun h => ⟨⟨s1, s2, s3⟩, hok, hv, h⟩, fun h => h.2.2.2⟩
    · rw [if_pos (fun h => hv (hval.1 h))]
      exact ⟨fun h => (by cases h), fun h => absurd h.2.2.1 hv⟩
  · rw [he]
    exact ⟨fun h => (by cases h), fun h => absurd h.2.1 hno⟩
  · rw [he]
    exact ⟨fun h => (by cases h), fun h => absurd h.2.1 hno⟩
  · rw [hw, ok_bind]
    dsimp only
    change (evalEq q' w.qPrime >>= _) = _ ↔ _
    rw [evalEq_err _ _ (by rw [← tP]; exact hwl)]
    exact ⟨fun h => (by cases h), fun h => absurd h.2.1 hno⟩

omit H c proof top

theorem goalSummand_eq {l : Layer F} (hl : GoodLayer l) (V : List F) (t : Goal F) (x : List F)
    (hx : x.length = 2 * l.bGInputs + t.point.length) :
    goalSummand l V t x = summand l.gates l.bGInputs V V (tab (2 ^ t.point.length) (chi t.point))
      (l.gates.map fun g => tab (2 ^ (2 * l.bGInputs)) (staticW l.wires g.id t.weight l.bGInputs)) x := by
  have h1 : (x.take l.bGInputs).length = l.bGInputs := by simp; omega
  have h2 : ((x.drop l.bGInputs).take l.bGInputs).length = l.bGInputs := by simp; omega
  have h3 : (x.drop (2 * l.bGInputs)).length = t.point.length := by simp; omega
  unfold goalSummand summand
  dsimp only
  have e1 : mle (tab (2 ^ t.point.length) (chi t.point)) (x.drop (2 * l.bGInputs)) =
      eqPoly t.point (x.drop (2 * l.bGInputs)) := by
    rw [← h3, mle_tab, mleF_chi _ _ h3]
  have e2 : ((l.gates.map fun g => tab (2 ^ (2 * l.bGInputs)) (staticW l.wires g.id t.weight l.bGInputs)).map
      fun u => mle u (x.take (2 * l.bGInputs))) = l.gates.map fun g => mleF (staticW l.wires g.id t.weight l.bGInputs)
        (x.take l.bGInputs ++ (x.drop l.bGInputs).take l.bGInputs) := by
    rw [List.map_map]
    apply List.map_congr_left
    intro g _
    have : x.take l.bGInputs ++ (x.drop l.bGInputs).take l.bGInputs = x.take (2 * l.bGInputs) := by
      rw [two_mul, List.take_add]
    rw [this]
    have h4 : 2 * l.bGInputs = (x.take (2 * l.bGInputs)).length := by simp; omega
    rw [Function.comp, show 2 ^ (2 * l.bGInputs) = 2 ^ (x.take (2 * l.bGInputs)).length by rw [← h4], mle_tab]
  rw [e1, e2, combinator_wiring hl _ _ _ h1 h2]

theorem cubeSum_congr (n : Nat) : ∀ (f g : List F → F), (∀ b, b.length = n → f b = g b) → cubeSum n f = cubeSum n g := by
  induction n with
  | zero => intro f g h; exact h [] rfl
  | succ n ih =>
    intro f g h
    unfold cubeSum
    rw [ih _ (fun b => g (0 :: b)) (fun b hb => h _ (by simp [hb])),
      ih _ (fun b => g (1 :: b)) (fun b hb => h _ (by simp [hb]))]

theorem cubeSum_goal {l : Layer F} (hl : GoodLayer l) (V : List F) (t : Goal F) :
    cubeSum (2 * l.bGInputs + t.point.length) (goalSummand l V t) =
      hypercubeSum l.gates t.point.length l.bGInputs V V (tab (2 ^ t.point.length) (chi t.point))
        (l.gates.map fun g => tab (2 ^ (2 * l.bGInputs)) (staticW l.wires g.id t.weight l.bGInputs)) := by
  rw [← cubeSum_summand]
  exact cubeSum_congr _ _ _ (fun b hb => goalSummand_eq hl V t b hb)

/-- All gates have degrees at most `D`. -/
def DegreesLe (D : Nat) (gates : List (Gate F)) : Prop := ∀ g ∈ gates, g.degHL ≤ D ∧ g.degHR ≤ D ∧ g.degHPrime ≤ D

theorem summandDeg_le {D : Nat} {gates : List (Gate F)} (h : DegreesLe D gates) (bG i : Nat) :
    summandDeg gates bG i ≤ D + 1 := by
  have h1 := foldl_max_le (fun g : Gate F => g.degHL) D gates 0 (by omega) (fun g hg => (h g hg).1)
  have h2 := foldl_max_le (fun g : Gate F => g.degHR) D gates 0 (by omega) (fun g hg => (h g hg).2.1)
  have h3 := foldl_max_le (fun g : Gate F => g.degHPrime) D gates 0 (by omega) (fun g hg => (h g hg).2.2)
  unfold summandDeg degL degR degP
  split_ifs <;> omega

/-- One layer: from a wrong goal to a wrong claim about its inputs, or an unlucky challenge. -/
theorem layer_sound (H : List F → F) {l : Layer F} (hl : GoodLayer l) (V : List F) (t : Goal F) (a : Msg F) (D : Nat)
    (hD : DegreesLe D l.gates) (hr : RoundChecks H l t a) (hv : ValueCheck H l t a)
    (hlen : a.rounds.length = 2 * l.bGInputs + t.point.length)
    (hwrong : t.claim ≠ cubeSum (2 * l.bGInputs + t.point.length) (goalSummand l V t)) :
    BadRound H l V t a (D + 1) ∨ ¬ (a.left = mle V (a.qL H l.bGInputs ++ a.qN H l.bGInputs) ∧
      a.right = mle V (a.qR H l.bGInputs ++ a.qN H l.bGInputs)) := by
  by_cases hc : a.left = mle V (a.qL H l.bGInputs ++ a.qN H l.bGInputs) ∧
      a.right = mle V (a.qR H l.bGInputs ++ a.qN H l.bGInputs)
  swap
  · exact .inr hc
  left
  apply sound_core H a.rounds (goalSummand l V t) (fun _ => D + 1) t.claim
  · intro pre hpre
    have := (PolyLe.cubeSum (a.rounds.length - 1 - pre.length) (fun x b => summand l.gates l.bGInputs V V
      (tab (2 ^ t.point.length) (chi t.point)) (l.gates.map fun g => tab (2 ^ (2 * l.bGInputs))
        (staticW l.wires g.id t.weight l.bGInputs)) (pre ++ x :: b))
      (fun b _ => summand_poly l.gates hl.lawful l.bGInputs V V _ _ pre b)).mono (summandDeg_le hD _ _)
    refine (congrArg (PolyLe (D + 1)) ?_).mp this
    funext x
    apply cubeSum_congr
    intro b hb
    rw [goalSummand_eq hl]
    simp [hb]; omega
  · rw [hlen]; exact hwrong
  · exact hr.2.2
  · rw [show lastValue H a.rounds t.claim = _ from hv]
    unfold goalSummand
    rw [hc.1, hc.2]
    rfl

/-- The true values of the layers of an honest assignment satisfy the goals that they get. -/
theorem goal_top {l : Layer F} (hl : GoodLayer l) (V : List F) (bN : Nat) (q q' : List F) (cl : F)
    (hq : q.length = l.bGOutputs) (hq' : q'.length = bN) :
    cubeSum (2 * l.bGInputs + bN) (goalSummand l V ⟨cl, q', chi q⟩) =
      mle (wiredOutputs l.wires (2 ^ bN) (2 ^ l.bGOutputs) V) (q ++ q') := by
  have := cubeSum_goal hl V ⟨cl, q', chi q⟩
  dsimp only at this
  rw [hq'] at this
  rw [this, ← hypercubeSum_layer l hl.inRange hl.listed bN V q q' hq hq', hq']
  rfl

theorem goal_below {l : Layer F} (hl : GoodLayer l) (V : List F) (bN : Nat) (qL qR q' : List F) (cl lam : F)
    (hqL : qL.length = l.bGOutputs) (hqR : qR.length = l.bGOutputs) (hq' : q'.length = bN) :
    cubeSum (2 * l.bGInputs + bN) (goalSummand l V ⟨cl, q', fun O => chi qL O + lam * chi qR O⟩) =
      mle (wiredOutputs l.wires (2 ^ bN) (2 ^ l.bGOutputs) V) (qL ++ q') +
        lam * mle (wiredOutputs l.wires (2 ^ bN) (2 ^ l.bGOutputs) V) (qR ++ q') := by
  have := cubeSum_goal hl V ⟨cl, q', fun O => chi qL O + lam * chi qR O⟩
  dsimp only at this
  rw [hq'] at this
  have e := hypercubeSum_layer2 hl bN V qL qR q' hqL hqR hq' lam
  simp only [staticF_eq_W, staticW_comb, hq'] at e
  rw [this, e]
  ring

/-- The values of layer `i` as one table. -/
def tableOf (k m : Nat) (l : Layer F) (v : List (List F)) : List F := interleave (2 ^ k) (2 ^ (l.bGInputs + m)) v

/-- From a wrong goal at layer `n`, an unlucky challenge at or below `n`. -/
theorem sound_down (H : List F → F) (c : Circuit F) (proof : GkrProof F) (top : Goal F) (k m : Nat)
    (values : List (List (List F))) (hA : HonestAssignment c k m values) (inputs : List (List F))
    (hin : values[0]? = some inputs) (l0 : Layer F) (hl0 : c.layers[0]? = some l0) (D : Nat)
    (hD : ∀ l ∈ c.layers, DegreesLe D l.gates)
    (hG : GkrConsistent H (m + k) c.layers proof (tableOf k m l0 inputs) top)
    (hlen : ∀ (i : Nat) (l : Layer F), c.layers[i]? = some l → (msgOf proof i).rounds.length = 2 * l.bGInputs + (m + k))
    (hpt : ∀ (i : Nat) (l : Layer F), c.layers[i]? = some l → (goalOf H c.layers proof top i).point.length = m + k)
    (n : Nat) : ∀ (l : Layer F) (v : List (List F)), c.layers[n]? = some l → values[n]? = some v →
    (goalOf H c.layers proof top n).claim ≠ cubeSum (2 * l.bGInputs + (m + k))
      (goalSummand l (tableOf k m l v) (goalOf H c.layers proof top n)) →
    ∃ (i : Nat) (l : Layer F) (v : List (List F)), c.layers[i]? = some l ∧ values[i]? = some v ∧
      (BadRound H l (tableOf k m l v) (goalOf H c.layers proof top i) (msgOf proof i) (D + 1) ∨
        BadCombination H l.bGInputs (tableOf k m l v) (msgOf proof i)) := by
  induction n with
  | zero =>
    intro l v hl hv hw
    rw [hl] at hl0
    obtain rfl := Option.some.inj hl0
    rw [hv] at hin
    obtain rfl := Option.some.inj hin
    obtain ⟨h1, h2⟩ := hG.each 0 l hl
    have hp := hpt 0 l hl
    rcases layer_sound H (hA.good l (List.mem_of_getElem? hl)) (tableOf k m l v) _ _ D (hD l (List.mem_of_getElem? hl))
      h1 h2 (by rw [hp]; exact hlen 0 l hl) (by rw [hp]; exact hw) with h | h
    · exact ⟨0, l, v, hl, hv, .inl h⟩
    · obtain ⟨_, i1, i2⟩ := hG.first l hl
      exact absurd ⟨i1.symm, i2.symm⟩ h
  | succ n ih =>
    intro l v hl hv hw
    obtain ⟨h1, h2⟩ := hG.each (n + 1) l hl
    have hp := hpt (n + 1) l hl
    rcases layer_sound H (hA.good l (List.mem_of_getElem? hl)) (tableOf k m l v) _ _ D (hD l (List.mem_of_getElem? hl))
      h1 h2 (by rw [hp]; exact hlen _ l hl) (by rw [hp]; exact hw) with h | h
    · exact ⟨n + 1, l, v, hl, hv, .inl h⟩
    by_cases hbad : BadCombination H l.bGInputs (tableOf k m l v) (msgOf proof (n + 1))
    · exact ⟨n + 1, l, v, hl, hv, .inr hbad⟩
    have hlt : n + 1 < c.layers.length := (List.getElem?_eq_some_iff.1 hl).1
    obtain ⟨l', hl'⟩ : ∃ l', c.layers[n]? = some l' := ⟨_, List.getElem?_eq_getElem (by omega)⟩
    obtain ⟨v', hv'⟩ : ∃ v', values[n]? = some v' := ⟨_, List.getElem?_eq_getElem (by rw [hA.lengths]; omega)⟩
    apply ih l' v' hl' hv'
    have hgl := hA.good l' (List.mem_of_getElem? hl')
    have hbG := hA.chained n l' l hl' hl
    have hgoal : goalOf H c.layers proof top n = goalBelow H l.bGInputs (msgOf proof (n + 1)) := by
      unfold goalOf; rw [hl]
    have hwv := hA.wired n l' v' hl' hv'
    rw [hv] at hwv
    have hwv := Option.some.inj hwv
    have hVV : tableOf k m l v = wiredOutputs l'.wires (2 ^ (m + k)) (2 ^ l'.bGOutputs) (tableOf k m l' v') := by
      unfold tableOf
      rw [hwv, ← hbG]
      exact interleave_wired l'.wires k m l'.bGInputs l'.bGOutputs v' (hA.chunked n l' v' hl' hv')
        (fun w hw => ⟨(hgl.inRange w hw).1, (hgl.inRange w hw).2.1⟩)
    have hrl := hlen (n + 1) l hl
    rw [hgoal]
    unfold goalBelow
    rw [goal_below hgl (tableOf k m l' v') (m + k) _ _ _ _ _
      (by rw [Msg.qL_length (by omega), hbG]) (by rw [Msg.qR_length (by omega), hbG]) (by rw [Msg.qN_length]; omega), ← hVV]
    intro heq
    apply hbad
    unfold BadCombination
    refine ⟨?_, ?_⟩
    · rintro ⟨e1, e2⟩
      exact h ⟨sub_eq_zero.1 e1, sub_eq_zero.1 e2⟩
    · linear_combination heq

end GkrMimc
