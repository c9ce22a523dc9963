import Verif.Props.GkrUntrusted

/-! Property C24: exactly which proofs make `Verify` panic. -/

set_option linter.unusedSectionVars false

namespace GkrMimc

open Spec

variable {F : Type} [Field F] [DecidableEq F]

/-- The loop of the sumcheck verifier panics exactly at an empty polynomial reached by consistent rounds. -/
theorem loop_error_iff (H : List F → F) (cs : List (List F)) : ∀ x : F,
    (∃ e, sumcheckVerifyLoop H cs x = .error e) ↔
      ∃ j, cs[j]? = some [] ∧ (∀ p ∈ cs.take j, p ≠ []) ∧ Consistent H (cs.take j) x := by
  induction cs with
  | nil => intro x; simp [sumcheckVerifyLoop]
  | cons c cs ih =>
    intro x
    by_cases hc : c = []
    · subst hc
      exact ⟨fun _ => ⟨0, rfl, by simp, trivial⟩, fun _ => ⟨_, rfl⟩⟩
    rw [sumcheckVerifyLoop, evaluatePolynomial_polyOf c hc, ok_bind, evaluatePolynomial_polyOf c hc, ok_bind]
    by_cases hx : (polyOf c).eval 0 + (polyOf c).eval 1 = x
    · rw [if_neg (by simp [hx])]
      dsimp only
      rw [evaluatePolynomial_polyOf c hc, ok_bind]
      have h1 : (∃ e, (sumcheckVerifyLoop H cs ((polyOf c).eval (H c)) >>= fun rest =>
          pure (rest.map fun y => (H c :: y.1, y.2))) = Except.error e) ↔
          ∃ e, sumcheckVerifyLoop H cs ((polyOf c).eval (H c)) = .error e := by
        cases sumcheckVerifyLoop H cs ((polyOf c).eval (H c)) with
        | error e => exact ⟨fun _ => ⟨_, rfl⟩, fun _ => ⟨_, rfl⟩⟩
        | ok o => exact ⟨fun ⟨e, h⟩ => (by cases h), fun ⟨e, h⟩ => (by cases h)⟩
      refine h1.trans ((ih _).trans ⟨?_, ?_⟩)
      · rintro ⟨j, a, b, d⟩
        refine ⟨j + 1, a, ?_, hx, d⟩
        intro p hp
        rcases List.mem_cons.1 hp with rfl | hp
        · exact hc
        · exact b p hp
      · rintro ⟨j, a, b, d⟩
        cases j with
        | zero => exact absurd (Option.some.inj a) hc
        | succ j => exact ⟨j, a, fun p hp => b p (List.mem_cons_of_mem _ hp), d.2⟩
    · rw [if_pos (fun h => hx h.symm)]
      constructor
      · rintro ⟨e, h⟩; cases h
      · rintro ⟨j, a, b, d⟩
        cases j with
        | zero => exact absurd (Option.some.inj a) hc
        | succ j => exact absurd d.1 hx

/-- The sumcheck verifier has three results: the rounds hold; they can not be evaluated; the answer is `false`. -/
theorem sumcheck_cases3 (H : List F → F) (l : Layer F) (t : Goal F) (a : Msg F) :
    (RoundChecks H l t a ∧ ¬ RoundsBroken H l t a ∧ ∃ v, sumcheckVerify H t.claim a.rounds l.bGInputs = .ok (some v) ∧
      IsVerdict H l.bGInputs a v ∧ v.finalClaim = lastValue H a.rounds t.claim) ∨
    (¬ RoundChecks H l t a ∧ RoundsBroken H l t a ∧ ((∃ e, sumcheckVerify H t.claim a.rounds l.bGInputs = .error e) ∨
      ∃ v, sumcheckVerify H t.claim a.rounds l.bGInputs = .ok (some v) ∧ v.qPrime.length < t.point.length)) ∨
    (¬ RoundChecks H l t a ∧ ¬ RoundsBroken H l t a ∧ sumcheckVerify H t.claim a.rounds l.bGInputs = .ok none) := by
  have hex : RoundChecks H l t a → ¬ RoundsBroken H l t a := by
    rintro ⟨h1, h2, _⟩ (⟨j, hj, _⟩ | ⟨_, _, hlt⟩)
    · exact h1 _ (List.mem_of_getElem? hj) rfl
    · omega
  rcases sumcheck_cases H l t a with ⟨h, w⟩ | ⟨h, ⟨e, he⟩ | he | ⟨v, hv, hvl⟩⟩
  · exact .inl ⟨h, hex h, w⟩
  · refine .inr (.inl ⟨h, ?_, .inl ⟨e, he⟩⟩)
    unfold sumcheckVerify at he
    cases hr : sumcheckVerifyLoop H a.rounds t.claim with
    | error e' => exact .inl ((loop_error_iff H a.rounds t.claim).1 ⟨e', hr⟩)
    | ok o =>
      rw [hr, ok_bind] at he
      cases o with
      | none => cases he
      | some x =>
        obtain ⟨qs, fc⟩ := x
        obtain ⟨h1, h2, _, _⟩ := (loop_some_iff H _ _ _ _).1 hr
        refine .inr ⟨h1, h2, ?_⟩
        by_contra hlt
        exact h ⟨h1, by omega, h2⟩
  · refine .inr (.inr ⟨h, ?_, he⟩)
    unfold sumcheckVerify at he
    rintro (hb | ⟨h1, h2, h3⟩)
    · obtain ⟨e, hr⟩ := (loop_error_iff H a.rounds t.claim).2 hb
      rw [hr] at he
      cases he
    · rw [(loop_some_iff H _ _ _ _).2 ⟨h1, h2, rfl, rfl⟩, ok_bind] at he
      dsimp only at he
      revert he
      cases sliceTo (a.rounds.map H) l.bGInputs with
      | error e => intro he; cases he
      | ok x =>
        cases sliceBetween (a.rounds.map H) l.bGInputs (2 * l.bGInputs) with
        | error e => intro he; cases he
        | ok y =>
          cases sliceFrom (a.rounds.map H) (2 * l.bGInputs) with
          | error e => intro he; cases he
          | ok z => intro he; cases he
  · refine .inr (.inl ⟨h, ?_, .inr ⟨v, hv, hvl⟩⟩)
    obtain ⟨h1, h2, h3, _, _, h6, _⟩ := (C17_accepts_iff H _ _ _ _).1 hv
    refine .inr ⟨h1, h2, ?_⟩
    rw [h6] at hvl
    simp at hvl
    omega

section
variable (H : List F → F) (c : Circuit F) (proof : GkrProof F) (top : Goal F)

theorem brokenBelow_succ (bN n : Nat) :
    BrokenBelow H c proof top bN (n + 1) ↔ LayerBroken H c proof top n ∨
      (LayerRounds H c proof top n ∧ LayerValue H c proof top n) ∧ BrokenBelow H c proof top bN n := by
  unfold BrokenBelow
  constructor
  · rintro (⟨i, hi, h1, h2⟩ | ⟨h1, h2⟩)
    · rcases Nat.lt_succ_iff_lt_or_eq.1 hi with hi' | rfl
      · exact .inr ⟨h1 n hi' (by omega), .inl ⟨i, hi', fun j a b => h1 j a (by omega), h2⟩⟩
      · exact .inl h2
    · exact .inr ⟨h1 n (by omega), .inr ⟨fun i hi => h1 i (by omega), h2⟩⟩
  · rintro (h | ⟨h, ⟨i, hi, h1, h2⟩ | ⟨h1, h2⟩⟩)
    · exact .inl ⟨n, by omega, fun j a b => by omega, h⟩
    · refine .inl ⟨i, by omega, fun j hj hj2 => ?_, h2⟩
      rcases Nat.lt_succ_iff_lt_or_eq.1 hj2 with hj' | rfl
      · exact h1 j hj hj'
      · exact h
    · refine .inr ⟨fun i hi => ?_, h2⟩
      rcases Nat.lt_succ_iff_lt_or_eq.1 hi with hi' | rfl
      · exact h1 i hi'
      · exact h

theorem verifyLayers_panics_iff (hc : GoodCircuit c) (k m : Nat) (hk : 1 ≤ k) (inputs : List (List F))
    (hs1 : c.layers.length ≤ proof.sumcheckProofs.length) (hs2 : c.layers.length ≤ proof.claimsLeft.length)
    (hs3 : c.layers.length ≤ proof.claimsRight.length)
    (hin : ∀ l0 : Layer F, c.layers[0]? = some l0 → WellChunked k (l0.bGInputs + m) inputs) (layer : Nat) :
    ∀ (l : Layer F) (v : SumcheckVerdict F), c.layers[layer]? = some l →
    2 * l.bGInputs + (m + k) ≤ (msgOf proof layer).rounds.length → IsVerdict H l.bGInputs (msgOf proof layer) v →
    ((∃ e, verifyLayers H c proof inputs layer v = .error e) ↔ BrokenBelow H c proof top (m + k) layer) := by
  induction layer with
  | zero =>
    intro l v hl hlen ⟨v1, v2, v3⟩
    have hpos : 0 < c.layers.length := (List.getElem?_eq_some_iff.1 hl).1
    have hA : BrokenBelow H c proof top (m + k) 0 ↔ ((msgOf proof 0).qN H l.bGInputs).length ≠ m + k := by
      unfold BrokenBelow
      constructor
      · rintro (⟨i, hi, _⟩ | ⟨_, l', hl', h⟩)
        · omega
        · rw [hl] at hl'
          obtain rfl := Option.some.inj hl'
          exact h
      · intro h
        exact .inr ⟨fun i hi => by omega, l, hl, h⟩
    rw [hA, verifyLayers]
    unfold verifyInputs
    have lL := Msg.qL_length (H := H) (show 2 * l.bGInputs ≤ (msgOf proof 0).rounds.length by omega)
    have lR := Msg.qR_length (H := H) (show 2 * l.bGInputs ≤ (msgOf proof 0).rounds.length by omega)
    have lN := Msg.qN_length (H := H) (g := l.bGInputs) (a := msgOf proof 0)
    have hw := hin l hl
    rw [v1, v2, v3]
    by_cases hn : ((msgOf proof 0).qN H l.bGInputs).length = m + k
    · rw [C07_evaluateMixedChunked_partial k m hk inputs _ _ _ (by omega) hn (by rw [lL]; exact hw)]
      unfold evaluateLeftAndRight
      rw [lL, evaluate_eq, evaluate_eq]
      · simp only [ok_bind, go_pure]
        rw [idx_getD (by omega) 0, idx_getD (by omega) 0]
        simp only [ok_bind]
        refine ⟨fun ⟨e, h⟩ => ?_, fun h => absurd hn h⟩
        split_ifs at h
        all_goals cases h
      · simp [interleave, pow_add, lR, hn]; ring
      · simp [interleave, pow_add, lL, hn]; ring
    · obtain ⟨e, he⟩ := mixed_too_long k (l.bGInputs + m) hk inputs hw ((msgOf proof 0).qN H l.bGInputs)
        ((msgOf proof 0).qL H l.bGInputs) ((msgOf proof 0).qR H l.bGInputs) (by omega) (by omega)
      rw [he]
      exact ⟨fun _ => hn, fun _ => ⟨e, rfl⟩⟩
  | succ layer ih =>
    intro l v hl hlen ⟨v1, v2, v3⟩
    have hlt : layer + 1 < c.layers.length := (List.getElem?_eq_some_iff.1 hl).1
    obtain ⟨l', hl'⟩ : ∃ l', c.layers[layer]? = some l' := ⟨_, List.getElem?_eq_getElem (by omega)⟩
    have hgl := hc.good l' (List.mem_of_getElem? hl')
    have hbG := hc.chained layer l' l hl' hl
    have hgoal : goalOf H c.layers proof top layer = goalBelow H l.bGInputs (msgOf proof (layer + 1)) := by
      unfold goalOf; rw [hl]
    have lL := Msg.qL_length (H := H) (show 2 * l.bGInputs ≤ (msgOf proof (layer + 1)).rounds.length by omega)
    have lR := Msg.qR_length (H := H) (show 2 * l.bGInputs ≤ (msgOf proof (layer + 1)).rounds.length by omega)
    have lN := Msg.qN_length (H := H) (g := l.bGInputs) (a := msgOf proof (layer + 1))
    have hR : LayerRounds H c proof top layer ↔ RoundChecks H l' (goalOf H c.layers proof top layer) (msgOf proof layer) := by
      unfold LayerRounds
      refine ⟨fun h => h l' hl', fun h l'' h'' => ?_⟩
      rw [hl'] at h''
      obtain rfl := Option.some.inj h''
      exact h
    have hV : LayerValue H c proof top layer ↔ ValueCheck H l' (goalOf H c.layers proof top layer) (msgOf proof layer) := by
      unfold LayerValue
      refine ⟨fun h => h l' hl', fun h l'' h'' => ?_⟩
      rw [hl'] at h''
      obtain rfl := Option.some.inj h''
      exact h
    have hB : LayerBroken H c proof top layer ↔ RoundsBroken H l' (goalOf H c.layers proof top layer) (msgOf proof layer) := by
      unfold LayerBroken
      refine ⟨fun ⟨l'', h'', h⟩ => ?_, fun h => ⟨l', hl', h⟩⟩
      rw [hl'] at h''
      obtain rfl := Option.some.inj h''
      exact h
    rw [brokenBelow_succ, hR, hV, hB, verifyLayers, idx_getD (by omega) 0, ok_bind, idx_getD (by omega) 0, ok_bind,
      idx_getD (by omega) [], ok_bind, idx_some hl', ok_bind]
    set a := msgOf proof (layer + 1) with ha
    set b := msgOf proof layer with hb
    set t := goalOf H c.layers proof top layer with ht
    have eL : proof.claimsLeft.getD (layer + 1) 0 = a.left := rfl
    have eR : proof.claimsRight.getD (layer + 1) 0 = a.right := rfl
    have eS : proof.sumcheckProofs.getD layer [] = b.rounds := rfl
    have eC : a.right * H [a.left, a.right] + a.left = t.claim := by
      rw [hgoal]; unfold goalBelow; ring
    have eP : t.point = a.qN H l.bGInputs := by rw [hgoal]; rfl
    have eW : t.weight = fun O => chi (a.qL H l.bGInputs) O + H [a.left, a.right] * chi (a.qR H l.bGInputs) O := by
      rw [hgoal]; rfl
    rw [eL, eR, eS]
    rw [eC]
    rcases sumcheck_cases3 H l' t b with ⟨hok, hnb, w, hw, ⟨w1, w2, w3⟩, hfc⟩ | ⟨hno, hbr, ⟨e, he⟩ | ⟨w, hw, hwl⟩⟩ |
      ⟨hno, hnb, he⟩
    · have hlen' : 2 * l'.bGInputs + (m + k) ≤ b.rounds.length := by
        have := hok.2.1
        rw [eP] at this
        omega
      have kL := Msg.qL_length (H := H) (show 2 * l'.bGInputs ≤ b.rounds.length by omega)
      have kR := Msg.qR_length (H := H) (show 2 * l'.bGInputs ≤ b.rounds.length by omega)
      have kN := Msg.qN_length (H := H) (g := l'.bGInputs) (a := b)
      rw [hw, ok_bind]
      dsimp only
      have hev : v.qPrime.length ≤ w.qPrime.length := by
        rw [v3, w3]
        have := hok.2.1
        rw [eP] at this
        omega
      rw [evalEq_eq _ _ hev, ok_bind, idx_getD (by omega) 0, ok_bind, idx_getD (by omega) 0, ok_bind]
      change (∃ e, (evaluateStaticTablesLinCombs l' v.qL v.qR w.qL w.qR 1 (H [a.left, a.right]) >>= fun statics =>
        evaluateCombinator b.left b.right (eqPoly v.qPrime w.qPrime) l'.gates statics >>= fun comb =>
        if w.finalClaim ≠ comb then pure true else verifyLayers H c proof inputs layer w) = _) ↔ _
      rw [← bind_assoc, combinator_below hgl v.qL v.qR w.qL w.qR (by rw [v1]; omega) (by rw [v2]; omega)
        (by rw [w1]; omega) (by rw [w2]; omega), ok_bind]
      have hval : w.finalClaim = eqPoly v.qPrime w.qPrime * wiringValue l'.wires
          (fun O => chi v.qL O + H [a.left, a.right] * chi v.qR O) w.qL w.qR b.left b.right ↔ ValueCheck H l' t b := by
        unfold ValueCheck
        rw [hfc, eP, eW, v1, v2, v3, w1, w2, w3]
      by_cases hv : ValueCheck H l' t b
      · rw [if_neg (not_not.2 (hval.2 hv)), ih l' w hl' hlen' ⟨w1, w2, w3⟩]
        exact ⟨fun h => .inr ⟨⟨hok, hv⟩, h⟩, fun h => h.elim (fun h => absurd h hnb) (·.2)⟩
      · rw [if_pos (fun h => hv (hval.1 h))]
        exact ⟨fun ⟨e, h⟩ => (by cases h), fun h => h.elim (fun h => absurd h hnb) (fun h => absurd h.1.2 hv)⟩
    · rw [he]
      exact ⟨fun _ => .inl hbr, fun _ => ⟨e, rfl⟩⟩
    · rw [hw, ok_bind]
      dsimp only
      rw [evalEq_err _ _ (by rw [v3, ← eP]; exact hwl)]
      exact ⟨fun _ => .inl hbr, fun _ => ⟨_, rfl⟩⟩
    · rw [he]
      exact ⟨fun ⟨e, h⟩ => (by cases h), fun h => h.elim (fun h => absurd h hnb) (fun h => absurd h.1.1 hno)⟩

end

/-- C24, exactly which proofs make `Verify` panic, for every proof, honest or not: there are too few lists of rounds; or the
rounds of the last layer can not be evaluated; or they hold and there are too few claims; or the last layer passes and
some layer below is reached whose rounds can not be evaluated, or the inputs are reached with too long a point. -/
theorem C24_panics_iff (H : List F → F) (wiring : List (List (Wire F))) (hne : wiring ≠ [])
    (hw : ∀ ws ∈ wiring, GoodWires ws) (G k m : Nat) (hk : 1 ≤ k) (hG : Chained G (newCircuit wiring).layers)
    (ln : Layer F) (hln : (newCircuit wiring).layers[(newCircuit wiring).layers.length - 1]? = some ln)
    (inputs outputs : List (List F)) (hin : WellChunked k (G + m) inputs) (hout : WellChunked k (ln.bGOutputs + m) outputs)
    (proof : GkrProof F) :
    (∃ e, gkrVerify H (m + k) (newCircuit wiring) proof inputs outputs = .error e) ↔
      proof.sumcheckProofs.length < wiring.length ∨
      LayerBroken H (newCircuit wiring) proof (outputGoal k m ln outputs) (wiring.length - 1) ∨
      LayerRounds H (newCircuit wiring) proof (outputGoal k m ln outputs) (wiring.length - 1) ∧
        (proof.claimsLeft.length < wiring.length ∨ proof.claimsRight.length < wiring.length ∨
          LayerValue H (newCircuit wiring) proof (outputGoal k m ln outputs) (wiring.length - 1) ∧
          BrokenBelow H (newCircuit wiring) proof (outputGoal k m ln outputs) (m + k) (wiring.length - 1)) := by
  have hne' : (newCircuit wiring).layers ≠ [] := by simpa [newCircuit] using hne
  have hll : wiring.length = (newCircuit wiring).layers.length := by simp [newCircuit]
  have hc := goodCircuit_of hw hG
  have hin' : ∀ l0 : Layer F, (newCircuit wiring).layers[0]? = some l0 → WellChunked k (l0.bGInputs + m) inputs :=
    fun l h => by rw [chained_first hG h]; exact hin
  rw [hll]
  unfold outputGoal
  generalize newCircuit wiring = c at *
  have hpos : 0 < c.layers.length := List.length_pos_of_ne_nil hne'
  set n := c.layers.length - 1 with hn
  have hgl := hc.good ln (List.mem_of_getElem? hln)
  set top := initialGoal (m + k) ln.bGOutputs (interleave (2 ^ k) (2 ^ (ln.bGOutputs + m)) outputs) with htop
  set q' : List F := (getInitialQPrimeAndQ (m + k) ln.bGOutputs).1 with hq'
  set q : List F := (getInitialQPrimeAndQ (m + k) ln.bGOutputs).2 with hq
  have lq' : q'.length = m + k := by simp [hq', getInitialQPrimeAndQ]
  have lq : q.length = ln.bGOutputs := by simp [hq, getInitialQPrimeAndQ]
  have tP : top.point = q' := rfl
  have tW : top.weight = chi q := rfl
  have tC : top.claim = mle (interleave (2 ^ k) (2 ^ (ln.bGOutputs + m)) outputs) (q ++ q') := rfl
  have hgoal : goalOf H c.layers proof top n = top := by
    unfold goalOf
    rw [List.getElem?_eq_none (by omega)]
  have hR : LayerRounds H c proof top n ↔ RoundChecks H ln top (msgOf proof n) := by
    unfold LayerRounds
    rw [hgoal]
    refine ⟨fun h => h ln hln, fun h l'' h'' => ?_⟩
    rw [hln] at h''
    obtain rfl := Option.some.inj h''
    exact h
  have hV : LayerValue H c proof top n ↔ ValueCheck H ln top (msgOf proof n) := by
    unfold LayerValue
    rw [hgoal]
    refine ⟨fun h => h ln hln, fun h l'' h'' => ?_⟩
    rw [hln] at h''
    obtain rfl := Option.some.inj h''
    exact h
  have hB : LayerBroken H c proof top n ↔ RoundsBroken H ln top (msgOf proof n) := by
    unfold LayerBroken
    rw [hgoal]
    refine ⟨fun ⟨l'', h'', h⟩ => ?_, fun h => ⟨ln, hln, h⟩⟩
    rw [hln] at h''
    obtain rfl := Option.some.inj h''
    exact h
  have hidxP : idxPred c.layers c.layers.length = .ok ln := by
    unfold idxPred; rw [if_neg (by omega)]; exact idx_some hln
  have hev : evaluateChunked outputs (q ++ q') = .ok top.claim := by
    rw [tC, C07_evaluateChunked_partial k (ln.bGOutputs + m) hk outputs hout (q ++ q') (by simp [lq, lq']; omega), evaluate_eq]
    rw [List.length_append, lq, lq']
    simp [interleave, ← pow_add]; omega
  rw [hR, hV, hB]
  unfold gkrVerify
  dsimp only
  rw [hidxP, ok_bind]
  change (∃ e, (evaluateChunked outputs (q ++ q') >>= _) = _) ↔ _
  rw [hev, ok_bind]
  by_cases s1 : c.layers.length ≤ proof.sumcheckProofs.length
  swap
  · rw [idx_err (by omega)]
    exact ⟨fun _ => .inl (by omega), fun _ => ⟨_, rfl⟩⟩
  have s1' : ¬ proof.sumcheckProofs.length < c.layers.length := by omega
  rw [idx_getD (by omega) [], ok_bind]
  change (∃ e, (sumcheckVerify H top.claim (msgOf proof n).rounds ln.bGInputs >>= _) = _) ↔ _
  rcases sumcheck_cases3 H ln top (msgOf proof n) with ⟨hok, hnb, w, hw, ⟨w1, w2, w3⟩, hfc⟩ |
    ⟨hno, hbr, ⟨e, he⟩ | ⟨w, hw, hwl⟩⟩ | ⟨hno, hnb, he⟩
  · have hlen' : 2 * ln.bGInputs + (m + k) ≤ (msgOf proof n).rounds.length := by
      have := hok.2.1
      rw [tP] at this
      omega
    have kL := Msg.qL_length (H := H) (show 2 * ln.bGInputs ≤ (msgOf proof n).rounds.length by omega)
    have kR := Msg.qR_length (H := H) (show 2 * ln.bGInputs ≤ (msgOf proof n).rounds.length by omega)
    have kN := Msg.qN_length (H := H) (g := ln.bGInputs) (a := msgOf proof n)
    rw [hw, ok_bind]
    dsimp only
    change (∃ e, (evalEq q' w.qPrime >>= _) = _) ↔ _
    rw [evalEq_eq _ _ (by rw [w3]; omega), ok_bind]
    by_cases s2 : c.layers.length ≤ proof.claimsLeft.length
    swap
    · rw [idx_err (by omega)]
      exact ⟨fun _ => .inr (.inr ⟨hok, .inl (by omega)⟩), fun _ => ⟨_, rfl⟩⟩
    by_cases s3 : c.layers.length ≤ proof.claimsRight.length
    swap
    · rw [idx_getD (by omega) 0, ok_bind, idx_err (by omega)]
      exact ⟨fun _ => .inr (.inr ⟨hok, .inr (.inl (by omega))⟩), fun _ => ⟨_, rfl⟩⟩
    have s2' : ¬ proof.claimsLeft.length < c.layers.length := by omega
    have s3' : ¬ proof.claimsRight.length < c.layers.length := by omega
    rw [idx_getD (by omega) 0, ok_bind, idx_getD (by omega) 0, ok_bind]
    change (∃ e, (evaluateStaticTables ln q w.qL w.qR >>= fun statics =>
      evaluateCombinator (msgOf proof n).left (msgOf proof n).right (eqPoly q' w.qPrime) ln.gates statics >>= fun comb =>
      if w.finalClaim ≠ comb then pure false else verifyLayers H c proof inputs n w) = _) ↔ _
    rw [← bind_assoc, combinator_top hgl q w.qL w.qR lq (by rw [w1]; omega) (by rw [w2]; omega), ok_bind]
    have hval : w.finalClaim = eqPoly q' w.qPrime * wiringValue ln.wires (chi q) w.qL w.qR (msgOf proof n).left
        (msgOf proof n).right ↔ ValueCheck H ln top (msgOf proof n) := by
      unfold ValueCheck
      rw [hfc, tP, tW, w1, w2, w3]
    by_cases hv : ValueCheck H ln top (msgOf proof n)
    · rw [if_neg (not_not.2 (hval.2 hv)),
        verifyLayers_panics_iff H c proof top hc k m hk inputs s1 s2 s3 hin' n ln w hln hlen' ⟨w1, w2, w3⟩]
      simp only [s1', s2', s3', hnb, hok, hv, false_or, true_and]
    · rw [if_pos (fun h => hv (hval.1 h))]
      simp only [s1', s2', s3', hnb, hv, false_or, false_and, and_false, iff_false]
      rintro ⟨e, h⟩; cases h
  · rw [he]
    exact ⟨fun _ => .inr (.inl hbr), fun _ => ⟨e, rfl⟩⟩
  · rw [hw, ok_bind]
    dsimp only
    change (∃ e, (evalEq q' w.qPrime >>= _) = _) ↔ _
    rw [evalEq_err _ _ (by rw [← tP]; exact hwl)]
    exact ⟨fun _ => .inr (.inl hbr), fun _ => ⟨_, rfl⟩⟩
  · rw [he]
    simp only [s1', hnb, hno, false_or, false_and, iff_false]
    rintro ⟨e, h⟩; cases h

/-- Proofs that panic, for a circuit of two layers that copies its input: no rounds at all; an empty round in the last layer;
rounds of the last layer that hold, and no claims; a first layer without rounds; one round too many in the first layer
(each polynomial `0`, so that all sums are right). An empty round that is not reached does not panic. -/
example : gkrVerify (fun _ => (0 : Fr)) 1 (newCircuit [[⟨0, 0, 0, copyGate⟩], [⟨0, 0, 0, copyGate⟩]]) ⟨[[], []], [0, 0], [0, 0]⟩
    [[0], [0]] [[0], [0]] = .error .index := by decide +kernel
example : gkrVerify (fun _ => (0 : Fr)) 1 (newCircuit [[⟨0, 0, 0, copyGate⟩], [⟨0, 0, 0, copyGate⟩]]) ⟨[[], [[]]], [0, 0], [0, 0]⟩
    [[0], [0]] [[0], [0]] = .error .index := by decide +kernel
example : gkrVerify (fun _ => (0 : Fr)) 1 (newCircuit [[⟨0, 0, 0, copyGate⟩], [⟨0, 0, 0, copyGate⟩]]) ⟨[[], [[0]]], [], []⟩
    [[0], [0]] [[0], [0]] = .error .index := by decide +kernel
example : gkrVerify (fun _ => (0 : Fr)) 1 (newCircuit [[⟨0, 0, 0, copyGate⟩], [⟨0, 0, 0, copyGate⟩]]) ⟨[[], [[0]]], [0, 0], [0, 0]⟩
    [[0], [0]] [[0], [0]] = .error .index := by decide +kernel
example : gkrVerify (fun _ => (0 : Fr)) 1 (newCircuit [[⟨0, 0, 0, copyGate⟩], [⟨0, 0, 0, copyGate⟩]])
    ⟨[[[0], [0]], [[0]]], [0, 0], [0, 0]⟩ [[0], [0]] [[0], [0]] = .error .index := by decide +kernel
example : gkrVerify (fun _ => (0 : Fr)) 1 (newCircuit [[⟨0, 0, 0, copyGate⟩], [⟨0, 0, 0, copyGate⟩]])
    ⟨[[], [[1], []]], [0, 0], [0, 0]⟩ [[0], [0]] [[0], [0]] = .ok false := by decide +kernel

end GkrMimc
