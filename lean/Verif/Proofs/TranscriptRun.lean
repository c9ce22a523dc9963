import Verif.Proofs.Transcript

/-! The repaired verifier with transcript challenges goes through the stages of the specification. -/

set_option linter.unusedSectionVars false

namespace GkrMimc

open Spec Finset Polynomial

variable {F : Type} [Field F] [DecidableEq F]

theorem say_append (H : List (List F × F) → List F → F) (past : List (List F × F)) (a b : List (List F)) :
    say H past (a ++ b) = say H (say H past a) b := by unfold say; rw [List.foldl_append]

theorem say_cons (H : List (List F × F) → List F → F) (past : List (List F × F)) (c : List F) (cs : List (List F)) :
    say H past (c :: cs) = say H (past ++ [(c, H past c)]) cs := rfl

/-- What is said later is added at the end. -/
theorem say_prefix (H : List (List F × F) → List F → F) (cs : List (List F)) : ∀ past, ∃ more, say H past cs = past ++ more := by
  induction cs with
  | nil => intro past; exact ⟨[], by simp [say]⟩
  | cons c cs ih =>
    intro past
    obtain ⟨more, h⟩ := ih (past ++ [(c, H past c)])
    exact ⟨(c, H past c) :: more, by rw [say_cons, h]; simp⟩

section
variable (bN bG : Nat) (layers : List (Layer F)) (U : List F) (H : List (List F × F) → List F → F)

theorem say_rejected (past : List (List F × F)) (h : stageAfter bN bG layers U past = .rejected) (cs : List (List F)) :
    stageAfter bN bG layers U (say H past cs) = .rejected := by
  obtain ⟨more, e⟩ := say_prefix H cs past
  rw [e, stageAfter_append, h, foldl_rejected]

theorem drawPoint_spec (n : Nat) : ∀ (past : List (List F × F)) (pre : List F), stageAfter bN bG layers U past = opening bN bG layers U pre →
    pre.length + n = bG + bN → (drawPoint H n past).2 = say H past (List.replicate n []) ∧ (drawPoint H n past).1.length = n ∧
      stageAfter bN bG layers U (say H past (List.replicate n [])) = opening bN bG layers U (pre ++ (drawPoint H n past).1) := by
  induction n with
  | zero => intro past pre h _; exact ⟨rfl, rfl, by simpa [drawPoint, say] using h⟩
  | succ n ih =>
    intro past pre h hn
    obtain ⟨h1, h2, h3⟩ := ih (past ++ [([], H past [])]) (pre ++ [H past []])
      (by
        rw [stageAfter_snoc, h]
        conv_lhs => rw [opening, if_pos (by omega)]
        rfl)
      (by simp; omega)
    rw [List.replicate_succ, say_cons]
    refine ⟨h1, by simp only [drawPoint, List.length_cons, h2], ?_⟩
    rw [h3]
    simp [drawPoint]

theorem loopT_spec {i : Nat} {l : Layer F} (hl : layers[i]? = some l) (t : Goal F) (cs : List (List F)) :
    ∀ (e : F) (past : List (List F × F)) (ρ : List F), stageAfter bN bG layers U past = .layer i t ρ e →
    ρ.length + cs.length ≤ 2 * l.bGInputs + bN → (∀ c ∈ cs, c ≠ []) →
    (sumcheckVerifyLoopT H cs e past = .ok none ∧ stageAfter bN bG layers U (say H past cs) = .rejected) ∨
    ∃ (chs : List F) (e' : F), sumcheckVerifyLoopT H cs e past = .ok (some (chs, e', say H past cs)) ∧ chs.length = cs.length ∧
      stageAfter bN bG layers U (say H past cs) = .layer i t (ρ ++ chs) e' := by
  induction cs with
  | nil => intro e past ρ h _ _; exact .inr ⟨[], e, rfl, rfl, by simpa [say] using h⟩
  | cons c cs ih =>
    intro e past ρ h hn hne
    have hc := hne c (by simp)
    have hstep : ∀ a, stageAfter bN bG layers U (past ++ [(c, a)]) =
        if (polyOf c).eval 0 + (polyOf c).eval 1 = e then .layer i t (ρ ++ [a]) ((polyOf c).eval a) else .rejected := by
      intro a
      rw [stageAfter_snoc, h]
      unfold step
      dsimp only
      rw [hl]
      dsimp only
      rw [if_pos (by simp at hn; omega)]
      congr
    rw [sumcheckVerifyLoopT, evaluatePolynomial_polyOf c hc, evaluatePolynomial_polyOf c hc, ok_bind, ok_bind, say_cons]
    by_cases hs : (polyOf c).eval 0 + (polyOf c).eval 1 = e
    · rw [if_neg (not_not.2 hs.symm)]
      dsimp only
      rw [evaluatePolynomial_polyOf c hc, ok_bind]
      have h2 := hstep (H past c)
      rw [if_pos hs] at h2
      rcases ih _ _ _ h2 (by simp at hn ⊢; omega) (fun c' h' => hne c' (by simp [h'])) with ⟨h3, h4⟩ | ⟨chs, e', h3, h4, h5⟩
      · left
        rw [h3]
        exact ⟨rfl, h4⟩
      · right
        rw [h3]
        exact ⟨H past c :: chs, e', rfl, by simp [h4], by rw [h5]; simp⟩
    · left
      rw [if_pos (fun h => hs h.symm)]
      refine ⟨rfl, ?_⟩
      apply say_rejected
      rw [hstep, if_neg hs]

theorem sumcheckVerifyT_spec {i : Nat} {l : Layer F} (hl : layers[i]? = some l) (t : Goal F) (cs : List (List F))
    (e : F) (past : List (List F × F)) (h : stageAfter bN bG layers U past = .layer i t [] e)
    (hn : cs.length = 2 * l.bGInputs + bN) (hne : ∀ c ∈ cs, c ≠ []) :
    (sumcheckVerifyT H e cs l.bGInputs past = .ok none ∧ stageAfter bN bG layers U (say H past cs) = .rejected) ∨
    ∃ (ρ : List F) (e' : F), ρ.length = 2 * l.bGInputs + bN ∧
      sumcheckVerifyT H e cs l.bGInputs past = .ok (some (⟨ρ.drop (2 * l.bGInputs), ρ.take l.bGInputs,
        (ρ.drop l.bGInputs).take l.bGInputs, e'⟩, say H past cs)) ∧
      stageAfter bN bG layers U (say H past cs) = .layer i t ρ e' := by
  unfold sumcheckVerifyT
  rcases loopT_spec bN bG layers U H hl t cs e past [] h (by simp; omega) hne with ⟨h1, h2⟩ | ⟨chs, e', h1, h2, h3⟩
  · left
    rw [h1]
    exact ⟨rfl, h2⟩
  · right
    rw [h1]
    refine ⟨chs, e', by omega, ?_, by simpa using h3⟩
    rw [ok_bind]
    dsimp only
    rw [sliceTo, if_pos (by omega), sliceBetween, if_pos ⟨by omega, by omega⟩, sliceFrom, if_pos (by omega)]
    simp only [ok_bind, go_pure]
    rw [List.drop_take, two_mul, Nat.add_sub_cancel]

/-- The messages after the rounds of layer `i`. -/
def laterMessages (proof : GkrProof F) : Nat → List (List F)
  | 0 => []
  | i + 1 => [(msgOf proof (i + 1)).left, (msgOf proof (i + 1)).right] :: messagesFrom proof i

theorem messagesFrom_eq (proof : GkrProof F) (i : Nat) : messagesFrom proof i = (msgOf proof i).rounds ++ laterMessages proof i := by
  cases i <;> simp [messagesFrom, laterMessages]

/-- After a wrong value there is no acceptance. -/
theorem wrong_value (proof : GkrProof F) (inputs : List F) {i : Nat} {l : Layer F} (hl : layers[i]? = some l) (t : Goal F) (ρ : List F)
    (e : F) (past : List (List F × F)) (h : stageAfter bN bG layers U past = .layer i t ρ e)
    (hρ : ρ.length = 2 * l.bGInputs + bN) (hv : e ≠ valueAt l t ρ (msgOf proof i).left (msgOf proof i).right) :
    ¬ Accepting bN layers inputs (msgOf proof 0).left (msgOf proof 0).right
      (stageAfter bN bG layers U (say H past (laterMessages proof i))) := by
  rcases i with _ | i
  · rintro ⟨l', t', ρ', e', h1, h2, _, h4, _⟩
    change stageAfter bN bG layers U past = _ at h2
    rw [h] at h2
    injection h2 with _ a1 a2 a3
    subst a1 a2 a3
    rw [hl] at h1
    obtain rfl := Option.some.inj h1
    exact hv h4
  · rw [laterMessages, say_cons]
    rintro ⟨l', t', ρ', e', _, h2, _⟩
    rw [say_rejected] at h2
    · cases h2
    · rw [stageAfter_snoc, h]
      unfold step
      dsimp only
      rw [hl]
      dsimp only
      rw [if_neg (by omega), if_neg hv]

variable {bN bG layers U}

theorem verifyLayersT_spec (c : Circuit F) (hc : GoodCircuit c) (proof : GkrProof F) (k m : Nat) (inputs : List (List F))
    (hs : ProofShape c (m + k) proof)
    (hin : ∀ l0 : Layer F, c.layers[0]? = some l0 → WellChunked k (l0.bGInputs + m) inputs) (layer : Nat) :
    ∀ (l l0 : Layer F) (t : Goal F) (ρ : List F) (e : F) (past : List (List F × F)), c.layers[layer]? = some l → c.layers[0]? = some l0 →
    stageAfter (m + k) bG c.layers U past = .layer layer t ρ e → ρ.length = 2 * l.bGInputs + (m + k) →
    e = valueAt l t ρ (msgOf proof layer).left (msgOf proof layer).right →
    ∃ b, verifyLayersT H c proof inputs layer ⟨ρ.drop (2 * l.bGInputs), ρ.take l.bGInputs,
        (ρ.drop l.bGInputs).take l.bGInputs, e⟩ past = .ok b ∧
      (b = true ↔ Accepting (m + k) c.layers (interleave (2 ^ k) (2 ^ (l0.bGInputs + m)) inputs) (msgOf proof 0).left
        (msgOf proof 0).right (stageAfter (m + k) bG c.layers U (say H past (laterMessages proof layer)))) := by
  have hs2 := hs.left
  have hs3 := hs.right
  have hs1 := hs.rounds
  induction layer with
  | zero =>
    intro l l0 t ρ e past hl hl0 hst hρ hv
    rw [hl] at hl0
    obtain rfl := Option.some.inj hl0
    have hpos : 0 < c.layers.length := (List.getElem?_eq_some_iff.1 hl).1
    rw [verifyLayersT]
    unfold verifyInputsR
    dsimp only
    have lL : (ρ.take l.bGInputs).length = l.bGInputs := by simp; omega
    have lR : ((ρ.drop l.bGInputs).take l.bGInputs).length = l.bGInputs := by simp; omega
    have lN : (ρ.drop (2 * l.bGInputs)).length = m + k := by simp; omega
    rw [evaluateMixedChunkedR_mle k m inputs _ _ _ (by omega) lN (by rw [lL]; exact hin l hl), lL]
    simp only [ok_bind]
    rw [idx_getD (by omega) 0, idx_getD (by omega) 0]
    simp only [ok_bind]
    change ∃ b, (if _ ≠ (msgOf proof 0).left ∨ _ ≠ (msgOf proof 0).right then pure false else pure true) = _ ∧ _
    have hA : Accepting (m + k) c.layers (interleave (2 ^ k) (2 ^ (l.bGInputs + m)) inputs) (msgOf proof 0).left
        (msgOf proof 0).right (stageAfter (m + k) bG c.layers U (say H past (laterMessages proof 0))) ↔
        mle (interleave (2 ^ k) (2 ^ (l.bGInputs + m)) inputs) (ρ.take l.bGInputs ++ ρ.drop (2 * l.bGInputs)) = (msgOf proof 0).left ∧
        mle (interleave (2 ^ k) (2 ^ (l.bGInputs + m)) inputs)
          ((ρ.drop l.bGInputs).take l.bGInputs ++ ρ.drop (2 * l.bGInputs)) = (msgOf proof 0).right := by
      constructor
      · rintro ⟨l', t', ρ', e', h1, h2, _, _, h5⟩
        change stageAfter (m + k) bG c.layers U past = _ at h2
        rw [hst] at h2
        injection h2 with _ a1 a2 a3
        subst a1 a2 a3
        rw [hl] at h1
        obtain rfl := Option.some.inj h1
        exact h5
      · intro h
        exact ⟨l, t, ρ, e, hl, hst, hρ, hv, h⟩
    rw [hA]
    split_ifs with h
    · refine ⟨false, rfl, ?_⟩
      simp only [Bool.false_eq_true, false_iff]
      rintro ⟨a, b⟩
      rcases h with h | h
      · exact h a
      · exact h b
    · push Not at h
      exact ⟨true, rfl, fun _ => h, fun _ => rfl⟩
  | succ layer ih =>
    intro l l0 t ρ e past hl hl0 hst hρ hv
    have hlt : layer + 1 < c.layers.length := (List.getElem?_eq_some_iff.1 hl).1
    obtain ⟨l', hl'⟩ : ∃ l', c.layers[layer]? = some l' := ⟨_, List.getElem?_eq_getElem (by omega)⟩
    have hgl := hc.good l' (List.mem_of_getElem? hl')
    have hbG := hc.chained layer l' l hl' hl
    obtain ⟨hlen', hne'⟩ := hs.msg hl'
    have lL : (ρ.take l.bGInputs).length = l'.bGOutputs := by simp; omega
    have lR : ((ρ.drop l.bGInputs).take l.bGInputs).length = l'.bGOutputs := by simp; omega
    have lN : (ρ.drop (2 * l.bGInputs)).length = m + k := by simp; omega
    rw [verifyLayersT, idx_getD (by omega) 0, ok_bind, idx_getD (by omega) 0, ok_bind,
      idx_getD (by omega) [], ok_bind, idx_some hl', ok_bind]
    set a := msgOf proof (layer + 1) with ha
    set b := msgOf proof layer with hb
    have eL : proof.claimsLeft.getD (layer + 1) 0 = a.left := rfl
    have eR : proof.claimsRight.getD (layer + 1) 0 = a.right := rfl
    have eS : proof.sumcheckProofs.getD layer [] = b.rounds := rfl
    rw [eL, eR, eS]
    set lam := H past [a.left, a.right] with hlam
    have hst2 : stageAfter (m + k) bG c.layers U (past ++ [([a.left, a.right], lam)]) =
        .layer layer (goalAfter l ρ a.left a.right lam) [] (a.left + lam * a.right) := by
      rw [stageAfter_snoc, hst]
      unfold step
      dsimp only
      rw [hl]
      dsimp only
      rw [if_neg (by omega), if_pos hv]
    have eC : a.right * lam + a.left = a.left + lam * a.right := by ring
    rw [eC]
    rw [laterMessages, say_cons, messagesFrom_eq, say_append]
    rcases sumcheckVerifyT_spec (m + k) bG c.layers U H hl' _ b.rounds _ _ hst2 hlen' hne' with ⟨h1, h2⟩ | ⟨ρ', e', h1, h2, h3⟩
    · rw [h1]
      refine ⟨false, rfl, ?_⟩
      simp only [Bool.false_eq_true, false_iff]
      rintro ⟨_, _, _, _, _, h5, _⟩
      rw [say_rejected _ _ _ _ _ _ h2] at h5
      cases h5
    · rw [h2, ok_bind]
      dsimp only
      rw [evalEq_eq _ _ (by simp; omega), ok_bind, idx_getD (by omega) 0, ok_bind, idx_getD (by omega) 0, ok_bind]
      rw [← bind_assoc, combinator_below hgl _ _ _ _ lL lR (by simp; omega) (by simp; omega), ok_bind]
      change ∃ x, (if e' ≠ valueAt l' (goalAfter l ρ a.left a.right lam) ρ' b.left b.right then pure false else _) = _ ∧ _
      by_cases hval : e' = valueAt l' (goalAfter l ρ a.left a.right lam) ρ' b.left b.right
      · rw [if_neg (not_not.2 hval)]
        exact ih l' l0 _ ρ' e' _ hl' hl0 h3 h1 hval
      · rw [if_pos hval]
        refine ⟨false, rfl, ?_⟩
        simp only [Bool.false_eq_true, false_iff]
        exact wrong_value (m + k) bG c.layers U H proof _ hl' _ ρ' e' _ h3 h1 hval

end

/-- The verifier with transcript challenges answers on every proof, and says exactly whether it has the right shape and its
transcript leads through the stages to acceptance. -/
theorem gkrVerifyT_spec (H : Query F → F) (c : Circuit F) (proof : GkrProof F) (hne : c.layers ≠ []) (hc : GoodCircuit c) (k m : Nat)
    (inputs outputs : List (List F))
    (hin : ∀ l0 : Layer F, c.layers[0]? = some l0 → WellChunked k (l0.bGInputs + m) inputs)
    (l0 ln : Layer F) (hl0 : c.layers[0]? = some l0) (hln : c.layers[c.layers.length - 1]? = some ln)
    (hout : WellChunked k (ln.bGOutputs + m) outputs) :
    ∃ b, gkrVerifyT H (m + k) c proof inputs outputs = .ok b ∧ (b = true ↔ ProofShape c (m + k) proof ∧
      Accepting (m + k) c.layers (interleave (2 ^ k) (2 ^ (l0.bGInputs + m)) inputs) (msgOf proof 0).left (msgOf proof 0).right
        (stageAfter (m + k) ln.bGOutputs c.layers (interleave (2 ^ k) (2 ^ (ln.bGOutputs + m)) outputs)
          (say (fun past msg => H ⟨inputs, outputs, past, msg⟩) [] (messages (ln.bGOutputs + (m + k)) c.layers.length proof)))) := by
  have hpos : 0 < c.layers.length := List.length_pos_of_ne_nil hne
  unfold gkrVerifyT
  dsimp only
  by_cases hsh : proofShaped (m + k) c proof = true
  swap
  · rw [if_pos hsh]
    refine ⟨false, rfl, ?_⟩
    simp only [Bool.false_eq_true, false_iff]
    exact fun h => hsh ((proofShaped_iff _ _ _).2 h.1)
  rw [if_neg (not_not.2 hsh)]
  have hs := (proofShaped_iff _ _ _).1 hsh
  have hs2 := hs.left
  have hs3 := hs.right
  have hs1 := hs.rounds
  rw [and_iff_right hs]
  set h : List (List F × F) → List F → F := fun past msg => H ⟨inputs, outputs, past, msg⟩ with hh
  set n := c.layers.length - 1 with hn
  set U := interleave (2 ^ k) (2 ^ (ln.bGOutputs + m)) outputs with hU
  have hgl := hc.good ln (List.mem_of_getElem? hln)
  obtain ⟨hlen, hne'⟩ := hs.msg hln
  have hidxP : idxPred c.layers c.layers.length = .ok ln := by
    unfold idxPred; rw [if_neg (by omega)]; exact idx_some hln
  rw [hidxP, ok_bind]
  obtain ⟨d1, d2, d3⟩ := drawPoint_spec (m + k) ln.bGOutputs c.layers U h (ln.bGOutputs + (m + k)) [] [] rfl (by simp)
  generalize drawPoint h (ln.bGOutputs + (m + k)) [] = dp at d1 d2 d3 ⊢
  obtain ⟨p, past⟩ := dp
  dsimp only at d1 d2 d3 ⊢
  subst d1
  rw [List.nil_append] at d3
  rw [List.take_append_drop, evaluateChunkedR_mle k (ln.bGOutputs + m) outputs hout p (by omega), ok_bind, idx_getD (by omega) [],
    ok_bind]
  rw [opening, if_neg (by omega)] at d3
  unfold messages
  rw [say_append, messagesFrom_eq, say_append]
  set past := say h [] (List.replicate (ln.bGOutputs + (m + k)) []) with hpast
  have eS : proof.sumcheckProofs.getD n [] = (msgOf proof n).rounds := rfl
  rw [eS]
  rcases sumcheckVerifyT_spec (m + k) ln.bGOutputs c.layers U h hln _ (msgOf proof n).rounds _ _ d3 hlen hne' with
    ⟨h1, h2⟩ | ⟨ρ, e, h1, h2, h3⟩
  · rw [h1]
    refine ⟨false, rfl, ?_⟩
    simp only [Bool.false_eq_true, false_iff]
    rintro ⟨_, _, _, _, _, h5, _⟩
    rw [say_rejected _ _ _ _ _ _ h2] at h5
    cases h5
  · rw [h2, ok_bind]
    dsimp only
    rw [evalEq_eq _ _ (by simp; omega), ok_bind, idx_getD (by omega) 0, ok_bind, idx_getD (by omega) 0, ok_bind]
    rw [← bind_assoc, combinator_top hgl _ _ _ (by simp; omega) (by simp; omega) (by simp; omega), ok_bind]
    change ∃ b, (if e ≠ valueAt ln ⟨mle U p, p.drop ln.bGOutputs, chi (p.take ln.bGOutputs)⟩ ρ (msgOf proof n).left
      (msgOf proof n).right then pure false else _) = _ ∧ _
    by_cases hval : e = valueAt ln ⟨mle U p, p.drop ln.bGOutputs, chi (p.take ln.bGOutputs)⟩ ρ (msgOf proof n).left
      (msgOf proof n).right
    · rw [if_neg (not_not.2 hval)]
      exact verifyLayersT_spec h c hc proof k m inputs hs hin n ln l0 _ ρ e _ hln hl0 h3 h1 hval
    · rw [if_pos hval]
      refine ⟨false, rfl, ?_⟩
      simp only [Bool.false_eq_true, false_iff]
      exact wrong_value (m + k) ln.bGOutputs c.layers U h proof _ hln _ ρ e _ h3 h1 hval

end GkrMimc
