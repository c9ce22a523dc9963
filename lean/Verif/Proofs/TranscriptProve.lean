import Verif.Model.TranscriptProve
import Verif.Proofs.TranscriptComplete
import Verif.Proofs.TrueRounds
import Verif.Spec.TrueTranscript

/-! The prover with transcript challenges. -/

set_option linter.unusedSectionVars false

namespace GkrMimc

open Spec Finset Polynomial

variable {F : Type} [Field F] [DecidableEq F]

/-- The challenges of the messages. -/
def chal (H : List (List F × F) → List F → F) : List (List F × F) → List (List F) → List F
  | _, [] => []
  | past, c :: cs => H past c :: chal H (past ++ [(c, H past c)]) cs

theorem chal_append (H : List (List F × F) → List F → F) (a b : List (List F)) : ∀ past,
    chal H past (a ++ b) = chal H past a ++ chal H (say H past a) b := by
  induction a with
  | nil => intro past; rfl
  | cons c a ih => intro past; rw [List.cons_append, chal, chal, ih, say_cons]; rfl

theorem chal_length (H : List (List F × F) → List F → F) (a : List (List F)) : ∀ past, (chal H past a).length = a.length := by
  induction a with
  | nil => intro past; rfl
  | cons c a ih => intro past; rw [chal, List.length_cons, ih, List.length_cons]

/-- Honest rounds run, and the verifier's loop follows them. -/
theorem roundsT_spec [SmallCasts F] (H : List (List F × F) → List F → F) {n : Nat} {evals : SProver F → Go (List F)}
    {foldX : SProver F → F → SProver F} {Good : Nat → SProver F → Prop} {sum : Nat → SProver F → F}
    (h : RoundsOk n evals foldX Good sum) (k : Nat) : ∀ p past, Good k p →
    ∃ cs qs, roundsT H evals foldX k p past = .ok (qs.foldl foldX p, cs, qs, say H past cs) ∧ qs.length = k ∧
      cs.map List.length = List.replicate k n ∧ Good 0 (qs.foldl foldX p) ∧
      (∀ rest, sumcheckVerifyLoopT H (cs ++ rest) (sum k p) past = (do
        let x ← sumcheckVerifyLoopT H rest (sum 0 (qs.foldl foldX p)) (say H past cs)
        return x.map (fun y => (qs ++ y.1, y.2)))) ∧
      qs = chal H past cs ∧
      ∀ (j : Nat) (c : List F), cs[j]? = some c → ∀ x, (polyOf c).eval x = sum (k - 1 - j) ((qs.take j ++ [x]).foldl foldX p) := by
  induction k with
  | zero =>
    intro p past hp
    refine ⟨[], [], rfl, rfl, rfl, hp, ?_, rfl, by simp⟩
    intro rest
    simp only [List.nil_append, List.foldl_nil]
    change sumcheckVerifyLoopT H rest (sum 0 p) past = (sumcheckVerifyLoopT H rest (sum 0 p) past >>= _)
    cases sumcheckVerifyLoopT H rest (sum 0 p) past with
    | error e => rfl
    | ok x => simp
  | succ k ih =>
    intro p past hp
    obtain ⟨P, hn0, hn, hdeg, hev, hsum, hsplit, hgood⟩ := h.step k p hp
    set c := tab n P.coeff with hc
    have hint : interpolateOnRange (tab n (fun t => P.eval (t : F))) = .ok c := interpolateOnRange_poly n hn0 hn P hdeg
    obtain ⟨cs, qs, hr, hl, hl2, hg0, hv, hq, hpol⟩ := ih (foldX p (H past c)) (past ++ [(c, H past c)]) (hgood _)
    refine ⟨c :: cs, H past c :: qs, ?_, by simp [hl], by simp [hl2, hc, List.replicate_succ], by simpa using hg0, ?_, by rw [chal, ← hq], ?_⟩
    · rw [roundsT, hev, ok_bind, hint, ok_bind]
      dsimp only
      rw [hr, ok_bind]; rfl
    · intro rest
      rw [List.cons_append, sumcheckVerifyLoopT, evaluatePolynomial_coeff n P hdeg 0, ok_bind, evaluatePolynomial_coeff n P hdeg 1,
        ok_bind, if_neg (by rw [hsplit]; exact not_not.2 rfl)]
      dsimp only
      rw [evaluatePolynomial_coeff n P hdeg _, ok_bind, hsum, hv rest, say_cons]
      simp only [List.foldl_cons]
      cases sumcheckVerifyLoopT H rest (sum 0 (qs.foldl foldX (foldX p (H past c)))) (say H (past ++ [(c, H past c)]) cs) with
      | error e => rfl
      | ok x => cases x <;> simp
    · intro j d hd x
      rcases j with _ | j
      · simp only [List.getElem?_cons_zero, Option.some.injEq] at hd
        subst hd
        rw [hc, polyOf_tab P n hdeg, hsum]
        rfl
      · rw [List.getElem?_cons_succ] at hd
        rw [hpol j d hd x, show k + 1 - 1 - (j + 1) = k - 1 - j by omega]
        rfl

/-- The single-threaded prover runs and the verifier's loop accepts. -/
theorem proveT_spec [SmallCasts F] (H : List (List F × F) → List F → F) {gates : List (Gate F)} (hg : ∀ g ∈ gates, LawfulGate g)
    (hd : DegreesOk gates) (hne : gates ≠ []) {bN bG : Nat} {vL vR eq : List F} {statics : List (List F)}
    (h : Sized gates bN bG vL vR eq statics) (past : List (List F × F)) :
    ∃ out : SumcheckOut F, (newSProver vL vR eq gates statics).proveT H past = .ok (out, say H past out.polyCoeffs) ∧
      out.qL.length = bG ∧ out.qR.length = bG ∧ out.qPrime.length = bN ∧
      out.polyCoeffs.map List.length = List.replicate bG (degL gates + 1) ++ List.replicate bG (degR gates + 1) ++
        List.replicate bN (degP gates + 1) ∧
      out.finalClaims = mle vL (out.qL ++ out.qPrime) :: mle vR (out.qR ++ out.qPrime) :: mle eq out.qPrime ::
        statics.map (fun t => mle t (out.qL ++ out.qR)) ∧
      sumcheckVerifyLoopT H out.polyCoeffs (hypercubeSum gates bN bG vL vR eq statics) past =
        .ok (some (out.qL ++ out.qR ++ out.qPrime,
          combinator gates (mle vL (out.qL ++ out.qPrime)) (mle vR (out.qR ++ out.qPrime)) (mle eq out.qPrime)
            (statics.map (fun t => mle t (out.qL ++ out.qR))), say H past out.polyCoeffs)) ∧
      out.qL ++ out.qR ++ out.qPrime = chal H past out.polyCoeffs ∧
      ∀ (j : Nat) (c : List F), out.polyCoeffs[j]? = some c → ∀ x, (polyOf c).eval x = cubeSum (bG + bG + bN - 1 - j)
        (fun b => summand gates bG vL vR eq statics ((out.qL ++ out.qR ++ out.qPrime).take j ++ x :: b)) := by
  have hn : 0 < 2 ^ bN := Nat.two_pow_pos _
  have hG : 0 < 2 ^ bG := Nat.two_pow_pos _
  set p0 := newSProver vL vR eq gates statics with hp0
  have hp0' := h.mkP_eq
  rw [← hp0] at hp0'
  obtain ⟨cL, qL, rL, lL, lL2, gL, vfL, chL, poL⟩ := roundsT_spec H (roundsOkL hg hd hne hG hn) bG p0 past ⟨_, _, _, _, hp0'⟩
  set p1 := qL.foldl SProver.foldHL p0 with hp1
  have g1 : GoodR gates (2 ^ bN) bG p1 := by simpa [GoodL, GoodR] using gL
  obtain ⟨cR, qR, rR, lR, lR2, gR, vfR, chR, poR⟩ := roundsT_spec H (roundsOkR hg hd hn) bG p1 (say H past cL) g1
  set p2 := qR.foldl SProver.foldHR p1 with hp2
  have g2 : GoodP gates bN p2 := by simpa [GoodP, GoodR] using gR
  obtain ⟨cP, qP, rP, lP, lP2, gP, vfP, chP, poP⟩ := roundsT_spec H (roundsOkP hg hd) bN p2 (say H (say H past cL) cR) g2
  set p3 := qP.foldl SProver.foldHPrime p2 with hp3
  -- the tables of the last state
  have hp3' : p3 = newSProver (qP.foldl fold (qL.foldl fold vL)) (qP.foldl fold (qR.foldl fold vR))
      (qP.foldl fold eq) gates (statics.map (fun t => qR.foldl fold (qL.foldl fold t))) := by
    rw [hp3, foldl_foldHPrime, hp2, foldl_foldHR, hp1, foldl_foldHL, hp0]
    simp [newSProver, Function.comp_def]
  have eL : idx p3.vL 0 = .ok (mle vL (qL ++ qP)) := by
    rw [hp3']
    have := evaluate_eq vL (qL ++ qP) (by rw [h.lenL, List.length_append, lL, lP])
    rwa [evaluate, List.foldl_append] at this
  have eR : idx p3.vR 0 = .ok (mle vR (qR ++ qP)) := by
    rw [hp3']
    have := evaluate_eq vR (qR ++ qP) (by rw [h.lenR, List.length_append, lR, lP])
    rwa [evaluate, List.foldl_append] at this
  have eE : idx p3.eq 0 = .ok (mle eq qP) := by
    rw [hp3']
    exact evaluate_eq eq qP (by rw [h.lenEq, lP])
  have eS : mapGo (fun t => idx t 0) p3.statics = .ok (statics.map (fun t => mle t (qL ++ qR))) := by
    rw [hp3']
    have : ∀ ts : List (List F), (∀ t ∈ ts, t.length = 2 ^ (bG + bG)) →
        mapGo (fun t => idx t 0) (ts.map (fun t => qR.foldl fold (qL.foldl fold t))) =
          .ok (ts.map (fun t => mle t (qL ++ qR))) := by
      intro ts
      induction ts with
      | nil => intro _; rfl
      | cons t ts ih =>
        intro hts
        have e1 := evaluate_eq t (qL ++ qR) (by rw [hts t (by simp), List.length_append, lL, lR])
        rw [evaluate, List.foldl_append] at e1
        rw [List.map_cons, mapGo, e1, ih (fun t' h' => hts t' (by simp [h']))]
        rfl
    exact this statics h.lenStatic
  have hfc : p3.finalClaims = .ok (mle vL (qL ++ qP) :: mle vR (qR ++ qP) :: mle eq qP ::
      statics.map (fun t => mle t (qL ++ qR))) := by
    unfold SProver.finalClaims
    rw [eL, ok_bind, eR, ok_bind, eE, ok_bind, eS, ok_bind]; rfl
  refine ⟨⟨cL ++ cR ++ cP, qP, qL, qR, mle vL (qL ++ qP) :: mle vR (qR ++ qP) :: mle eq qP ::
      statics.map (fun t => mle t (qL ++ qR))⟩, ?_, lL, lR, lP, ?_, rfl, ?_, ?_, ?_⟩
  · unfold SProver.proveT
    have d1 : p0.eq.length = 2 ^ bN := h.lenEq
    have d2 : p0.vR.length = 2 ^ bG * 2 ^ bN := by rw [← pow_add]; exact h.lenR
    have l1 : log2Ceil ((2 ^ bN : Nat) : Int) = bN := log2Ceil_pow bN
    have l2 : log2Ceil ((2 ^ bG : Nat) : Int) = bG := log2Ceil_pow bG
    simp only [d1, d2]
    rw [goDiv_ok hn, ok_bind, Nat.mul_div_cancel _ hn, l1, l2,
      rL, ok_bind]
    simp only
    rw [rR, ok_bind]
    simp only
    rw [rP, ok_bind]
    simp only
    rw [hfc, ok_bind, say_append, say_append]; rfl
  · simp [lL2, lR2, lP2]
  · have s0 : sumOf (2 ^ bG) (2 ^ bG) p0 = hypercubeSum gates bN bG vL vR eq statics := by
      rw [hp0', sumOf_mkP, hsum_eq_hypercubeSum]
    have v1 := vfL (cR ++ (cP ++ []))
    have v2 := vfR (cP ++ [])
    have v3 := vfP []
    beta_reduce at v1 v2 v3
    rw [pow_zero] at v1 v2
    rw [s0] at v1
    simp only [List.append_nil] at v1 v2 v3
    rw [List.append_assoc, v1, v2, v3, sumcheckVerifyLoopT]
    simp only [ok_bind, go_pure, Option.map_some, List.append_nil]
    congr 3
    · simp
    · obtain ⟨a, b, c, d, hm⟩ := gP
      rw [pow_zero] at hm
      have hstl : ∀ i (hi : i < gates.length), (statics.map (fun t => mle t (qL ++ qR))).getD i 0 = d i 0 := by
        intro i hi
        rw [hm] at eS
        unfold mkP newSProver at eS
        simp only at eS
        rw [mapGo_ok (fun t : List F => t.getD 0 0)] at eS
        · rw [← Except.ok.inj eS, tab_map, tab_getD hi]
          exact tab_getD (by omega)
        · intro x hx
          obtain ⟨i, _, rfl⟩ := List.mem_map.1 hx
          rw [idx_tab (by omega)]; exact congrArg _ (tab_getD (by omega)).symm
      have hmL : mle vL (qL ++ qP) = a 0 := by
        rw [hm] at eL; unfold mkP newSProver at eL; simp only at eL
        rw [idx_tab (by omega)] at eL; exact (Except.ok.inj eL).symm
      have hmR : mle vR (qR ++ qP) = b 0 := by
        rw [hm] at eR; unfold mkP newSProver at eR; simp only at eR
        rw [idx_tab (by omega)] at eR; exact (Except.ok.inj eR).symm
      have hmE : mle eq qP = c 0 := by
        rw [hm] at eE; unfold mkP newSProver at eE; simp only at eE
        rw [idx_tab (by omega)] at eE; exact (Except.ok.inj eE).symm
      rw [hm, sumOf_mkP, hmL, hmR, hmE]
      unfold hsum combinator
      simp only [Finset.sum_range_one, zero_mul, zero_add]
      rw [Finset.sum_range, Finset.sum_mul, say_append, say_append]
      congr 1
      apply Finset.sum_congr rfl; intro i _
      rw [hstl i i.2, gateF_eq i.2]
      simp only [Fin.getElem_fin]
      ring
  · dsimp only
    rw [chal_append, chal_append, say_append, ← chL, ← chR, ← chP]
  · dsimp only
    have n1 := congrArg List.length lL2
    have n2 := congrArg List.length lR2
    have n3 := congrArg List.length lP2
    rw [List.length_map, List.length_replicate] at n1 n2 n3
    rw [List.append_assoc qL]
    exact phases_sums hg hd hne h n1 n2 n3 lL lR lP poL poR poP

section
variable {bN bG : Nat} {layers : List (Layer F)} {U T : List F} {V : Nat → List F} (H : List (List F × F) → List F → F)

theorem allTrue_append (a b : List (List F)) : ∀ past, AllTrue bN bG layers U V H past (a ++ b) ↔
    AllTrue bN bG layers U V H past a ∧ AllTrue bN bG layers U V H (say H past a) b := by
  induction a with
  | nil => intro past; simp [AllTrue, say]
  | cons c a ih => intro past; rw [List.cons_append, AllTrue, AllTrue, ih, say_cons, and_assoc]

/-- Rounds whose polynomials are partial sums. -/
theorem rounds_allTrue {i : Nat} {l : Layer F} (hl : layers[i]? = some l) (t : Goal F) (cs : List (List F)) :
    ∀ (past : List (List F × F)) (ρ : List F) (e : F), stageAfter bN bG layers U past = .layer i t ρ e →
      ρ.length + cs.length = 2 * l.bGInputs + bN →
      e = cubeSum (2 * l.bGInputs + bN - ρ.length) (fun b => goalSummand l (V i) t (ρ ++ b)) →
      (∀ (j : Nat) (c : List F), cs[j]? = some c → ∀ x, (polyOf c).eval x = cubeSum (cs.length - 1 - j)
        (fun b => goalSummand l (V i) t (ρ ++ ((chal H past cs).take j ++ x :: b)))) →
      AllTrue bN bG layers U V H past cs := by
  induction cs with
  | nil => intros; trivial
  | cons c cs ih =>
    intro past ρ e hs hlen he hsum
    have hlt : ρ.length < 2 * l.bGInputs + bN := by simp at hlen; omega
    have h0 := hsum 0 c rfl
    simp only [List.take_zero, List.nil_append, List.length_cons, Nat.sub_zero, Nat.add_sub_cancel] at h0
    have hn : 2 * l.bGInputs + bN - (ρ.length + 1) = cs.length := by simp at hlen; omega
    refine ⟨?_, ?_⟩
    · rw [hs]
      refine ⟨l, hl, ?_⟩
      rw [if_pos hlt, hn]
      exact h0
    · have hst : stageAfter bN bG layers U (past ++ [(c, H past c)]) =
          .layer i t (ρ ++ [H past c]) ((polyOf c).eval (H past c)) := by
        rw [stageAfter_snoc, hs]
        unfold step
        dsimp only
        rw [hl]
        dsimp only
        rw [if_pos hlt, if_pos]
        rw [h0, h0, he, show 2 * l.bGInputs + bN - ρ.length = cs.length + 1 by omega]
        rfl
      refine ih _ _ _ hst (by simp at hlen ⊢; omega) ?_ ?_
      · rw [h0, List.length_append, List.length_singleton, hn]
        simp
      · intro j d hd x
        have := hsum (j + 1) d (by simpa using hd) x
        rw [chal] at this
        rw [this, List.length_cons, show cs.length + 1 - 1 - (j + 1) = cs.length - 1 - j by omega]
        simp

/-- Proving one layer. -/
theorem layerT_run [SmallCasts F] {i : Nat} {l : Layer F} (hl : layers[i]? = some l) (hgl : GoodLayer l) (W : List F)
    (hW : W.length = 2 ^ (l.bGInputs + bN)) (t : Goal F) (ht : t.point.length = bN) (past : List (List F × F)) (e : F)
    (hs : stageAfter bN bG layers U past = .layer i t [] e) (he : e = cubeSum (2 * l.bGInputs + bN) (goalSummand l W t)) :
    ∃ (out : SumcheckOut F) (tl : List F), (newSProver W W (tab (2 ^ bN) (chi t.point)) l.gates (l.gates.map fun g =>
        tab (2 ^ (2 * l.bGInputs)) (staticW l.wires g.id t.weight l.bGInputs))).proveT H past =
        .ok (out, say H past out.polyCoeffs) ∧
      out.qL.length = l.bGInputs ∧ out.qR.length = l.bGInputs ∧ out.qPrime.length = bN ∧ RoundShape l bN out.polyCoeffs ∧
      out.finalClaims = mle W (out.qL ++ out.qPrime) :: mle W (out.qR ++ out.qPrime) :: tl ∧
      stageAfter bN bG layers U (say H past out.polyCoeffs) = .layer i t (out.qL ++ out.qR ++ out.qPrime)
        (goalSummand l W t (out.qL ++ out.qR ++ out.qPrime)) ∧
      (V i = W → AllTrue bN bG layers U V H past out.polyCoeffs) := by
  obtain ⟨out, h1, h2, h3, h4, h5, h6, h7, h8, h9⟩ := proveT_spec H hgl.lawful hgl.degrees hgl.nonempty (bN := bN) (bG := l.bGInputs)
    (vL := W) (vR := W) (eq := tab (2 ^ bN) (chi t.point)) (statics := l.gates.map fun g =>
        tab (2 ^ (2 * l.bGInputs)) (staticW l.wires g.id t.weight l.bGInputs))
    ⟨hW, hW, by simp, by simp, by
      intro u hu
      obtain ⟨g, _, rfl⟩ := List.mem_map.1 hu
      rw [tab_length, two_mul]⟩ past
  have hlen : out.polyCoeffs.length = 2 * l.bGInputs + bN := by
    have := congrArg List.length h5
    simp at this
    omega
  have hne : ∀ c ∈ out.polyCoeffs, c ≠ [] := by
    intro c hc hnil
    have : c.length ∈ out.polyCoeffs.map List.length := List.mem_map_of_mem hc
    rw [h5, hnil] at this
    simp only [List.mem_append, List.mem_replicate, List.length_nil] at this
    omega
  have hsum : hypercubeSum l.gates bN l.bGInputs W W (tab (2 ^ bN) (chi t.point)) (l.gates.map fun g =>
        tab (2 ^ (2 * l.bGInputs)) (staticW l.wires g.id t.weight l.bGInputs)) = e := by
    rw [he, ← ht, cubeSum_goal hgl]
  rw [hsum] at h7
  have hval := goalSummand_eq hgl W t (out.qL ++ out.qR ++ out.qPrime) (by simp [h2, h3, h4, ht]; omega)
  rw [ht] at hval
  unfold summand at hval
  have t1 : (out.qL ++ out.qR ++ out.qPrime).take l.bGInputs = out.qL := by rw [← h2]; simp
  have t2 : ((out.qL ++ out.qR ++ out.qPrime).drop l.bGInputs).take l.bGInputs = out.qR := by
    rw [← h2, List.append_assoc, List.drop_left, h2, ← h3, List.take_left]
  have t3 : (out.qL ++ out.qR ++ out.qPrime).drop (2 * l.bGInputs) = out.qPrime :=
    List.drop_left' (by rw [List.length_append, h2, h3]; omega)
  have t4 : (out.qL ++ out.qR ++ out.qPrime).take (2 * l.bGInputs) = out.qL ++ out.qR :=
    List.take_left' (by rw [List.length_append, h2, h3]; omega)
  rw [t1, t2, t3, t4] at hval
  refine ⟨out, _, h1, h2, h3, h4, h5, h6, ?_, ?_⟩
  swap
  · intro hVW
    refine rounds_allTrue H hl t out.polyCoeffs past [] e hs (by simp [hlen]) (by rw [he, hVW]; simp) ?_
    intro j c hc x
    have hj : j < out.polyCoeffs.length := (List.getElem?_eq_some_iff.1 hc).1
    rw [h9 j c hc x, hlen, ← two_mul]
    refine cubeSum_ext _ _ _ fun b hb => ?_
    rw [hVW, List.nil_append, ← h8, goalSummand_eq hgl W t _ (by simp [h2, h3, h4, ht, hb]; omega), ht]
  rcases loopT_spec bN bG layers U H hl t out.polyCoeffs e past [] hs (by simp [hlen]) hne with ⟨a, _⟩ | ⟨chs, e', a, _, b⟩
  · rw [h7] at a; cases a
  · rw [h7] at a
    have a := Option.some.inj (Except.ok.inj a)
    simp only [Prod.mk.injEq] at a
    rw [b, List.nil_append, ← a.1, ← a.2.1, hval]

/-- The messages of the layers below `i`, after the rounds of layer `i`. -/
def tailMsgs (f : Nat → Msg F) : Nat → List (List F)
  | 0 => []
  | i + 1 => [(f (i + 1)).left, (f (i + 1)).right] :: fromMsgs f i

theorem fromMsgs_tail (f : Nat → Msg F) : ∀ i, fromMsgs f i = (f i).rounds ++ tailMsgs f i
  | 0 => by simp [fromMsgs, tailMsgs]
  | i + 1 => by rw [fromMsgs, tailMsgs]

theorem tailMsgs_congr {f g : Nat → Msg F} (i : Nat) (hi : (f i).left = (g i).left ∧ (f i).right = (g i).right) (h : ∀ j < i, f j = g j) :
    tailMsgs f i = tailMsgs g i := by
  cases i with
  | zero => rfl
  | succ i => rw [tailMsgs, tailMsgs, hi.1, hi.2, fromMsgs_congr i fun j hj => h j (by omega)]

/-- The messages in what the sumchecks put out. -/
def outMsg (outs : List (SumcheckOut F)) (j : Nat) : Msg F :=
  match outs[j]? with
  | some o => ⟨o.polyCoeffs, o.finalClaims.getD 0 0, o.finalClaims.getD 1 0⟩
  | none => ⟨[], 0, 0⟩

/-- The layers below `i`. -/
theorem proveLayersT_run [SmallCasts F] (c : Circuit F) (tables : List (Table F)) (hc : ∀ l ∈ c.layers, GoodLayer l)
    (hch : ∀ (i : Nat) (l l' : Layer F), c.layers[i]? = some l → c.layers[i + 1]? = some l' → l.bGOutputs = l'.bGInputs)
    (hV : TrueValues bN c.layers V T) (htab : ∀ (i : Nat) (l : Layer F), c.layers[i]? = some l → tables[i]? = some (V i) ∧
      (V i).length = 2 ^ (l.bGInputs + bN)) (i : Nat) :
    ∀ (l : Layer F) (t : Goal F) (out : SumcheckOut F) (tl : List F) (past : List (List F × F)), c.layers[i]? = some l →
      out.qL.length = l.bGInputs → out.qR.length = l.bGInputs → out.qPrime.length = bN →
      out.finalClaims = mle (V i) (out.qL ++ out.qPrime) :: mle (V i) (out.qR ++ out.qPrime) :: tl →
      stageAfter bN bG c.layers U past = .layer i t (out.qL ++ out.qR ++ out.qPrime)
        (goalSummand l (V i) t (out.qL ++ out.qR ++ out.qPrime)) →
    ∃ outs : List (SumcheckOut F), proveLayersT H c tables i out past = .ok outs ∧ outs.length = i ∧
      (∀ (j : Nat) (o : SumcheckOut F), outs[j]? = some o → (∀ l, c.layers[j]? = some l → RoundShape l bN o.polyCoeffs) ∧ ∃ x y r, o.finalClaims = x :: y :: r) ∧
      Accepting bN c.layers (V 0) (outMsg (outs ++ [out]) 0).left (outMsg (outs ++ [out]) 0).right
        (stageAfter bN bG c.layers U (say H past (tailMsgs (outMsg (outs ++ [out])) i))) ∧
      AllTrue bN bG c.layers U V H past (tailMsgs (outMsg (outs ++ [out])) i) := by
  induction i with
  | zero =>
    intro l t out tl past hl h2 h3 h4 h6 hs
    refine ⟨[], rfl, rfl, by simp, ?_, trivial⟩
    have t1 : (out.qL ++ out.qR ++ out.qPrime).take l.bGInputs = out.qL := by rw [← h2]; simp
    have t2 : ((out.qL ++ out.qR ++ out.qPrime).drop l.bGInputs).take l.bGInputs = out.qR := by
      rw [← h2, List.append_assoc, List.drop_left, h2, ← h3, List.take_left]
    have t3 : (out.qL ++ out.qR ++ out.qPrime).drop (2 * l.bGInputs) = out.qPrime :=
      List.drop_left' (by rw [List.length_append, h2, h3]; omega)
    refine ⟨l, t, _, _, hl, hs, by simp [h2, h3, h4]; omega, ?_, ?_, ?_⟩
    · unfold goalSummand valueAt outMsg
      simp only [List.nil_append, List.getElem?_cons_zero, h6, t1, t2, t3, List.getD_cons_zero, List.getD_cons_succ]
    · rw [t1, t3]; simp [outMsg, h6]
    · rw [t2, t3]; simp [outMsg, h6]
  | succ i ih =>
    intro l t out tl past hl h2 h3 h4 h6 hs
    have hlt : i + 1 < c.layers.length := (List.getElem?_eq_some_iff.1 hl).1
    obtain ⟨l', hl'⟩ : ∃ l', c.layers[i]? = some l' := ⟨_, List.getElem?_eq_getElem (by omega)⟩
    have hlink := hch i l' l hl' hl
    have hgl' := hc l' (List.mem_of_getElem? hl')
    have t1 : (out.qL ++ out.qR ++ out.qPrime).take l.bGInputs = out.qL := by rw [← h2]; simp
    have t2 : ((out.qL ++ out.qR ++ out.qPrime).drop l.bGInputs).take l.bGInputs = out.qR := by
      rw [← h2, List.append_assoc, List.drop_left, h2, ← h3, List.take_left]
    have t3 : (out.qL ++ out.qR ++ out.qPrime).drop (2 * l.bGInputs) = out.qPrime :=
      List.drop_left' (by rw [List.length_append, h2, h3]; omega)
    set cl := mle (V (i + 1)) (out.qL ++ out.qPrime) with hcl
    set cr := mle (V (i + 1)) (out.qR ++ out.qPrime) with hcr
    set a := H past [cl, cr] with ha
    set t' : Goal F := ⟨cl + a * cr, out.qPrime, fun O => chi out.qL O + a * chi out.qR O⟩ with ht'
    have hst : stageAfter bN bG c.layers U (past ++ [([cl, cr], a)]) = .layer i t' [] (cl + a * cr) := by
      rw [stageAfter_snoc, hs]
      unfold step
      dsimp only
      rw [hl]
      dsimp only
      rw [if_neg (by simp [h2, h3, h4]; omega), if_pos]
      · unfold goalAfter
        rw [t1, t2, t3]
      · unfold goalSummand valueAt
        simp only [t1, t2, t3, hcl, hcr]
    have hg := goal_below hgl' (V i) bN out.qL out.qR out.qPrime (cl + a * cr) a (by omega) (by omega) h4
    rw [← hV.below i l' l hl' hl] at hg
    obtain ⟨htb, hWl⟩ := htab i l' hl'
    obtain ⟨out', tl', g1, g2, g3, g4, g5, g6, g7, g8⟩ := layerT_run (V := V) H hl' hgl' (V i) hWl t' h4 (past ++ [([cl, cr], a)]) _ hst hg.symm
    obtain ⟨outs, o1, o2, o3, o4, o5⟩ := ih l' t' out' tl' _ hl' g2 g3 g4 g6 g7
    have hsp : intermediateRoundT l' (V i) out.qPrime out.qL out.qR a = .ok (newSProver (V i) (V i) (tab (2 ^ bN) (chi t'.point))
        l'.gates (l'.gates.map fun g => tab (2 ^ (2 * l'.bGInputs)) (staticW l'.wires g.id t'.weight l'.bGInputs))) := by
      unfold intermediateRoundT
      rw [getFoldedEqTable_eq, ok_bind, linComb_static hgl'.toRunLayer out.qL out.qR (by omega) (by omega), ok_bind, h4]
      have : ∀ g : Gate F, (fun u => staticF l'.wires g.id out.qR l'.bGInputs u * a + staticF l'.wires g.id out.qL l'.bGInputs u * 1) =
          staticW l'.wires g.id t'.weight l'.bGInputs := by
        intro g
        funext u
        rw [staticF_eq_W, staticF_eq_W, ht']
        dsimp only
        rw [staticW_comb]
      simp only [this]
      rfl
    have hrun : proveLayersT H c tables (i + 1) out past = .ok (outs ++ [out']) := by
      rw [proveLayersT, h6]
      change (idx c.layers i >>= _) = _
      rw [idx_some hl', ok_bind, idx_some htb, ok_bind]
      change (intermediateRoundT l' (V i) out.qPrime out.qL out.qR a >>= _) = _
      rw [hsp, ok_bind]
      change (SProver.proveT H _ (past ++ [([cl, cr], a)]) >>= _) = _
      rw [g1, ok_bind]
      change (proveLayersT H c tables i out' _ >>= _) = _
      rw [o1, ok_bind]
      rfl
    have hm0 : ∀ j ≤ i, outMsg (outs ++ [out'] ++ [out]) j = outMsg (outs ++ [out']) j := by
      intro j hj
      unfold outMsg
      rw [List.getElem?_append_left (by simp; omega)]
    have hm1 : outMsg (outs ++ [out'] ++ [out]) (i + 1) = ⟨out.polyCoeffs, cl, cr⟩ := by
      unfold outMsg
      rw [List.getElem?_append_right (by simp; omega)]
      simp [o2, h6]
    have hmi : outMsg (outs ++ [out']) i = ⟨out'.polyCoeffs, mle (V i) (out'.qL ++ out'.qPrime), mle (V i) (out'.qR ++ out'.qPrime)⟩ := by
      unfold outMsg
      rw [List.getElem?_append_right (by omega)]
      simp [o2, g6]
    refine ⟨outs ++ [out'], hrun, by simp [o2], ?_, ?_, ?_⟩
    · intro j o hj
      by_cases hji : j < i
      · rw [List.getElem?_append_left (by omega)] at hj
        exact o3 j o hj
      · have : j = i := by
          have := (List.getElem?_eq_some_iff.1 hj).1
          simp at this
          omega
        subst this
        rw [List.getElem?_append_right (by omega), o2, Nat.sub_self] at hj
        obtain rfl : out' = o := by simpa using hj
        refine ⟨?_, _, _, _, g6⟩
        intro l'' hl''
        rw [hl'] at hl''
        rw [← Option.some.inj hl'']
        exact g5
    · rw [hm0 0 (by omega), tailMsgs, hm1, say_cons, fromMsgs_congr i hm0, fromMsgs_tail, say_append, hmi]
      exact o4
    · rw [tailMsgs, hm1, fromMsgs_congr i hm0, fromMsgs_tail, hmi]
      refine ⟨?_, (allTrue_append H _ _ _).2 ⟨g8 rfl, o5⟩⟩
      rw [hs]
      refine ⟨l, hl, ?_⟩
      rw [if_neg (by simp [h2, h3, h4]; omega), t1, t2, t3]

end

end GkrMimc
