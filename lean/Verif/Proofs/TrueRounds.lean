import Verif.Proofs.SumcheckComplete
import Verif.Proofs.SumcheckSound
import Verif.Spec.TrueProof

/-! The polynomials of the honest sumcheck prover are the partial sums of the summand. -/

set_option linter.unusedSectionVars false

namespace GkrMimc

open Spec Finset Polynomial

variable {F : Type} [Field F] [DecidableEq F]

theorem cubeSum_append (a b : Nat) : ∀ g : List F → F,
    cubeSum (a + b) g = cubeSum a (fun x => cubeSum b (fun y => g (x ++ y))) := by
  induction a with
  | zero => intro g; rw [Nat.zero_add]; rfl
  | succ a ih =>
    intro g
    rw [show a + 1 + b = (a + b) + 1 by omega, cubeSum, cubeSum, ih, ih]
    rfl

theorem cubeSum_ext (n : Nat) : ∀ (f g : List F → F), (∀ b, b.length = n → f b = g b) → cubeSum n f = cubeSum n g := by
  induction n with
  | zero => intro f g h; exact h [] rfl
  | succ n ih =>
    intro f g h
    rw [cubeSum, cubeSum, ih _ _ (fun b hb => h (0 :: b) (by simp [hb])), ih _ _ (fun b hb => h (1 :: b) (by simp [hb]))]

theorem polyOf_tab (P : F[X]) (n : Nat) (h : P.natDegree < n) : polyOf (tab n P.coeff) = P := by
  conv_rhs => rw [P.as_sum_range_C_mul_X_pow' (n := n) h]
  unfold polyOf
  rw [tab_length]
  apply Finset.sum_congr rfl
  intro i hi
  rw [tab_getD (mem_range.1 hi)]

section
variable {n : Nat} {evals : SProver F → Go (List F)} {foldX : SProver F → F → SProver F} {Good : Nat → SProver F → Prop}
  {sum : Nat → SProver F → F}

theorem RoundsOk.good (h : RoundsOk n evals foldX Good sum) (k : Nat) : ∀ (qs : List F) (p : SProver F), Good (k + qs.length) p →
    Good k (qs.foldl foldX p) := by
  intro qs
  induction qs with
  | nil => intro p hp; exact hp
  | cons q qs ih =>
    intro p hp
    obtain ⟨_, _, _, _, _, _, _, hg⟩ := h.step (k + qs.length) p hp
    exact ih _ (hg q)

/-- The sum of a state, over the Boolean values of all its variables. -/
theorem RoundsOk.sum_split (h : RoundsOk n evals foldX Good sum) (k : Nat) : ∀ p, Good k p →
    sum k p = cubeSum k (fun b => sum 0 (b.foldl foldX p)) := by
  induction k with
  | zero => intro p _; rfl
  | succ k ih =>
    intro p hp
    obtain ⟨P, _, _, _, _, hsum, hsplit, hgood⟩ := h.step k p hp
    rw [hsplit, hsum, hsum, ih _ (hgood 0), ih _ (hgood 1)]
    rfl

/-- The polynomials of a phase, as sums of folded states. -/
theorem RoundsOk.polys [SmallCasts F] (H : List F → F) (h : RoundsOk n evals foldX Good sum) (k : Nat) :
    ∀ p, Good k p → ∀ {p' : SProver F} {cs : List (List F)} {qs : List F}, rounds H evals foldX k p = .ok (p', cs, qs) →
      p' = qs.foldl foldX p ∧ qs = cs.map H ∧ cs.length = k ∧
      ∀ (j : Nat) (c : List F), cs[j]? = some c → ∀ x,
        (polyOf c).eval x = sum (k - 1 - j) ((qs.take j ++ [x]).foldl foldX p) := by
  induction k with
  | zero =>
    intro p _ p' cs qs hr
    have : (p, ([] : List (List F)), ([] : List F)) = (p', cs, qs) := Except.ok.inj hr
    simp only [Prod.mk.injEq] at this
    obtain ⟨rfl, rfl, rfl⟩ := this
    exact ⟨rfl, rfl, rfl, by simp⟩
  | succ k ih =>
    intro p hp p' cs qs hr
    obtain ⟨P, hn0, hn, hdeg, hev, hsum, hsplit, hgood⟩ := h.step k p hp
    have hint : interpolateOnRange (tab n (fun t => P.eval (t : F))) = .ok (tab n P.coeff) :=
      interpolateOnRange_poly n hn0 hn P hdeg
    rw [rounds_succ, hev, ok_bind, hint, ok_bind, bind_eq_ok] at hr
    obtain ⟨⟨p1, cs1, qs1⟩, h1, h2⟩ := hr
    obtain ⟨a1, a2, a3, a4⟩ := ih _ (hgood _) h1
    have := Except.ok.inj h2
    simp only [Prod.mk.injEq] at this
    obtain ⟨rfl, rfl, rfl⟩ := this
    refine ⟨a1, by rw [a2]; rfl, by simp [a3], ?_⟩
    intro j c hc x
    rcases j with _ | j
    · simp only [List.getElem?_cons_zero, Option.some.injEq] at hc
      subst hc
      rw [polyOf_tab P n hdeg, hsum]
      rfl
    · rw [List.getElem?_cons_succ] at hc
      rw [a4 j c hc x, show k + 1 - 1 - (j + 1) = k - 1 - j by omega]
      rfl

end

/-- The sum left when all variables have been given values. -/
theorem final_sum {gates : List (Gate F)} (hg : ∀ g ∈ gates, LawfulGate g)
    (hd : DegreesOk gates) (hne : gates ≠ []) {bN bG : Nat} {vL vR eq : List F} {statics : List (List F)}
    (h : Sized gates bN bG vL vR eq statics) (qL qR qP : List F) (lL : qL.length = bG) (lR : qR.length = bG) (lP : qP.length = bN) :
    sumOf 1 1 (qP.foldl SProver.foldHPrime (qR.foldl SProver.foldHR (qL.foldl SProver.foldHL (newSProver vL vR eq gates statics)))) =
      summand gates bG vL vR eq statics (qL ++ (qR ++ qP)) := by
  have hn : 0 < 2 ^ bN := Nat.two_pow_pos _
  have hG : 0 < 2 ^ bG := Nat.two_pow_pos _
  set p0 := newSProver vL vR eq gates statics with hp0
  have hp0' := h.mkP_eq
  rw [← hp0] at hp0'
  have gL := (roundsOkL hg hd hne hG hn).good 0 qL p0 (by rw [Nat.zero_add, lL]; exact ⟨_, _, _, _, hp0'⟩)
  set p1 := qL.foldl SProver.foldHL p0 with hp1
  have g1 : GoodR gates (2 ^ bN) bG p1 := by simpa [GoodL, GoodR] using gL
  have gR := (roundsOkR hg hd hn).good 0 qR p1 (by rw [Nat.zero_add, lR]; exact g1)
  set p2 := qR.foldl SProver.foldHR p1 with hp2
  have g2 : GoodP gates bN p2 := by simpa [GoodP, GoodR] using gR
  have gP := (roundsOkP hg hd).good 0 qP p2 (by rw [Nat.zero_add, lP]; exact g2)
  set p3 := qP.foldl SProver.foldHPrime p2 with hp3
  have hp3' : p3 = newSProver (qP.foldl fold (qL.foldl fold vL)) (qP.foldl fold (qR.foldl fold vR))
      (qP.foldl fold eq) gates (statics.map (fun t => qR.foldl fold (qL.foldl fold t))) := by
    rw [hp3, foldl_foldHPrime, hp2, foldl_foldHR, hp1, foldl_foldHL, hp0]
    simp [newSProver, Function.comp_def]
  have eL : idx p3.vL 0 = .ok (mle vL (qL ++ qP)) := by
    rw [hp3']
    have := evaluate_eq vL (qL ++ qP) (by rw [h.lenL, List.length_append, lL, lP])
    rwa [evaluate, List.foldl_append] at this
  have eR : idx p3.vR 0 = .ok (mle vR (qR ++ qP)) := by
    rw [hp3']
    have := evaluate_eq vR (qR ++ qP) (by rw [h.lenR, List.length_append, lR, lP])
    rwa [evaluate, List.foldl_append] at this
  have eE : idx p3.eq 0 = .ok (mle eq qP) := by
    rw [hp3']
    exact evaluate_eq eq qP (by rw [h.lenEq, lP])
  have eS : mapGo (fun t => idx t 0) p3.statics = .ok (statics.map (fun t => mle t (qL ++ qR))) := by
    rw [hp3']
    have : ∀ ts : List (List F), (∀ t ∈ ts, t.length = 2 ^ (bG + bG)) →
        mapGo (fun t => idx t 0) (ts.map (fun t => qR.foldl fold (qL.foldl fold t))) =
          .ok (ts.map (fun t => mle t (qL ++ qR))) := by
      intro ts
      induction ts with
      | nil => intro _; rfl
      | cons t ts ih =>
        intro hts
        have e1 := evaluate_eq t (qL ++ qR) (by rw [hts t (by simp), List.length_append, lL, lR])
        rw [evaluate, List.foldl_append] at e1
        rw [List.map_cons, mapGo, e1, ih (fun t' h' => hts t' (by simp [h']))]
        rfl
    exact this statics h.lenStatic
  obtain ⟨a, b, c, d, hm⟩ := gP
  rw [pow_zero] at hm
  have hstl : ∀ i (hi : i < gates.length), (statics.map (fun t => mle t (qL ++ qR))).getD i 0 = d i 0 := by
    intro i hi
    rw [hm] at eS
    unfold mkP newSProver at eS
    simp only at eS
    rw [mapGo_ok (fun t : List F => t.getD 0 0)] at eS
    · rw [← Except.ok.inj eS, tab_map, tab_getD hi]
      exact tab_getD (by omega)
    · intro x hx
      obtain ⟨i, _, rfl⟩ := List.mem_map.1 hx
      rw [idx_tab (by omega)]; exact congrArg _ (tab_getD (by omega)).symm
  have hmL : mle vL (qL ++ qP) = a 0 := by
    rw [hm] at eL; unfold mkP newSProver at eL; simp only at eL
    rw [idx_tab (by omega)] at eL; exact (Except.ok.inj eL).symm
  have hmR : mle vR (qR ++ qP) = b 0 := by
    rw [hm] at eR; unfold mkP newSProver at eR; simp only at eR
    rw [idx_tab (by omega)] at eR; exact (Except.ok.inj eR).symm
  have hmE : mle eq qP = c 0 := by
    rw [hm] at eE; unfold mkP newSProver at eE; simp only at eE
    rw [idx_tab (by omega)] at eE; exact (Except.ok.inj eE).symm
  have t1 : (qL ++ (qR ++ qP)).take bG = qL := by simp [← lL]
  have t2 : ((qL ++ (qR ++ qP)).drop bG).take bG = qR := by
    rw [← lL, List.drop_left, lL, ← lR, List.take_left]
  have t3 : (qL ++ (qR ++ qP)).drop (2 * bG) = qP := by
    rw [two_mul, ← List.append_assoc]
    have : bG + bG = (qL ++ qR).length := by simp [lL, lR]
    rw [this, List.drop_left]
  have t4 : (qL ++ (qR ++ qP)).take (2 * bG) = qL ++ qR := by
    rw [two_mul, ← List.append_assoc]
    have : bG + bG = (qL ++ qR).length := by simp [lL, lR]
    rw [this, List.take_left]
  unfold summand
  rw [t1, t2, t3, t4, hm, sumOf_mkP, hmL, hmR, hmE]
  unfold hsum combinator
  simp only [Finset.sum_range_one, zero_mul, zero_add]
  rw [Finset.sum_range, Finset.sum_mul]
  apply Finset.sum_congr rfl; intro i _
  rw [hstl i i.2, gateF_eq i.2]
  simp only [Fin.getElem_fin]
  ring

/-- Where a state stands after the first phases. -/
theorem sized_toR {gates : List (Gate F)} (hg : ∀ g ∈ gates, LawfulGate g) (hd : DegreesOk gates) (hne : gates ≠ [])
    {bN bG : Nat} {vL vR eq : List F} {statics : List (List F)} (h : Sized gates bN bG vL vR eq statics) (q : List F)
    (hq : q.length = bG) : GoodR gates (2 ^ bN) bG (q.foldl SProver.foldHL (newSProver vL vR eq gates statics)) := by
  have := (roundsOkL hg hd hne (Nat.two_pow_pos bG) (Nat.two_pow_pos bN)).good 0 q _ (by
    rw [Nat.zero_add, hq]; exact ⟨_, _, _, _, h.mkP_eq⟩)
  simpa [GoodL, GoodR] using this

theorem sized_toP {gates : List (Gate F)} (hg : ∀ g ∈ gates, LawfulGate g) (hd : DegreesOk gates) (hne : gates ≠ [])
    {bN bG : Nat} {vL vR eq : List F} {statics : List (List F)} (h : Sized gates bN bG vL vR eq statics) (q q' : List F)
    (hq : q.length = bG) (hq' : q'.length = bG) :
    GoodP gates bN (q'.foldl SProver.foldHR (q.foldl SProver.foldHL (newSProver vL vR eq gates statics))) := by
  have := (roundsOkR hg hd (gates := gates) (Nat.two_pow_pos bN)).good 0 q' _ (by
    rw [Nat.zero_add, hq']; exact sized_toR hg hd hne h q hq)
  simpa [GoodP, GoodR] using this

/-- The polynomials of the three phases together. -/
theorem phases_sums {gates : List (Gate F)} (hg : ∀ g ∈ gates, LawfulGate g)
    (hd : DegreesOk gates) (hne : gates ≠ []) {bN bG : Nat} {vL vR eq : List F} {statics : List (List F)}
    (h : Sized gates bN bG vL vR eq statics) {cL cR cP : List (List F)} {qL qR qP : List F}
    (a3 : cL.length = bG) (b3 : cR.length = bG) (c3 : cP.length = bN)
    (lqL : qL.length = bG) (lqR : qR.length = bG) (lqP : qP.length = bN)
    (a4 : ∀ (j : Nat) (c : List F), cL[j]? = some c → ∀ x, (polyOf c).eval x =
      sumOf (2 ^ (bG - 1 - j)) (2 ^ bG) ((qL.take j ++ [x]).foldl SProver.foldHL (newSProver vL vR eq gates statics)))
    (b4 : ∀ (j : Nat) (c : List F), cR[j]? = some c → ∀ x, (polyOf c).eval x =
      sumOf 1 (2 ^ (bG - 1 - j)) ((qR.take j ++ [x]).foldl SProver.foldHR
        (qL.foldl SProver.foldHL (newSProver vL vR eq gates statics))))
    (c4 : ∀ (j : Nat) (c : List F), cP[j]? = some c → ∀ x, (polyOf c).eval x =
      sumOf 1 1 ((qP.take j ++ [x]).foldl SProver.foldHPrime (qR.foldl SProver.foldHR
        (qL.foldl SProver.foldHL (newSProver vL vR eq gates statics)))))
    (j : Nat) (c : List F) (hc : (cL ++ cR ++ cP)[j]? = some c) (x : F) :
    (polyOf c).eval x = cubeSum (bG + bG + bN - 1 - j)
      (fun b => summand gates bG vL vR eq statics ((qL ++ (qR ++ qP)).take j ++ x :: b)) := by
  have hn : 0 < 2 ^ bN := Nat.two_pow_pos _
  have hG : 0 < 2 ^ bG := Nat.two_pow_pos _
  have okL := roundsOkL hg hd hne hG hn
  have okR := roundsOkR hg hd (gates := gates) hn
  have okP := roundsOkP hg hd (gates := gates)
  have toR := sized_toR hg hd hne h
  have toP := sized_toP hg hd hne h
  have g0 : GoodL gates (2 ^ bG) (2 ^ bN) bG (newSProver vL vR eq gates statics) := ⟨_, _, _, _, h.mkP_eq⟩
  set p0 := newSProver vL vR eq gates statics with hp0
  -- the sums left by the first two phases
  have sumP : ∀ q q' : List F, q.length = bG → q'.length = bG →
      sumOf 1 1 (q'.foldl SProver.foldHR (q.foldl SProver.foldHL p0)) =
        cubeSum bN (fun b => summand gates bG vL vR eq statics (q ++ (q' ++ b))) := by
    intro q q' hq hq'
    rw [okP.sum_split bN _ (toP q q' hq hq')]
    exact cubeSum_ext _ _ _ fun b hb => final_sum hg hd hne h q q' b hq hq' hb
  have sumR : ∀ q : List F, q.length = bG → sumOf 1 (2 ^ bG) (q.foldl SProver.foldHL p0) =
        cubeSum (bG + bN) (fun b => summand gates bG vL vR eq statics (q ++ b)) := by
    intro q hq
    rw [okR.sum_split bG _ (toR q hq), cubeSum_append]
    refine cubeSum_ext _ _ _ fun b hb => ?_
    rw [pow_zero]
    exact sumP q b hq hb
  rcases Nat.lt_or_ge j bG with hj | hj
  · rw [List.append_assoc, List.getElem?_append_left (by omega)] at hc
    rw [a4 j c hc x, okL.sum_split (bG - 1 - j) _ (okL.good _ _ _ (by
      have : bG - 1 - j + (qL.take j ++ [x]).length = bG := by simp [lqL]; omega
      rw [this]; exact g0)), show bG + bG + bN - 1 - j = (bG - 1 - j) + (bG + bN) by omega, cubeSum_append]
    refine cubeSum_ext _ _ _ fun b hb => ?_
    rw [pow_zero, ← List.foldl_append, sumR _ (by simp [lqL, hb]; omega)]
    rw [List.take_append_of_le_length (by omega)]
    simp
  rcases Nat.lt_or_ge j (bG + bG) with hj2 | hj2
  · rw [List.append_assoc, List.getElem?_append_right (by omega), a3, List.getElem?_append_left (by omega)] at hc
    rw [b4 _ c hc x, okR.sum_split (bG - 1 - (j - bG)) _ (okR.good _ _ _ (by
      have : bG - 1 - (j - bG) + (qR.take (j - bG) ++ [x]).length = bG := by simp [lqR]; omega
      rw [this]; exact toR qL lqL)), show bG + bG + bN - 1 - j = (bG - 1 - (j - bG)) + bN by omega, cubeSum_append]
    refine cubeSum_ext _ _ _ fun b hb => ?_
    rw [pow_zero, ← List.foldl_append, sumP _ _ lqL (by simp [lqR, hb]; omega)]
    have e : (qL ++ (qR ++ qP)).take j = qL ++ qR.take (j - bG) := by
      rw [List.take_append, List.take_of_length_le (show qL.length ≤ j by omega), lqL, List.take_append_of_le_length (by omega)]
    rw [e]
    simp
  · rw [List.getElem?_append_right (by simp [a3, b3]; omega), List.length_append, a3, b3] at hc
    have hjl : j - (bG + bG) < bN := by have := (List.getElem?_eq_some_iff.1 hc).1; omega
    rw [c4 _ c hc x, okP.sum_split (bN - 1 - (j - (bG + bG))) _ (okP.good _ _ _ (by
      have : bN - 1 - (j - (bG + bG)) + (qP.take (j - (bG + bG)) ++ [x]).length = bN := by simp [lqP]; omega
      rw [this]; exact toP qL qR lqL lqR)), show bG + bG + bN - 1 - j = bN - 1 - (j - (bG + bG)) by omega]
    refine cubeSum_ext _ _ _ fun b hb => ?_
    rw [← List.foldl_append, final_sum hg hd hne h _ _ _ lqL lqR (by simp [lqP, hb]; omega)]
    have e : (qL ++ (qR ++ qP)).take j = qL ++ (qR ++ qP.take (j - (bG + bG))) := by
      rw [List.take_append, List.take_of_length_le (show qL.length ≤ j by omega), lqL, List.take_append,
        List.take_of_length_le (show qR.length ≤ j - bG by omega), lqR, show j - bG - bG = j - (bG + bG) by omega]
    rw [e]
    simp

/-- The polynomials of the honest prover are the partial sums of the summand. -/
theorem prove_sums [SmallCasts F] (H : List F → F) {gates : List (Gate F)} (hg : ∀ g ∈ gates, LawfulGate g)
    (hd : DegreesOk gates) (hne : gates ≠ []) {bN bG : Nat} {vL vR eq : List F} {statics : List (List F)}
    (h : Sized gates bN bG vL vR eq statics) {out : SumcheckOut F} (hout : (newSProver vL vR eq gates statics).prove H = .ok out) :
    TrueSums H out.polyCoeffs (summand gates bG vL vR eq statics) := by
  have hn : 0 < 2 ^ bN := Nat.two_pow_pos _
  have hG : 0 < 2 ^ bG := Nat.two_pow_pos _
  set p0 := newSProver vL vR eq gates statics with hp0
  have hp0' := h.mkP_eq
  rw [← hp0] at hp0'
  have okL := roundsOkL hg hd hne hG hn
  have okR := roundsOkR hg hd (gates := gates) hn
  have okP := roundsOkP hg hd (gates := gates)
  unfold SProver.prove at hout
  have d1 : p0.eq.length = 2 ^ bN := h.lenEq
  have d2 : p0.vR.length = 2 ^ bG * 2 ^ bN := by rw [← pow_add]; exact h.lenR
  have l1 : log2Ceil ((2 ^ bN : Nat) : Int) = bN := log2Ceil_pow bN
  have l2 : log2Ceil ((2 ^ bG : Nat) : Int) = bG := log2Ceil_pow bG
  simp only [d1, d2] at hout
  rw [goDiv_ok hn, ok_bind, Nat.mul_div_cancel _ hn, l1, l2, bind_eq_ok] at hout
  obtain ⟨⟨p1, cL, qL⟩, r1, hout⟩ := hout
  simp only at hout
  rw [bind_eq_ok] at hout
  obtain ⟨⟨p2, cR, qR⟩, r2, hout⟩ := hout
  simp only at hout
  rw [bind_eq_ok] at hout
  obtain ⟨⟨p3, cP, qP⟩, r3, hout⟩ := hout
  simp only at hout
  rw [bind_eq_ok] at hout
  obtain ⟨fc, r4, hout⟩ := hout
  have g0 : GoodL gates (2 ^ bG) (2 ^ bN) bG p0 := ⟨_, _, _, _, hp0'⟩
  obtain ⟨a1, a2, a3, a4⟩ := okL.polys H bG p0 g0 r1
  have toR := sized_toR hg hd hne h
  have toP := sized_toP hg hd hne h
  have lqL : qL.length = bG := by rw [a2, List.length_map, a3]
  subst a1
  obtain ⟨b1, b2, b3, b4⟩ := okR.polys H bG _ (toR qL lqL) r2
  have lqR : qR.length = bG := by rw [b2, List.length_map, b3]
  subst b1
  obtain ⟨c1, c2, c3, c4⟩ := okP.polys H bN _ (toP qL qR lqL lqR) r3
  have lqP : qP.length = bN := by rw [c2, List.length_map, c3]
  have ho : out.polyCoeffs = cL ++ cR ++ cP := by
    have := Except.ok.inj hout
    rw [← this]
  have hq : out.polyCoeffs.map H = qL ++ (qR ++ qP) := by rw [ho, a2, b2, c2]; simp
  intro j c hc x
  rw [hq]
  rw [ho] at hc ⊢
  have hlen : (cL ++ cR ++ cP).length = bG + bG + bN := by simp [a3, b3, c3]; omega
  rw [hlen]
  exact phases_sums hg hd hne h a3 b3 c3 lqL lqR lqP a4 b4 c4 j c hc x

end GkrMimc
