import Verif.Proofs.SumcheckRounds
import Verif.Spec.Sumcheck

/-! Completeness of the single-threaded sumcheck. -/

set_option linter.unusedSectionVars false

namespace GkrMimc

open Spec Finset Polynomial

variable {F : Type} [Field F] [DecidableEq F]

/-- The hypercube sum of a prover state with `A` left and `B` right indices. -/
def sumOf (A B : Nat) (p : SProver F) : F :=
  hsum p.gates A B p.eq.length (fun i => p.vL.getD i 0) (fun i => p.vR.getD i 0) (fun i => p.eq.getD i 0)
    (fun i u => (p.statics.getD i []).getD u 0)

theorem tab_getD {n : Nat} {f : Nat → F} {i : Nat} (h : i < n) : (tab n f).getD i 0 = f i := by
  rw [List.getD_eq_getElem?_getD, tab_getElem?, if_pos h]; rfl

theorem hsum_congr {gates : List (Gate F)} {A B n : Nat} {vL vR e vL' vR' e' : Nat → F} {s s' : Nat → Nat → F}
    (h1 : ∀ i < A * n, vL i = vL' i) (h2 : ∀ i < B * n, vR i = vR' i) (h3 : ∀ i < n, e i = e' i)
    (h4 : ∀ i < gates.length, ∀ u < A * B, s i u = s' i u) :
    hsum gates A B n vL vR e s = hsum gates A B n vL' vR' e' s' := by
  unfold hsum
  apply Finset.sum_congr rfl; intro h hh
  apply Finset.sum_congr rfl; intro l hl
  apply Finset.sum_congr rfl; intro r hr
  apply Finset.sum_congr rfl; intro i hi
  have hh := mem_range.1 hh
  have hl := mem_range.1 hl
  have hr := mem_range.1 hr
  rw [h1 _ (mul_add_lt hl hh), h2 _ (mul_add_lt hr hh), h3 _ hh, h4 i (mem_range.1 hi) _ (mul_add_lt hl hr)]

theorem sumOf_mkP (gates : List (Gate F)) (A B n : Nat) (vL vR e : Nat → F) (s : Nat → Nat → F) :
    sumOf A B (mkP gates A B n vL vR e s) = hsum gates A B n vL vR e s := by
  unfold sumOf mkP newSProver
  simp only [tab_length]
  apply hsum_congr
  · intro i hi; exact tab_getD hi
  · intro i hi; exact tab_getD hi
  · intro i hi; exact tab_getD hi
  · intro i hi u hu
    have : (tab gates.length fun i => tab (A * B) (s i)).getD i [] = tab (A * B) (s i) := by
      rw [List.getD_eq_getElem?_getD, tab_getElem?, if_pos hi]; rfl
    rw [this]; exact tab_getD hu

/-- Round polynomials of low degree: what interpolation needs. -/
def DegreesOk (gates : List (Gate F)) : Prop := ∀ g ∈ gates, g.degHL ≤ 10 ∧ g.degHR ≤ 10 ∧ g.degHPrime ≤ 10

theorem foldl_max_le {α : Type} (d : α → Nat) (b : Nat) (xs : List α) : ∀ z, z ≤ b → (∀ x ∈ xs, d x ≤ b) →
    xs.foldl (fun m x => max m (d x)) z ≤ b := by
  induction xs with
  | nil => intro z hz _; simpa using hz
  | cons a xs ih =>
    intro z hz h
    rw [List.foldl_cons]
    exact ih _ (by have := h a (by simp); omega) (fun x hx => h x (by simp [hx]))

theorem DegreesOk.bounds {gates : List (Gate F)} (h : DegreesOk gates) :
    degL gates ≤ 11 ∧ degR gates ≤ 11 ∧ degP gates ≤ 11 := by
  refine ⟨?_, ?_, ?_⟩
  · have := foldl_max_le (fun g : Gate F => g.degHL) 10 gates 0 (by omega) (fun g hg => (h g hg).1)
    unfold degL; omega
  · have := foldl_max_le (fun g : Gate F => g.degHR) 10 gates 0 (by omega) (fun g hg => (h g hg).2.1)
    unfold degR; omega
  · have := foldl_max_le (fun g : Gate F => g.degHPrime) 10 gates 0 (by omega) (fun g hg => (h g hg).2.2)
    unfold degP; omega

/-- Prover states of the three phases. -/
def GoodL (gates : List (Gate F)) (B n k : Nat) (p : SProver F) : Prop :=
  ∃ vL vR e s, p = mkP gates (2 ^ k) B n vL vR e s

/-- See `GoodL`. -/
def GoodR (gates : List (Gate F)) (n k : Nat) (p : SProver F) : Prop :=
  ∃ vL vR e s, p = mkP gates 1 (2 ^ k) n vL vR e s

/-- See `GoodL`. -/
def GoodP (gates : List (Gate F)) (k : Nat) (p : SProver F) : Prop :=
  ∃ vL vR e s, p = mkP gates 1 1 (2 ^ k) vL vR e s

theorem roundsOkL {gates : List (Gate F)} (hg : ∀ g ∈ gates, LawfulGate g) (hd : DegreesOk gates) (hne : gates ≠ [])
    {B n : Nat} (hB : 0 < B) (hn : 0 < n) :
    RoundsOk (degL gates + 1) SProver.getEvalsOnHL SProver.foldHL (GoodL gates B n) (fun k => sumOf (2 ^ k) B) where
  step := by
    rintro k p ⟨vL, vR, e, s, rfl⟩
    obtain ⟨P, h1, h2⟩ := foldSumL_poly gates hg (2 ^ k) B n vL vR e s
    have e1 : 2 ^ (k + 1) = 2 * 2 ^ k := by ring
    refine ⟨P, by omega, by have := hd.bounds; omega, by omega, ?_, ?_, ?_, ?_⟩
    · rw [e1, getEvalsOnHL_mkP gates hg hne _ _ _ hB hn]
      congr 1
      apply tab_congr; intro t _; rw [h2]
    · intro r; rw [h2, e1, foldHL_mkP, sumOf_mkP]; rfl
    · rw [h2, h2]; beta_reduce; rw [sumOf_mkP, e1, foldSumL_split]
    · intro r; rw [e1, foldHL_mkP]; exact ⟨_, _, _, _, rfl⟩

theorem roundsOkR {gates : List (Gate F)} (hg : ∀ g ∈ gates, LawfulGate g) (hd : DegreesOk gates)
    {n : Nat} (hn : 0 < n) :
    RoundsOk (degR gates + 1) SProver.getEvalsOnHR SProver.foldHR (GoodR gates n) (fun k => sumOf 1 (2 ^ k)) where
  step := by
    rintro k p ⟨vL, vR, e, s, rfl⟩
    obtain ⟨P, h1, h2⟩ := foldSumR_poly gates hg (2 ^ k) n vL vR e s
    have e1 : 2 ^ (k + 1) = 2 * 2 ^ k := by ring
    refine ⟨P, by omega, by have := hd.bounds; omega, by omega, ?_, ?_, ?_, ?_⟩
    · rw [e1, getEvalsOnHR_mkP gates hg _ _ hn]
      congr 1
      apply tab_congr; intro t _; rw [h2]
    · intro r; rw [h2, e1, foldHR_mkP, sumOf_mkP]; rfl
    · rw [h2, h2]; beta_reduce; rw [sumOf_mkP, e1, foldSumR_split]
    · intro r; rw [e1, foldHR_mkP]; exact ⟨_, _, _, _, rfl⟩

theorem roundsOkP {gates : List (Gate F)} (hg : ∀ g ∈ gates, LawfulGate g) (hd : DegreesOk gates) :
    RoundsOk (degP gates + 1) SProver.getEvalsOnHPrime SProver.foldHPrime (GoodP gates) (fun _ => sumOf 1 1) where
  step := by
    rintro k p ⟨vL, vR, e, s, rfl⟩
    obtain ⟨P, h1, h2⟩ := foldSumP_poly gates hg (2 ^ k) vL vR e s
    have e1 : 2 ^ (k + 1) = 2 * 2 ^ k := by ring
    refine ⟨P, by omega, by have := hd.bounds; omega, by omega, ?_, ?_, ?_, ?_⟩
    · rw [e1, getEvalsOnHPrime_mkP]
      congr 1
      apply tab_congr; intro t _; rw [h2]
    · intro r; rw [h2, e1, foldHPrime_mkP, sumOf_mkP]; rfl
    · rw [h2, h2]; beta_reduce; rw [sumOf_mkP, e1, foldSumP_split]
    · intro r; rw [e1, foldHPrime_mkP]; exact ⟨_, _, _, _, rfl⟩

/-! What the folds do to each table. -/

theorem foldl_foldHL (qs : List F) : ∀ p : SProver F, qs.foldl SProver.foldHL p =
    { p with statics := p.statics.map (fun t => qs.foldl fold t), vL := qs.foldl fold p.vL } := by
  induction qs with
  | nil => intro p; simp
  | cons q qs ih => intro p; rw [List.foldl_cons, ih]; simp [SProver.foldHL, Function.comp_def]

theorem foldl_foldHR (qs : List F) : ∀ p : SProver F, qs.foldl SProver.foldHR p =
    { p with statics := p.statics.map (fun t => qs.foldl fold t), vR := qs.foldl fold p.vR } := by
  induction qs with
  | nil => intro p; simp
  | cons q qs ih => intro p; rw [List.foldl_cons, ih]; simp [SProver.foldHR, Function.comp_def]

theorem foldl_foldHPrime (qs : List F) : ∀ p : SProver F, qs.foldl SProver.foldHPrime p =
    { p with vL := qs.foldl fold p.vL, vR := qs.foldl fold p.vR, eq := qs.foldl fold p.eq } := by
  induction qs with
  | nil => intro p; simp
  | cons q qs ih => intro p; rw [List.foldl_cons, ih]; simp [SProver.foldHPrime]

/-- Well-sized tables. -/
structure Sized (gates : List (Gate F)) (bN bG : Nat) (vL vR eq : List F) (statics : List (List F)) : Prop where
  lenL : vL.length = 2 ^ (bG + bN)
  lenR : vR.length = 2 ^ (bG + bN)
  lenEq : eq.length = 2 ^ bN
  lenStatics : statics.length = gates.length
  lenStatic : ∀ t ∈ statics, t.length = 2 ^ (bG + bG)

theorem Sized.mkP_eq {gates : List (Gate F)} {bN bG : Nat} {vL vR eq : List F} {statics : List (List F)}
    (h : Sized gates bN bG vL vR eq statics) :
    newSProver vL vR eq gates statics = mkP gates (2 ^ bG) (2 ^ bG) (2 ^ bN) (fun i => vL.getD i 0)
      (fun i => vR.getD i 0) (fun i => eq.getD i 0) (fun i u => (statics.getD i []).getD u 0) := by
  have e1 := eq_tab vL 0
  have e2 := eq_tab vR 0
  have e3 := eq_tab eq 0
  rw [h.lenL, pow_add] at e1
  rw [h.lenR, pow_add] at e2
  rw [h.lenEq] at e3
  have e4 : statics = tab gates.length (fun i => tab (2 ^ bG * 2 ^ bG) (fun u => (statics.getD i []).getD u 0)) := by
    apply tab_eq_of h.lenStatics
    intro i hi
    have hs : statics.getD i [] = statics[i] := by simp [hi]
    rw [hs]
    have := eq_tab statics[i] 0
    rw [h.lenStatic _ (List.getElem_mem hi), pow_add] at this
    exact this
  unfold mkP
  conv_lhs => rw [e1, e2, e3, e4]

theorem hsum_eq_hypercubeSum (gates : List (Gate F)) (bN bG : Nat) (vL vR eq : List F) (statics : List (List F)) :
    hsum gates (2 ^ bG) (2 ^ bG) (2 ^ bN) (fun i => vL.getD i 0) (fun i => vR.getD i 0) (fun i => eq.getD i 0)
      (fun i u => (statics.getD i []).getD u 0) = hypercubeSum gates bN bG vL vR eq statics := by
  unfold hsum hypercubeSum
  apply Finset.sum_congr rfl; intro h _
  apply Finset.sum_congr rfl; intro l _
  apply Finset.sum_congr rfl; intro r _
  rw [Finset.sum_range]
  apply Finset.sum_congr rfl; intro i _
  rw [gateF_eq i.2]; rfl

theorem getClaim_sized {gates : List (Gate F)} {bN bG : Nat} {vL vR eq : List F} {statics : List (List F)}
    (h : Sized gates bN bG vL vR eq statics) :
    (newSProver vL vR eq gates statics).getClaim = .ok (hypercubeSum gates bN bG vL vR eq statics) := by
  rw [h.mkP_eq, getClaim_mkP _ _ _ (Nat.two_pow_pos _), hsum_eq_hypercubeSum]

theorem evaluateCombinator_eq (gates : List (Gate F)) (vL vR e : F) (st : List F) (h : st.length = gates.length) :
    evaluateCombinator vL vR e gates st = .ok (combinator gates vL vR e st) := by
  unfold evaluateCombinator
  have := forN_acc (M := F) (mk := id) (m := 0) (body := fun i res => do
      let g ← idx gates i
      let s ← idx st i
      return res + s * g.eval vL vR) (fun i => st.getD i 0 * gateF gates i vL vR) gates.length (by
    intro i hi m
    rw [idx_ok hi, ok_bind, idx_ok (by omega), ok_bind, gateF_eq hi]
    have : st.getD i 0 = st[i] := by simp [h ▸ hi]
    rw [this]; rfl)
  simp only [id] at this
  refine (congrArg (· >>= _) this).trans ?_
  rw [ok_bind, zero_add]
  unfold combinator
  simp only [go_pure]
  congr 2
  rw [Finset.sum_range]
  apply Finset.sum_congr rfl; intro i _
  rw [gateF_eq i.2]; rfl

/-- The single-threaded prover runs and the verifier's loop accepts. -/
theorem prove_spec [SmallCasts F] (H : List F → F) {gates : List (Gate F)} (hg : ∀ g ∈ gates, LawfulGate g)
    (hd : DegreesOk gates) (hne : gates ≠ []) {bN bG : Nat} {vL vR eq : List F} {statics : List (List F)}
    (h : Sized gates bN bG vL vR eq statics) :
    ∃ out : SumcheckOut F, (newSProver vL vR eq gates statics).prove H = .ok out ∧
      out.qL.length = bG ∧ out.qR.length = bG ∧ out.qPrime.length = bN ∧
      out.polyCoeffs.map List.length = List.replicate bG (degL gates + 1) ++ List.replicate bG (degR gates + 1) ++
        List.replicate bN (degP gates + 1) ∧
      out.finalClaims = mle vL (out.qL ++ out.qPrime) :: mle vR (out.qR ++ out.qPrime) :: mle eq out.qPrime ::
        statics.map (fun t => mle t (out.qL ++ out.qR)) ∧
      sumcheckVerifyLoop H out.polyCoeffs (hypercubeSum gates bN bG vL vR eq statics) =
        .ok (some (out.qL ++ out.qR ++ out.qPrime,
          combinator gates (mle vL (out.qL ++ out.qPrime)) (mle vR (out.qR ++ out.qPrime)) (mle eq out.qPrime)
            (statics.map (fun t => mle t (out.qL ++ out.qR))))) := by
  have hn : 0 < 2 ^ bN := Nat.two_pow_pos _
  have hG : 0 < 2 ^ bG := Nat.two_pow_pos _
  set p0 := newSProver vL vR eq gates statics with hp0
  have hp0' := h.mkP_eq
  rw [← hp0] at hp0'
  obtain ⟨cL, qL, rL, lL, lL2, gL, vfL⟩ := rounds_spec H (roundsOkL hg hd hne hG hn) bG p0 ⟨_, _, _, _, hp0'⟩
  set p1 := qL.foldl SProver.foldHL p0 with hp1
  have g1 : GoodR gates (2 ^ bN) bG p1 := by simpa [GoodL, GoodR] using gL
  obtain ⟨cR, qR, rR, lR, lR2, gR, vfR⟩ := rounds_spec H (roundsOkR hg hd hn) bG p1 g1
  set p2 := qR.foldl SProver.foldHR p1 with hp2
  have g2 : GoodP gates bN p2 := by simpa [GoodP, GoodR] using gR
  obtain ⟨cP, qP, rP, lP, lP2, gP, vfP⟩ := rounds_spec H (roundsOkP hg hd) bN p2 g2
  set p3 := qP.foldl SProver.foldHPrime p2 with hp3
  -- the tables of the last state
  have hp3' : p3 = newSProver (qP.foldl fold (qL.foldl fold vL)) (qP.foldl fold (qR.foldl fold vR))
      (qP.foldl fold eq) gates (statics.map (fun t => qR.foldl fold (qL.foldl fold t))) := by
    rw [hp3, foldl_foldHPrime, hp2, foldl_foldHR, hp1, foldl_foldHL, hp0]
    simp [newSProver, Function.comp_def]
  have eL : idx p3.vL 0 = .ok (mle vL (qL ++ qP)) := by
    rw [hp3']
    have := evaluate_eq vL (qL ++ qP) (by rw [h.lenL, List.length_append, lL, lP])
    rwa [evaluate, List.foldl_append] at this
  have eR : idx p3.vR 0 = .ok (mle vR (qR ++ qP)) := by
    rw [hp3']
    have := evaluate_eq vR (qR ++ qP) (by rw [h.lenR, List.length_append, lR, lP])
    rwa [evaluate, List.foldl_append] at this
  have eE : idx p3.eq 0 = .ok (mle eq qP) := by
    rw [hp3']
    exact evaluate_eq eq qP (by rw [h.lenEq, lP])
  have eS : mapGo (fun t => idx t 0) p3.statics = .ok (statics.map (fun t => mle t (qL ++ qR))) := by
    rw [hp3']
    have : ∀ ts : List (List F), (∀ t ∈ ts, t.length = 2 ^ (bG + bG)) →
        mapGo (fun t => idx t 0) (ts.map (fun t => qR.foldl fold (qL.foldl fold t))) =
          .ok (ts.map (fun t => mle t (qL ++ qR))) := by
      intro ts
      induction ts with
      | nil => intro _; rfl
      | cons t ts ih =>
        intro hts
        have e1 := evaluate_eq t (qL ++ qR) (by rw [hts t (by simp), List.length_append, lL, lR])
        rw [evaluate, List.foldl_append] at e1
        rw [List.map_cons, mapGo, e1, ih (fun t' h' => hts t' (by simp [h']))]
        rfl
    exact this statics h.lenStatic
  have hfc : p3.finalClaims = .ok (mle vL (qL ++ qP) :: mle vR (qR ++ qP) :: mle eq qP ::
      statics.map (fun t => mle t (qL ++ qR))) := by
    unfold SProver.finalClaims
    rw [eL, ok_bind, eR, ok_bind, eE, ok_bind, eS, ok_bind]; rfl
  refine ⟨⟨cL ++ cR ++ cP, qP, qL, qR, mle vL (qL ++ qP) :: mle vR (qR ++ qP) :: mle eq qP ::
      statics.map (fun t => mle t (qL ++ qR))⟩, ?_, lL, lR, lP, ?_, rfl, ?_⟩
  · unfold SProver.prove
    have d1 : p0.eq.length = 2 ^ bN := h.lenEq
    have d2 : p0.vR.length = 2 ^ bG * 2 ^ bN := by rw [← pow_add]; exact h.lenR
    have l1 : log2Ceil ((2 ^ bN : Nat) : Int) = bN := log2Ceil_pow bN
    have l2 : log2Ceil ((2 ^ bG : Nat) : Int) = bG := log2Ceil_pow bG
    simp only [d1, d2]
    rw [goDiv_ok hn, ok_bind, Nat.mul_div_cancel _ hn, l1, l2,
      rL, ok_bind]
    simp only
    rw [rR, ok_bind]
    simp only
    rw [rP, ok_bind]
    simp only
    rw [hfc, ok_bind]; rfl
  · simp [lL2, lR2, lP2]
  · have s0 : sumOf (2 ^ bG) (2 ^ bG) p0 = hypercubeSum gates bN bG vL vR eq statics := by
      rw [hp0', sumOf_mkP, hsum_eq_hypercubeSum]
    have v1 := vfL (cR ++ (cP ++ []))
    have v2 := vfR (cP ++ [])
    have v3 := vfP []
    beta_reduce at v1 v2 v3
    rw [pow_zero] at v1 v2
    rw [s0] at v1
    simp only [List.append_nil] at v1 v2 v3
    rw [List.append_assoc, v1, v2, v3, sumcheckVerifyLoop]
    simp only [ok_bind, go_pure, Option.map_some, List.append_nil]
    congr 3
    · simp
    · obtain ⟨a, b, c, d, hm⟩ := gP
      rw [pow_zero] at hm
      have hstl : ∀ i (hi : i < gates.length), (statics.map (fun t => mle t (qL ++ qR))).getD i 0 = d i 0 := by
        intro i hi
        rw [hm] at eS
        unfold mkP newSProver at eS
        simp only at eS
        rw [mapGo_ok (fun t : List F => t.getD 0 0)] at eS
        · rw [← Except.ok.inj eS, tab_map, tab_getD hi]
          exact tab_getD (by omega)
        · intro x hx
          obtain ⟨i, _, rfl⟩ := List.mem_map.1 hx
          rw [idx_tab (by omega)]; exact congrArg _ (tab_getD (by omega)).symm
      have hmL : mle vL (qL ++ qP) = a 0 := by
        rw [hm] at eL; unfold mkP newSProver at eL; simp only at eL
        rw [idx_tab (by omega)] at eL; exact (Except.ok.inj eL).symm
      have hmR : mle vR (qR ++ qP) = b 0 := by
        rw [hm] at eR; unfold mkP newSProver at eR; simp only at eR
        rw [idx_tab (by omega)] at eR; exact (Except.ok.inj eR).symm
      have hmE : mle eq qP = c 0 := by
        rw [hm] at eE; unfold mkP newSProver at eE; simp only at eE
        rw [idx_tab (by omega)] at eE; exact (Except.ok.inj eE).symm
      rw [hm, sumOf_mkP, hmL, hmR, hmE]
      unfold hsum combinator
      simp only [Finset.sum_range_one, zero_mul, zero_add]
      rw [Finset.sum_range, Finset.sum_mul]
      apply Finset.sum_congr rfl; intro i _
      rw [hstl i i.2, gateF_eq i.2]
      simp only [Fin.getElem_fin]
      ring

end GkrMimc
