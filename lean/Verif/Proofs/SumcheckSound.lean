import Verif.Proofs.SumcheckComplete
import Mathlib.Algebra.Polynomial.Roots

/-! Soundness of the sumcheck verifier, up to bad challenges. -/

set_option linter.unusedSectionVars false

namespace GkrMimc

open Spec Finset Polynomial

variable {F : Type} [Field F] [DecidableEq F]

theorem polyOf_eval (c : List F) (x : F) : (polyOf c).eval x = ∑ i ∈ range c.length, c.getD i 0 * x ^ i := by
  unfold polyOf; simp [eval_finsetSum]

theorem polyOf_natDegree (c : List F) (h : c ≠ []) : (polyOf c).natDegree < c.length := by
  unfold polyOf
  have hl : 0 < c.length := List.length_pos_iff.2 h
  have : (∑ i ∈ range c.length, C (c.getD i 0) * X ^ i : F[X]).natDegree ≤ c.length - 1 := by
    apply natDegree_sum_le_of_forall_le
    intro i hi
    have := mem_range.1 hi
    exact (natDegree_C_mul_X_pow_le _ _).trans (by omega)
  omega

theorem evaluatePolynomial_polyOf (c : List F) (h : c ≠ []) (x : F) :
    evaluatePolynomial c x = .ok ((polyOf c).eval x) := by
  have hl : 0 < c.length := List.length_pos_iff.2 h
  obtain ⟨m, hm⟩ : ∃ m, c.length = m + 1 := ⟨c.length - 1, by omega⟩
  have e := eq_tab c 0
  rw [hm] at e
  conv_lhs => rw [e]
  rw [evaluatePolynomial_tab, polyOf_eval, hm]

theorem evaluatePolynomial_nil (x : F) : evaluatePolynomial ([] : List F) x = .error .index := rfl

theorem loop_some_iff (H : List F → F) (cs : List (List F)) : ∀ (e : F) (qs : List F) (fc : F),
    sumcheckVerifyLoop H cs e = .ok (some (qs, fc)) ↔
      (∀ c ∈ cs, c ≠ []) ∧ Consistent H cs e ∧ qs = cs.map H ∧ fc = lastValue H cs e := by
  induction cs with
  | nil =>
    intro e qs fc
    simp only [sumcheckVerifyLoop, Consistent, lastValue, List.map_nil]
    constructor
    · intro h
      have := Except.ok.inj h
      simp only [Option.some.injEq, Prod.mk.injEq] at this
      exact ⟨by simp, trivial, this.1.symm, this.2.symm⟩
    · rintro ⟨_, _, rfl, rfl⟩; rfl
  | cons c cs ih =>
    intro e qs fc
    by_cases hc : c = []
    · subst hc
      rw [sumcheckVerifyLoop, evaluatePolynomial_nil]
      constructor
      · intro h; cases h
      · rintro ⟨h, _⟩; exact absurd rfl (h [] (by simp))
    rw [verifyLoop_cons H c cs e _ _ _ (evaluatePolynomial_polyOf c hc 0) (evaluatePolynomial_polyOf c hc 1)
      (evaluatePolynomial_polyOf c hc _)]
    simp only [Consistent, lastValue]
    by_cases h1 : e = (polyOf c).eval 0 + (polyOf c).eval 1
    · rw [if_neg (not_not.2 h1)]
      cases hr : sumcheckVerifyLoop H cs ((polyOf c).eval (H c)) with
      | error x =>
        constructor
        · intro h; cases h
        · rintro ⟨a, ⟨_, b⟩, _, _⟩
          have := (ih ((polyOf c).eval (H c)) (cs.map H) _).2 ⟨fun c h => a c (by simp [h]), b, rfl, rfl⟩
          rw [hr] at this; cases this
      | ok o =>
        cases o with
        | none =>
          constructor
          · intro h; cases h
          · rintro ⟨a, ⟨_, b⟩, _, _⟩
            have := (ih ((polyOf c).eval (H c)) (cs.map H) _).2 ⟨fun c h => a c (by simp [h]), b, rfl, rfl⟩
            rw [hr] at this; cases this
        | some y =>
          obtain ⟨ys, yf⟩ := y
          obtain ⟨a, b, c1, d⟩ := (ih _ _ _).1 hr
          constructor
          · intro h
            have h := Except.ok.inj h
            simp only [Option.map_some, Option.some.injEq, Prod.mk.injEq] at h
            refine ⟨?_, ⟨h1.symm, b⟩, by rw [← h.1, c1]; rfl, by rw [← h.2, d]⟩
            intro c' h'
            rcases List.mem_cons.1 h' with rfl | h'
            · exact hc
            · exact a c' h'
          · rintro ⟨_, _, rfl, rfl⟩
            rw [c1, d]; rfl
    · rw [if_pos h1]
      constructor
      · intro h; cases h
      · rintro ⟨_, ⟨h, _⟩, _⟩; exact absurd h.symm h1

theorem loop_none (H : List F → F) (cs : List (List F)) : ∀ (e : F), (∀ c ∈ cs, c ≠ []) → ¬ Consistent H cs e →
    sumcheckVerifyLoop H cs e = .ok none := by
  induction cs with
  | nil => intro e _ h; exact absurd trivial h
  | cons c cs ih =>
    intro e hc h
    have hc0 := hc c (by simp)
    rw [verifyLoop_cons H c cs e _ _ _ (evaluatePolynomial_polyOf c hc0 0) (evaluatePolynomial_polyOf c hc0 1)
      (evaluatePolynomial_polyOf c hc0 _)]
    by_cases h1 : e = (polyOf c).eval 0 + (polyOf c).eval 1
    · rw [if_neg (not_not.2 h1), ih _ (fun c' h' => hc c' (by simp [h'])) (fun hh => h ⟨h1.symm, hh⟩)]
      rfl
    · rw [if_pos h1]

/-- The deterministic core of soundness. -/
theorem sound_core (H : List F → F) (cs : List (List F)) : ∀ (g : List F → F) (d : Nat → Nat) (claim : F),
    (∀ (pre : List F), pre.length < cs.length →
      PolyLe (d pre.length) (fun x => cubeSum (cs.length - 1 - pre.length) (fun b => g (pre ++ x :: b)))) →
    claim ≠ cubeSum cs.length g → Consistent H cs claim → lastValue H cs claim = g (cs.map H) →
    ∃ (i : Nat) (hi : i < cs.length) (Q : F[X]), Q.natDegree ≤ d i ∧
      (∀ x, Q.eval x = cubeSum (cs.length - 1 - i) (fun b => g ((cs.map H).take i ++ x :: b))) ∧
      polyOf cs[i] ≠ Q ∧ (polyOf cs[i]).eval (H cs[i]) = Q.eval (H cs[i]) := by
  induction cs with
  | nil => intro g d claim _ h1 _ h3; exact absurd h3 h1
  | cons c cs ih =>
    intro g d claim hp h1 h2 h3
    obtain ⟨Q, hQd, hQ⟩ := hp [] (by simp)
    simp only [List.length_nil, List.length_cons, Nat.add_sub_cancel, Nat.sub_zero, List.nil_append] at hQ hQd
    have hne : polyOf c ≠ Q := by
      intro hc
      apply h1
      rw [← h2.1, hc, hQ, hQ]; rfl
    by_cases he : (polyOf c).eval (H c) = Q.eval (H c)
    · exact ⟨0, by simp, Q, hQd, by simpa using hQ, hne, he⟩
    · obtain ⟨i, hi, Q', h4, h5, h6, h7⟩ := ih (fun b => g (H c :: b)) (fun i => d (i + 1)) ((polyOf c).eval (H c))
        (by
          intro pre hpre
          have := hp (H c :: pre) (by simpa using hpre)
          simp only [List.length_cons] at this
          have e : cs.length + 1 - 1 - (pre.length + 1) = cs.length - 1 - pre.length := by omega
          rw [e] at this
          exact this) (by rw [← hQ]; exact he) h2.2 h3
      refine ⟨i + 1, by simpa using hi, Q', h4, ?_, h6, h7⟩
      intro x
      rw [h5]
      have e : (c :: cs).length - 1 - (i + 1) = cs.length - 1 - i := by simp; omega
      rw [e]; rfl

theorem few_agreements (P Q : F[X]) (h : P ≠ Q) (s : Finset F) (hs : ∀ x ∈ s, P.eval x = Q.eval x) :
    s.card ≤ max P.natDegree Q.natDegree := by
  have h0 : P - Q ≠ 0 := sub_ne_zero.2 h
  calc s.card ≤ (P - Q).roots.toFinset.card := by
        apply Finset.card_le_card
        intro x hx
        rw [Multiset.mem_toFinset, mem_roots h0, IsRoot, eval_sub, hs x hx, sub_self]
    _ ≤ Multiset.card (P - Q).roots := Multiset.toFinset_card_le _
    _ ≤ (P - Q).natDegree := card_roots' _
    _ ≤ _ := natDegree_sub_le _ _

/-! The summand of a layer is a polynomial of low degree in each variable. -/

theorem cubeSum_eq (n : Nat) : ∀ g : List F → F, cubeSum n g = ∑ i ∈ range (2 ^ n), g (bits n i) := by
  induction n with
  | zero => intro g; simp [cubeSum, bits]
  | succ n ih =>
    intro g
    have : 2 ^ (n + 1) = 2 ^ n + 2 ^ n := by ring
    rw [cubeSum, ih, ih, this, Finset.sum_range_add]
    congr 1
    · apply Finset.sum_congr rfl; intro i hi
      rw [bits_succ, Nat.testBit_lt_two_pow (mem_range.1 hi)]; simp
    · apply Finset.sum_congr rfl; intro i hi
      have e := bits_mod_eq (F := F) n i 1
      rw [mul_one] at e
      rw [bits_succ, testBit_add_pow (mem_range.1 hi), e]; simp

theorem PolyLe.cubeSum {d : Nat} (n : Nat) : ∀ (f : F → List F → F), (∀ b, b.length = n → PolyLe d (fun x => f x b)) →
    PolyLe d (fun x => Spec.cubeSum n (f x)) := by
  intro f h
  have : (fun x => Spec.cubeSum n (f x)) = fun x => ∑ i ∈ range (2 ^ n), f x (bits n i) := by
    funext x; exact cubeSum_eq n _
  rw [this]
  exact PolyLe.sum fun i _ => h _ (by simp)

/-- A multilinear extension is affine in each coordinate. -/
theorem mle_affine (T : Nat → F) (pre : List F) : ∀ (post : List F), ∃ a b : F, ∀ x, mleF T (pre ++ x :: post) = a + x * b := by
  induction pre generalizing T with
  | nil =>
    intro post
    refine ⟨mleF T post, mleF (fun i => T (2 ^ post.length + i) - T i) post, fun x => ?_⟩
    rw [List.nil_append, mleF_cons]
    unfold mleF
    rw [Finset.mul_sum, ← Finset.sum_add_distrib]
    apply Finset.sum_congr rfl; intro i _; ring
  | cons p pre ih =>
    intro post
    obtain ⟨a, b, h⟩ := ih (fun i => T i + (T (2 ^ (pre.length + 1 + post.length) + i) - T i) * p) post
    refine ⟨a, b, fun x => ?_⟩
    rw [List.cons_append, mleF_cons, ← h]
    congr 1
    funext i
    have : (pre ++ x :: post).length = pre.length + 1 + post.length := by simp; omega
    rw [this]

theorem affine_polyLe (a b : F) : PolyLe 1 (fun x => a + x * b) :=
  ⟨affine a b, affine_natDegree _ _, fun t => by rw [affine_eval]⟩

/-- Degree of the summand in coordinate `i`. -/
def summandDeg (gates : List (Gate F)) (bG i : Nat) : Nat :=
  if i < bG then degL gates else if i < 2 * bG then degR gates else degP gates

theorem combinator_polyLe (gates : List (Gate F)) (vL vR e : F → F) (st : List (F → F)) (d d1 d2 : Nat) (hd : d1 + d2 ≤ d)
    (dst de : Nat) (h2 : dst + de ≤ d2)
    (hgate : ∀ g ∈ gates, PolyLe d1 (fun x => g.eval (vL x) (vR x))) (he : PolyLe de e)
    (hst : ∀ s ∈ st, PolyLe dst s) :
    PolyLe d (fun x => combinator gates (vL x) (vR x) (e x) (st.map (fun s => s x))) := by
  unfold combinator
  have : (fun x => (∑ i : Fin gates.length, (st.map (fun s => s x)).getD i 0 * gates[i].eval (vL x) (vR x)) * e x) =
      fun x => ∑ i : Fin gates.length, (st.map (fun s => s x)).getD i 0 * gates[i].eval (vL x) (vR x) * e x := by
    funext x; rw [Finset.sum_mul]
  rw [this]
  refine PolyLe.sum fun i _ => ?_
  have hs : PolyLe dst (fun x => (st.map (fun s => s x)).getD i 0) := by
    by_cases hi : i < st.length
    · have : (fun x => (st.map (fun s => s x)).getD i 0) = st[i] := by funext x; simp [hi]
      rw [this]; exact hst _ (List.getElem_mem _)
    · have : (fun x => (st.map (fun s => s x)).getD i 0) = fun _ => (0 : F) := by funext x; simp [hi]
      rw [this]; exact (PolyLe.const 0).mono (by omega)
  exact ((hs.mul (hgate _ (List.getElem_mem _))).mul he).mono (by omega)

theorem summand_poly (gates : List (Gate F)) (hg : ∀ g ∈ gates, LawfulGate g) (bG : Nat) (vL vR eq : List F)
    (statics : List (List F)) (pre b : List F) :
    PolyLe (summandDeg gates bG pre.length) (fun x => summand gates bG vL vR eq statics (pre ++ x :: b)) := by
  have hL : ∀ g ∈ gates, g.degHL ≤ degL gates - 1 := by
    intro g h
    have := (le_foldl_max (fun g : Gate F => g.degHL) gates 0).2 g h
    unfold degL; omega
  have hR : ∀ g ∈ gates, g.degHR ≤ degR gates - 1 := by
    intro g h
    have := (le_foldl_max (fun g : Gate F => g.degHR) gates 0).2 g h
    unfold degR; omega
  have hP : ∀ g ∈ gates, g.degHPrime ≤ degP gates - 1 := by
    intro g h
    have := (le_foldl_max (fun g : Gate F => g.degHPrime) gates 0).2 g h
    unfold degP; omega
  have pL : 1 ≤ degL gates := by unfold degL; omega
  have pR : 1 ≤ degR gates := by unfold degR; omega
  have pP : 1 ≤ degP gates := by unfold degP; omega
  unfold summandDeg summand
  by_cases h1 : pre.length < bG
  · rw [if_pos h1]
    obtain ⟨k, hk⟩ : ∃ k, bG = pre.length + (k + 1) := ⟨bG - pre.length - 1, by omega⟩
    have e1 : ∀ x, (pre ++ x :: b).take bG = pre ++ x :: b.take k := by
      intro x; rw [hk, List.take_length_add_append]; rfl
    have e2 : ∀ x, (pre ++ x :: b).drop (2 * bG) = b.drop (2 * bG - pre.length - 1) := by
      intro x
      have : 2 * bG = pre.length + ((2 * bG - pre.length - 1) + 1) := by omega
      conv_lhs => rw [this, List.drop_length_add_append]
      rfl
    have e3 : ∀ x, (pre ++ x :: b).drop bG = b.drop k := by
      intro x; rw [hk, List.drop_length_add_append]; rfl
    have e4 : ∀ x, (pre ++ x :: b).take (2 * bG) = pre ++ x :: b.take (2 * bG - pre.length - 1) := by
      intro x
      have : 2 * bG = pre.length + ((2 * bG - pre.length - 1) + 1) := by omega
      conv_lhs => rw [this, List.take_length_add_append]
      rfl
    simp only [e1, e2, e3, e4, List.append_assoc, List.cons_append]
    have := combinator_polyLe gates (fun x => mle vL (pre ++ x :: (b.take k ++ b.drop (2 * bG - pre.length - 1))))
      (fun _ => mle vR ((b.drop k).take bG ++ b.drop (2 * bG - pre.length - 1)))
      (fun _ => mle eq (b.drop (2 * bG - pre.length - 1)))
      (statics.map (fun t => fun x => mle t (pre ++ x :: b.take (2 * bG - pre.length - 1))))
      (degL gates) (degL gates - 1) 1 (by omega) 1 0 (by omega) ?_ (PolyLe.const _) ?_
    · simpa [Function.comp_def] using this
    · intro g hgg
      obtain ⟨a, c, hac⟩ := mle_affine (fun i => vL.getD i 0) pre (b.take k ++ b.drop (2 * bG - pre.length - 1))
      obtain ⟨P, hd, hP⟩ := (hg g hgg).degL a c (mle vR ((b.drop k).take bG ++ b.drop (2 * bG - pre.length - 1)))
      exact ⟨P, hd.trans (hL g hgg), fun t => by rw [hP]; unfold mle; beta_reduce; rw [hac]⟩
    · intro s hs
      obtain ⟨t, _, rfl⟩ := List.mem_map.1 hs
      obtain ⟨a, c, hac⟩ := mle_affine (fun i => t.getD i 0) pre (b.take (2 * bG - pre.length - 1))
      unfold mle
      simp only [hac]
      exact affine_polyLe _ _
  · rw [if_neg h1]
    have h1 := not_lt.1 h1
    have e1 : ∀ x, (pre ++ x :: b).take bG = pre.take bG := by
      intro x; rw [List.take_append_of_le_length h1]
    have e3 : ∀ x, (pre ++ x :: b).drop bG = pre.drop bG ++ x :: b := by
      intro x; rw [List.drop_append_of_le_length h1]
    by_cases h2 : pre.length < 2 * bG
    · rw [if_pos h2]
      have e2 : ∀ x, (pre ++ x :: b).drop (2 * bG) = b.drop (2 * bG - pre.length - 1) := by
        intro x
        have : 2 * bG = pre.length + ((2 * bG - pre.length - 1) + 1) := by omega
        conv_lhs => rw [this, List.drop_length_add_append]
        rfl
      have e4 : ∀ x, (pre ++ x :: b).take (2 * bG) = pre ++ x :: b.take (2 * bG - pre.length - 1) := by
        intro x
        have : 2 * bG = pre.length + ((2 * bG - pre.length - 1) + 1) := by omega
        conv_lhs => rw [this, List.take_length_add_append]
        rfl
      have e5 : ∀ x, (pre.drop bG ++ x :: b).take bG = pre.drop bG ++ x :: b.take (2 * bG - pre.length - 1) := by
        intro x
        have : bG = (pre.drop bG).length + ((2 * bG - pre.length - 1) + 1) := by rw [List.length_drop]; omega
        conv_lhs => rw [show (pre.drop bG ++ x :: b).take bG =
          (pre.drop bG ++ x :: b).take ((pre.drop bG).length + ((2 * bG - pre.length - 1) + 1)) from by rw [← this]]
        rw [List.take_length_add_append]; rfl
      simp only [e1, e2, e3, e4, e5, List.append_assoc, List.cons_append]
      set k := 2 * bG - pre.length - 1
      have := combinator_polyLe gates (fun _ => mle vL (pre.take bG ++ b.drop k))
        (fun x => mle vR (pre.drop bG ++ x :: (b.take k ++ b.drop k)))
        (fun _ => mle eq (b.drop k))
        (statics.map (fun t => fun x => mle t (pre ++ x :: b.take k)))
        (degR gates) (degR gates - 1) 1 (by omega) 1 0 (by omega) ?_ (PolyLe.const _) ?_
      · simpa [Function.comp_def] using this
      · intro g hgg
        obtain ⟨a, c, hac⟩ := mle_affine (fun i => vR.getD i 0) (pre.drop bG) (b.take k ++ b.drop k)
        obtain ⟨P, hd, hP⟩ := (hg g hgg).degR (mle vL (pre.take bG ++ b.drop k)) a c
        exact ⟨P, hd.trans (hR g hgg), fun t => by rw [hP]; unfold mle; beta_reduce; rw [hac]⟩
      · intro s hs
        obtain ⟨t, _, rfl⟩ := List.mem_map.1 hs
        obtain ⟨a, c, hac⟩ := mle_affine (fun i => t.getD i 0) pre (b.take k)
        unfold mle
        simp only [hac]
        exact affine_polyLe _ _
    · rw [if_neg h2]
      have h2 := not_lt.1 h2
      have e2 : ∀ x, (pre ++ x :: b).drop (2 * bG) = pre.drop (2 * bG) ++ x :: b := by
        intro x; rw [List.drop_append_of_le_length h2]
      have e4 : ∀ x, (pre ++ x :: b).take (2 * bG) = pre.take (2 * bG) := by
        intro x; rw [List.take_append_of_le_length h2]
      have e5 : ∀ x, (pre.drop bG ++ x :: b).take bG = (pre.drop bG).take bG := by
        intro x; rw [List.take_append_of_le_length (by rw [List.length_drop]; omega)]
      simp only [e1, e2, e3, e4, e5]
      have := combinator_polyLe gates (fun x => mle vL (pre.take bG ++ (pre.drop (2 * bG) ++ x :: b)))
        (fun x => mle vR ((pre.drop bG).take bG ++ (pre.drop (2 * bG) ++ x :: b)))
        (fun x => mle eq (pre.drop (2 * bG) ++ x :: b))
        (statics.map (fun t => fun _ => mle t (pre.take (2 * bG))))
        (degP gates) (degP gates - 1) 1 (by omega) 0 1 (by omega) ?_ ?_ ?_
      · simpa [Function.comp_def] using this
      · intro g hgg
        obtain ⟨a, c, hac⟩ := mle_affine (fun i => vL.getD i 0) (pre.take bG ++ pre.drop (2 * bG)) b
        obtain ⟨a', c', hac'⟩ := mle_affine (fun i => vR.getD i 0) ((pre.drop bG).take bG ++ pre.drop (2 * bG)) b
        obtain ⟨P, hd, hPP⟩ := (hg g hgg).degP a c a' c'
        refine ⟨P, hd.trans (hP g hgg), fun t => ?_⟩
        rw [hPP, ← hac, ← hac']; simp only [mle, List.append_assoc]
      · obtain ⟨a, c, hac⟩ := mle_affine (fun i => eq.getD i 0) (pre.drop (2 * bG)) b
        unfold mle
        simp only [hac]
        exact affine_polyLe _ _
      · intro s hs
        obtain ⟨t, _, rfl⟩ := List.mem_map.1 hs
        exact PolyLe.const _

theorem bits_append (a b i : Nat) {j : Nat} (hj : j < 2 ^ b) :
    (bits (a + b) (i * 2 ^ b + j) : List F) = bits a i ++ bits b j := by
  apply List.ext_getElem
  · simp
  intro k h1 h2
  simp only [bits_length] at h1
  by_cases hk : k < a
  · rw [List.getElem_append_left (by simpa using hk)]
    simp only [bits, List.getElem_map, List.getElem_range]
    have : (i * 2 ^ b + j).testBit (a + b - 1 - k) = i.testBit (a - 1 - k) := by
      have e : a + b - 1 - k = b + (a - 1 - k) := by omega
      rw [e, Nat.testBit_eq_decide_div_mod_eq, Nat.testBit_eq_decide_div_mod_eq, pow_add, ← Nat.div_div_eq_div_mul,
        mul_comm, Nat.mul_add_div (Nat.two_pow_pos _), Nat.div_eq_of_lt hj, add_zero]
    rw [this]
  · rw [List.getElem_append_right (by simpa using hk)]
    simp only [bits, List.getElem_map, List.getElem_range, List.length_map, List.length_range]
    have : (i * 2 ^ b + j).testBit (a + b - 1 - k) = j.testBit (b - 1 - (k - a)) := by
      have e : a + b - 1 - k = b - 1 - (k - a) := by omega
      rw [e, mul_comm, Nat.testBit_two_pow_mul_add _ hj, if_pos (by omega)]
    rw [this]

theorem mle_bits (T : List F) (n i : Nat) (h : i < 2 ^ n) : mle T (bits n i) = T.getD i 0 := mleF_bits n _ h

/-- The sum of the summand over the cube is the hypercube sum. -/
theorem cubeSum_summand (gates : List (Gate F)) (bN bG : Nat) (vL vR eq : List F) (statics : List (List F)) :
    cubeSum (2 * bG + bN) (summand gates bG vL vR eq statics) = hypercubeSum gates bN bG vL vR eq statics := by
  rw [cubeSum_eq, pow_add, sum_range_mul, two_mul, pow_add, sum_range_mul]
  unfold hypercubeSum
  have key : ∀ l < 2 ^ bG, ∀ r < 2 ^ bG, ∀ h < 2 ^ bN,
      summand gates bG vL vR eq statics (bits (bG + bG + bN) ((l * 2 ^ bG + r) * 2 ^ bN + h)) =
      ∑ i : Fin gates.length, gates[i].eval (vL.getD (l * 2 ^ bN + h) 0) (vR.getD (r * 2 ^ bN + h) 0) * eq.getD h 0 *
        (statics.getD i []).getD (l * 2 ^ bG + r) 0 := by
    intro l hl r hr h hh
    rw [bits_append _ _ _ hh, bits_append _ _ _ hr]
    unfold summand
    have e1 : (bits bG l ++ bits bG r ++ bits bN h : List F).take bG = bits bG l := by
      rw [List.append_assoc, List.take_left' (by simp)]
    have e2 : (bits bG l ++ bits bG r ++ bits bN h : List F).drop (2 * bG) = bits bN h := by
      rw [List.drop_left' (by simp; omega)]
    have e3 : ((bits bG l ++ bits bG r ++ bits bN h : List F).drop bG).take bG = bits bG r := by
      rw [List.append_assoc, List.drop_left' (by simp), List.take_left' (by simp)]
    have e4 : (bits bG l ++ bits bG r ++ bits bN h : List F).take (2 * bG) = bits (bG + bG) (l * 2 ^ bG + r) := by
      rw [List.take_left' (by simp; omega), bits_append _ _ _ hr]
    rw [e1, e2, e3, e4, ← bits_append _ _ _ hh, ← bits_append _ _ _ hh, mle_bits _ _ _ (by rw [pow_add]; exact mul_add_lt hl hh),
      mle_bits _ _ _ (by rw [pow_add]; exact mul_add_lt hr hh), mle_bits _ _ _ hh]
    unfold combinator
    rw [Finset.sum_mul]
    apply Finset.sum_congr rfl; intro i _
    have : (statics.map fun t => mle t (bits (bG + bG) (l * 2 ^ bG + r))).getD i 0 =
        (statics.getD i []).getD (l * 2 ^ bG + r) 0 := by
      by_cases hi : i < statics.length
      · simp only [List.getD_eq_getElem?_getD, List.getElem?_map, List.getElem?_eq_getElem hi, Option.map_some,
          Option.getD_some]
        rw [mle_bits _ _ _ (by rw [pow_add]; exact mul_add_lt hl hr), List.getD_eq_getElem?_getD]
      · simp [hi]
    rw [this]; ring
  trans ∑ l ∈ range (2 ^ bG), ∑ r ∈ range (2 ^ bG), ∑ h ∈ range (2 ^ bN), ∑ i : Fin gates.length,
      gates[i].eval (vL.getD (l * 2 ^ bN + h) 0) (vR.getD (r * 2 ^ bN + h) 0) * eq.getD h 0 *
        (statics.getD i []).getD (l * 2 ^ bG + r) 0
  · refine Finset.sum_congr rfl fun l hl => Finset.sum_congr rfl fun r hr => Finset.sum_congr rfl fun h hh => ?_
    exact key l (mem_range.1 hl) r (mem_range.1 hr) h (mem_range.1 hh)
  · rw [Finset.sum_comm' (t' := range (2 ^ bG)) (s' := fun _ => range (2 ^ bG)) (by intros; tauto)]
    rw [Finset.sum_comm]
    trans ∑ l ∈ range (2 ^ bG), ∑ h ∈ range (2 ^ bN), ∑ r ∈ range (2 ^ bG), ∑ i : Fin gates.length,
      gates[i].eval (vL.getD (l * 2 ^ bN + h) 0) (vR.getD (r * 2 ^ bN + h) 0) * eq.getD h 0 *
        (statics.getD i []).getD (l * 2 ^ bG + r) 0
    · exact Finset.sum_congr rfl fun l _ => Finset.sum_comm
    · exact Finset.sum_comm

end GkrMimc
