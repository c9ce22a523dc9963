import Verif.Proofs.R1cs

/-! The simulation for every gadget, with its numbers of constraints and assertions. -/

namespace GkrMimc

open Spec

variable {F : Type} [Field F] {n : Nat} {w : Nat → F}

/-! ### `snark/hash` -/

theorem sim_mimcHash (arks : List F) {l : List (Lin F)} {xs : List F} (h : VsRel n w l xs) :
    CsSim n w (364 * l.length) 0 (bldMimcHash arks l) (snarkMimcHash arks xs) VRel := by
  unfold bldMimcHash snarkMimcHash
  have := CsSim.foldlM (Q := fun _ => VRel) (E := VRel) (fun h hm hw => h.mono hm hw) (fun _ => 364) (fun _ => 0)
    (f := fun state m => do
      let oldState := state
      let state ← Bld.forN mimcRounds state fun i state => do
        let ark ← Bld.go (idx arks i)
        let state := m.adds state [Lin.ofConst ark]
        let tmp ← Bld.mul state state
        let tmp ← Bld.mul state tmp
        let tmp ← Bld.mul tmp tmp
        Bld.mul state tmp
      return state.adds oldState [m])
    (k := fun state m => do
      let oldState := state
      let state ← Cs.forN mimcRounds state fun i state => do
        let ark ← Cs.go (idx arks i)
        let state := csAdd m state [csConst ark]
        let tmp := csMul state state
        let tmp := csMul state tmp
        let tmp := csMul tmp tmp
        return csMul state tmp
      return csAdd state oldState [m])
    (by
      intro _ n w s y m x hs hm
      dsimp only
      refine CsSim.bind' (g := 364) (c := 0) (g' := 0) (c' := 0) (Q := VRel) ?_ ?_ rfl rfl
      · refine CsSim.forN_const (Q := fun _ => VRel) mimcRounds (gc := 4) (cc := 0) ?_ hs rfl rfl
        intro i _ n1 w1 s1 y1 hn1 hw1 hs1
        refine CsSim.bind' (g := 0) (c := 0) (g' := 4) (c' := 0) (Q := fun _ _ a b => a = b) (CsSim.go ?_) ?_ rfl rfl
        · cases idx arks i with
          | error e => exact .inl ⟨e, rfl, rfl⟩
          | ok a => exact .inr ⟨a, a, rfl, rfl, rfl⟩
        · intro n2 w2 a b hn2 hw2 hab
          subst hab
          have h2 : VRel n2 w2 (m.adds s1 [Lin.ofConst a]) (csAdd x y1 [csConst a]) :=
            ((hm.mono hn1 hw1).mono hn2 hw2).adds (hs1.mono hn2 hw2) (.cons (VRel.const _ _ _) .nil)
          rw [← pure_bind (csMul (csAdd x y1 [csConst a]) (csAdd x y1 [csConst a])) fun tmp => (do
              let tmp := csMul (csAdd x y1 [csConst a]) tmp
              let tmp := csMul tmp tmp
              return csMul (csAdd x y1 [csConst a]) tmp : Cs F F)]
          refine CsSim.bind' (g' := 3) (c' := 0) (CsSim.mul h2 h2) ?_ rfl rfl
          intro n3 w3 t1 z1 hn3 hw3 ht1
          have h3 := h2.mono hn3 hw3
          rw [← pure_bind (csMul (csAdd x y1 [csConst a]) z1) fun tmp => (do
              let tmp := csMul tmp tmp
              return csMul (csAdd x y1 [csConst a]) tmp : Cs F F)]
          refine CsSim.bind' (g' := 2) (c' := 0) (CsSim.mul h3 ht1) ?_ rfl rfl
          intro n4 w4 t2 z2 hn4 hw4 ht2
          have h4 := h3.mono hn4 hw4
          rw [← pure_bind (csMul z2 z2) fun tmp => (do
              return csMul (csAdd x y1 [csConst a]) tmp : Cs F F)]
          refine CsSim.bind' (g' := 1) (c' := 0) (CsSim.mul ht2 ht2) ?_ rfl rfl
          intro n5 w5 t3 z3 hn5 hw5 ht3
          exact CsSim.mul (h4.mono hn5 hw5) ht3
      · intro n1 w1 s1 y1 hn1 hw1 hs1
        exact CsSim.pure (hs1.adds (hs.mono hn1 hw1) (.cons (hm.mono hn1 hw1) .nil)))
    l xs 0 n w (Lin.ofConst 0) (csConst 0) h (VRel.const _ _ _)
  simpa [Nat.mul_comm] using this

/-! ### `snark/polynomial` -/

theorem sim_univariateEq {a b : Lin F} {x y : F} (ha : VRel n w a x) (hb : VRel n w b y) :
    CsSim n w 2 0 (bldUnivariateEqEval a b) (pure (univariateEqEval x y) : Cs F F) VRel := by
  unfold bldUnivariateEqEval
  have e : (pure (univariateEqEval x y) : Cs F F) = (do
      let m ← (pure (csMul x y) : Cs F F)
      let m ← (pure (csMul (csConst 2) m) : Cs F F)
      pure (csAdd (csSub (csSub (csConst 1) x) y) m)) := by simp [univariateEqEval]
  rw [e]
  refine CsSim.bind' (g' := 1) (c' := 0) (CsSim.mul ha hb) ?_ rfl rfl
  intro n1 w1 m1 z1 hn1 hw1 h1
  refine CsSim.bind' (g' := 0) (c' := 0) (CsSim.mul (VRel.const _ _ _) h1) ?_ rfl rfl
  intro n2 w2 m2 z2 hn2 hw2 h2
  have ha2 := (ha.mono hn1 hw1).mono hn2 hw2
  have hb2 := (hb.mono hn1 hw1).mono hn2 hw2
  exact CsSim.pure ((((VRel.const _ _ _).sub ha2).sub hb2).add h2)

theorem sim_eqEval {q h : List (Lin F)} {x y : List F} (hq : VsRel n w q x) (hh : VsRel n w h y) :
    CsSim n w (3 * q.length) 0 (bldEqEval q h) (eqEvalGadget x y) VRel := by
  unfold bldEqEval eqEvalGadget
  rw [← hq.length]
  refine CsSim.forN_const (Q := fun _ => VRel) q.length (gc := 3) (cc := 0) ?_ (VRel.const _ _ _) (Nat.mul_comm _ _) (by simp)
  intro i _ n1 w1 r z hn1 hw1 hr
  refine CsSim.bind' (g' := 3) (c' := 0) (CsSim.go (Q := VRel) (goIdx_rel (hq.mono hn1 hw1) i)) ?_ rfl rfl
  intro n2 w2 a b hn2 hw2 hab
  refine CsSim.bind' (g' := 3) (c' := 0) (CsSim.go (Q := VRel) (goIdx_rel ((hh.mono hn1 hw1).mono hn2 hw2) i)) ?_ rfl rfl
  intro n3 w3 a' b' hn3 hw3 hab'
  rw [← pure_bind (univariateEqEval b b') fun e => (pure (csMul z e) : Cs F F)]
  refine CsSim.bind' (g' := 1) (c' := 0) (sim_univariateEq (hab.mono hn3 hw3) hab') ?_ rfl rfl
  intro n4 w4 e f hn4 hw4 he
  exact CsSim.mul (((hr.mono hn2 hw2).mono hn3 hw3).mono hn4 hw4) he

theorem sim_fold {t : List (Lin F)} {t' : List F} {a : Lin F} {x : F} (ht : VsRel n w t t') (ha : VRel n w a x) :
    CsSim n w (t.length / 2) 0 (bldFold t a) (mlFold t' x) (fun m w' l xs => VsRel m w' l xs ∧ l.length = t.length / 2) := by
  unfold bldFold mlFold
  rw [← ht.length]
  dsimp only
  refine CsSim.bind' (g := t.length / 2) (c := 0) (g' := 0) (c' := 0) (Q := VsRel) ?_ ?_ rfl rfl
  · refine CsSim.forN_const (Q := fun _ => VsRel) (t.length / 2) (gc := 1) (cc := 0) ?_ ht (by simp) (by simp)
    intro i _ n1 w1 l xs hn1 hw1 hl
    refine CsSim.bind' (g' := 1) (c' := 0) (CsSim.go (Q := VRel) (goIdx_rel hl _)) ?_ rfl rfl
    intro n2 w2 b y hn2 hw2 hb
    refine CsSim.bind' (g' := 1) (c' := 0) (CsSim.go (Q := VRel) (goIdx_rel (hl.mono hn2 hw2) _)) ?_ rfl rfl
    intro n3 w3 d z hn3 hw3 hd
    have hm := CsSim.mul ((hb.mono hn3 hw3).sub hd) (((ha.mono hn1 hw1).mono hn2 hw2).mono hn3 hw3)
    rw [← pure_bind (csMul (csSub y z) x) fun tmp => (Cs.go (setIdx xs i (csAdd z tmp)) : Cs F (List F))]
    refine CsSim.bind' (g' := 0) (c' := 0) hm ?_ rfl rfl
    intro n4 w4 e u hn4 hw4 he
    refine (CsSim.go (Q := fun m w' a b => VsRel m w' a b ∧ a.length = l.length) (goSet_rel (((hl.mono hn2 hw2).mono hn3 hw3).mono hn4 hw4) i
      ((hd.mono hn4 hw4).add he))).imp fun _ _ _ _ _ _ h => h.1
  · intro n1 w1 l xs hn1 hw1 hl
    exact CsSim.go (goTo_rel hl _)

/-- Number of multiplications when a table is folded `k` times. -/
def foldCost : Nat → Nat → Nat
  | 0, _ => 0
  | k + 1, len => len / 2 + foldCost k (len / 2)

theorem sim_folds : ∀ (l : List (Lin F)) (xs : List F) (n : Nat) (w : Nat → F) (t : List (Lin F)) (t' : List F), VsRel n w l xs → VsRel n w t t' →
    CsSim n w (foldCost l.length t.length) 0 (l.foldlM bldFold t) (xs.foldlM mlFold t') VsRel := by
  intro l
  induction l with
  | nil =>
    intro xs n w t t' h ht
    cases h
    exact CsSim.pure ht
  | cons a l ih =>
    intro xs n w t t' h ht
    cases h with
    | cons h1 h2 =>
      rw [List.foldlM_cons, List.foldlM_cons, List.length_cons, foldCost]
      refine CsSim.bind' (c' := 0) (sim_fold ht h1) ?_ rfl rfl
      intro n1 w1 t1 t1' hn1 hw1 ht1
      rw [← ht1.2]
      exact ih _ n1 w1 t1 t1' (VsRel.mono h2 hn1 hw1) ht1.1

theorem sim_eval {l t : List (Lin F)} {xs t' : List F} (ht : VsRel n w t t') (h : VsRel n w l xs) :
    CsSim n w (foldCost l.length t.length) 0 (bldEval t l) (mlEval t' xs) VRel := by
  unfold bldEval mlEval
  refine CsSim.bind' (g' := 0) (c' := 0) (sim_folds l xs n w t t' h ht) ?_ rfl rfl
  intro n1 w1 t1 t1' _ _ ht1
  exact CsSim.go (goIdx_rel ht1 0)

theorem sim_evalMixed {t qL qR q' : List (Lin F)} {xt xL xR x' : List F} (ht : VsRel n w t xt) (hL : VsRel n w qL xL) (hR : VsRel n w qR xR)
    (h' : VsRel n w q' x') :
    CsSim n w (2 ^ qL.length * foldCost q'.length (t.length / 2 ^ qL.length) + (foldCost qL.length (2 ^ qL.length) +
      foldCost qR.length (2 ^ qL.length))) 0 (bldEvalMixed t qL qR q') (mlEvalMixed xt xL xR x')
      (fun m w' a b => VRel m w' a.1 b.1 ∧ VRel m w' a.2 b.2) := by
  unfold bldEvalMixed mlEvalMixed
  rw [← ht.length, ← hL.length]
  dsimp only
  refine CsSim.bind' (c' := 0) (Q := fun m w' a b => VsRel m w' a b ∧ a.length = 2 ^ qL.length)
    (CsSim.forN_const (Q := fun i m w' a b => VsRel m w' a b ∧ a.length = i) (2 ^ qL.length)
      (gc := foldCost q'.length (t.length / 2 ^ qL.length)) (cc := 0) ?_ ⟨.nil, rfl⟩ rfl rfl) ?_ rfl rfl
  · intro i _ n1 w1 acc acc' hn1 hw1 hacc
    refine CsSim.bind' (g := 0) (c' := 0) (CsSim.go (Q := fun m w' a b => VsRel m w' a b ∧ a.length = (i + 1) * (t.length / 2 ^ qL.length) - i * (t.length / 2 ^ qL.length))
      (goBetween_rel (ht.mono hn1 hw1) _ _)) ?_ (Nat.zero_add _) rfl
    intro n2 w2 ch ch' hn2 hw2 hch
    have hl : ch.length = t.length / 2 ^ qL.length := by rw [hch.2]; rw [Nat.add_mul, Nat.one_mul, Nat.add_sub_cancel_left]
    rw [← hl]
    refine CsSim.bind' (g' := 0) (c' := 0) (sim_eval hch.1 ((h'.mono hn1 hw1).mono hn2 hw2)) ?_ rfl rfl
    intro n3 w3 v v' hn3 hw3 hv
    refine CsSim.pure ⟨?_, by rw [List.length_append, hacc.2]; rfl⟩
    exact List.rel_append ((VsRel.mono hacc.1 hn2 hw2).mono hn3 hw3) (.cons hv .nil)
  · intro n1 w1 t1 t1' hn1 hw1 ht1
    rw [← ht1.2]
    refine CsSim.bind' (c' := 0) (sim_eval ht1.1 (hL.mono hn1 hw1)) ?_ rfl rfl
    intro n2 w2 a x hn2 hw2 ha
    refine CsSim.bind' (g' := 0) (c' := 0) (sim_eval (VsRel.mono ht1.1 hn2 hw2) ((hR.mono hn1 hw1).mono hn2 hw2)) ?_ rfl rfl
    intro n3 w3 b y hn3 hw3 hb
    exact CsSim.pure ⟨ha.mono hn3 hw3, hb⟩

theorem sim_uniEval {l : List (Lin F)} {xs : List F} {a : Lin F} {x : F} (hl : VsRel n w l xs) (ha : VRel n w a x) :
    CsSim n w (l.length - 1 + 1) 0 (bldUniEval l a) (uniEval xs x) VRel := by
  unfold bldUniEval uniEval
  rw [← hl.length]
  dsimp only
  have hsum : ((List.range l.length).map fun j => if l.length - 1 - j ≠ l.length - 1 then 1 else 0).sum = l.length - 1 := by
    cases l.length with
    | zero => rfl
    | succ k =>
      rw [List.range_succ_eq_map, List.map_cons, List.sum_cons]
      simp only [Nat.add_sub_cancel, Nat.sub_zero, ne_eq, not_true_eq_false, if_false, List.map_map, Nat.zero_add]
      have : ((List.range k).map ((fun j => if ¬k - j = k then 1 else 0) ∘ Nat.succ)) = (List.range k).map fun _ => 1 := by
        apply List.map_congr_left
        intro j hj
        have := List.mem_range.1 hj
        simp only [Function.comp_apply]
        rw [if_pos (by omega)]
      rw [this]
      simp
  have h0 : ((List.range l.length).map fun _ => 0).sum = 0 := by simp
  refine CsSim.bind' (g := l.length - 1) (c := 0) (g' := 1) (c' := 0) (Q := fun m w' a b => VRel m w' a.1 b.1 ∧ VRel m w' a.2 b.2) ?_ ?_ rfl rfl
  · have := CsSim.forN (n := n) (w := w) (Q := fun _ m w' a b => VRel m w' a.1 b.1 ∧ VRel m w' a.2 b.2) l.length
      (fun j => if l.length - 1 - j ≠ l.length - 1 then 1 else 0) (fun _ => 0)
      (f := fun j s => do
        let i := l.length - 1 - j
        let res ← if i ≠ l.length - 1 then Bld.mul s.2 a else pure s.1
        let c ← Bld.go (idx l i)
        return (res, res.add c))
      (k := fun j s => do
        let i := l.length - 1 - j
        let res := if i ≠ l.length - 1 then csMul s.2 x else s.1
        let c ← Cs.go (idx xs i)
        return (res, csAdd res c))
      (by
        intro j hj n1 w1 s z hn1 hw1 hs
        dsimp only
        have hrest : ∀ n2 w2 (r : Lin F) (u : F), n1 ≤ n2 → AgreeTo n1 w1 w2 → VRel n2 w2 r u →
            CsSim n2 w2 0 0 (do
              let c ← Bld.go (idx l (l.length - 1 - j))
              return (r, r.add c) : Bld F (Lin F × Lin F)) (do
              let c ← Cs.go (idx xs (l.length - 1 - j))
              return (u, csAdd u c) : Cs F (F × F)) (fun m w' a b => VRel m w' a.1 b.1 ∧ VRel m w' a.2 b.2) := by
          intro n2 w2 r u hn2 hw2 hr
          refine CsSim.bind' (g' := 0) (c' := 0) (CsSim.go (Q := VRel) (goIdx_rel ((hl.mono hn1 hw1).mono hn2 hw2) _)) ?_ rfl rfl
          intro n3 w3 d e hn3 hw3 hd
          exact CsSim.pure ⟨hr.mono hn3 hw3, (hr.mono hn3 hw3).add hd⟩
        by_cases hi : l.length - 1 - j ≠ l.length - 1
        · rw [if_pos hi, if_pos hi]
          simp only [if_pos hi]
          rw [← pure_bind (csMul z.2 x) fun res => (do
            let c ← Cs.go (idx xs (l.length - 1 - j))
            return (res, csAdd res c) : Cs F (F × F))]
          exact CsSim.bind' (g' := 0) (c' := 0) (CsSim.mul hs.2 (ha.mono hn1 hw1)) hrest rfl rfl
        · rw [if_neg hi, if_neg hi]
          simp only [if_neg hi]
          rw [pure_bind]
          exact hrest n1 w1 s.1 z.1 (le_refl _) (AgreeTo.refl _ _) hs.1)
      (x := ((Lin.ofConst 0 : Lin F), (Lin.ofConst 0 : Lin F))) (y := ((csConst 0 : F), (csConst 0 : F))) ⟨VRel.const _ _ _, VRel.const _ _ _⟩
    rw [hsum, h0] at this
    exact this
  · intro n1 w1 s z hn1 hw1 hs
    exact CsSim.mul hs.2 (VRel.const _ _ _)

theorem sim_zeroAndOne {l : List (Lin F)} {xs : List F} (hl : VsRel n w l xs) :
    CsSim n w 0 0 (bldZeroAndOne l) (uniZeroAndOne xs) VRel := by
  unfold bldZeroAndOne uniZeroAndOne
  refine CsSim.bind' (g' := 0) (c' := 0) (CsSim.go (Q := VRel) (goIdx_rel hl 0)) ?_ rfl rfl
  intro n1 w1 a x hn1 hw1 ha
  refine CsSim.bind' (g' := 0) (c' := 0) (CsSim.go (Q := VRel) (goIdx_rel (hl.mono hn1 hw1) 0)) ?_ rfl rfl
  intro n2 w2 b y hn2 hw2 hb
  refine CsSim.bind' (g' := 0) (c' := 0) (CsSim.go (Q := fun m w' a b => VsRel m w' a b ∧ a.length = l.length - 1) (goFrom_rel ((hl.mono hn1 hw1).mono hn2 hw2) 1)) ?_ rfl rfl
  intro n3 w3 r z hn3 hw3 hr
  exact CsSim.pure (((ha.mono hn2 hw2).mono hn3 hw3).adds (hb.mono hn3 hw3) hr.1)

end GkrMimc
