import Verif.Proofs.HeapSim

/-!
The verifier on slices: `Verify` of gkr/verifier.go computes what it computes on values, and writes to no array that
existed before the call.
-/

namespace GkrMimc

variable {F : Type} [Field F] [DecidableEq F]

set_option linter.unusedSectionVars false

/-- One evaluation of the static-table loops: `append(nextQL, nextQR...)`, then `Evaluate`. -/
theorem appendEval_sim {h : Heap F} {nL nR t : Slice} {lv rv tv : List F} (rL : Rep h nL lv) (rR : Rep h nR rv)
    (rt : Rep h t tv) (at' : Apart nL t) :
    Sim (fun a h' b => a = b ∧ FrameBut h nL h' ∧ Rep h' nL lv) (evaluateH (h.append nL nR).2 t (h.append nL nR).1)
      (evaluate tv (lv ++ rv)) := by
  obtain ⟨r, f, r'⟩ := append_rep rL rR
  refine (evaluateH_sim (rt.frameBut f at') r).mono ?_
  rintro a h' b ⟨e, f'⟩
  exact ⟨e, f.trans (FrameBut.of_frame f'), r'.frame f'⟩

/-- What the static-table loops preserve. -/
structure SInv (h0 : Heap F) (nL nR : Slice) (lv rv : List F) (tabs : List Slice) (tvs : List (List F)) (h : Heap F) : Prop where
  frame : FrameBut h0 nL h
  left : Rep h nL lv
  right : Rep h nR rv
  tables : List.Forall₂ (fun s t => Rep h s t ∧ Outside h0 s) tabs tvs

theorem forall₂_frameBut {h0 h h' : Heap F} {u : Slice} {tabs : List Slice} {tvs : List (List F)}
    (r : List.Forall₂ (fun s t => Rep h s t ∧ Outside h0 s) tabs tvs) (b : FrameBut h u h') (ap : ∀ s ∈ tabs, Apart u s) :
    List.Forall₂ (fun s t => Rep h' s t ∧ Outside h0 s) tabs tvs := by
  induction r with
  | nil => exact .nil
  | cons p _ ih => exact .cons ⟨p.1.frameBut b (ap _ (by simp)), p.2⟩ (ih fun s hs => ap s (by simp [hs]))

theorem forall₂_rep {h h0 : Heap F} {tabs : List Slice} {tvs : List (List F)}
    (r : List.Forall₂ (fun s t => Rep h s t ∧ Outside h0 s) tabs tvs) : ∀ s ∈ tabs, Valid h s ∧ Outside h0 s := by
  induction r with
  | nil => simp
  | cons p _ ih =>
    intro s hs
    rcases List.mem_cons.1 hs with rfl | hs
    · exact ⟨p.1.valid, p.2⟩
    · exact ih s hs

theorem evaluateStaticTablesH_sim {h : Heap F} (l : Layer F) {q nL nR : Slice} {qv lv rv : List F} (rq : Rep h q qv)
    (rL : Rep h nL lv) (rR : Rep h nR rv) (ap : Apart nL nR) :
    Sim (fun s h' v => Rep h' s v ∧ FrameBut h nL h' ∧ Rep h' nL lv) (evaluateStaticTablesH h l q nL nR)
      (evaluateStaticTables l qv lv rv) := by
  unfold evaluateStaticTablesH evaluateStaticTables
  refine (getStaticTableH_sim l rq).bind ?_
  rintro tabs h1 tvs ⟨rt, f1⟩
  simp only
  obtain ⟨rm, om, fm⟩ := make_rep h1 tabs.length
  generalize h1.make tabs.length = m at rm om fm
  have hm : m.1.len = tabs.length := by rw [← rm.len]; simp
  rw [mapGo_eq_gen, ← rt.length_eq]
  have hv := forall₂_rep rt
  have apE : Apart nL m.1 := om.apart' (rL.valid.frame f1)
  have apT : ∀ s ∈ tabs, Apart nL s := fun s hs => (hv s hs).2.apart' rL.valid
  have hI : SInv h nL nR lv rv tabs tvs m.2 :=
    ⟨FrameBut.of_frame (f1.trans fm), (rL.frame f1).frame fm, (rR.frame f1).frame fm,
      List.Forall₂.imp (fun _ _ r => ⟨r.1.frame fm, r.2⟩) rt⟩
  have key := fillLoop_sim (evals := m.1) (I := SInv h nL nR lv rv tabs tvs)
    (body := fun i h => idx tabs i >>= fun t => evaluateH (h.append nL nR).2 t (h.append nL nR).1)
    (g := fun i => idx tvs i >>= fun t => evaluate t (lv ++ rv)) ?_ ?_ tabs.length 0 m.2 [] hI rm.valid rfl (by omega) rfl
  · simp only [bind_assoc] at key
    rw [← bind_ok (genM _ 0 tabs.length)]
    have := key.bind (f := fun x => .ok (m.1, x.2)) (g := fun bs => .ok bs)
      (Q := fun s h' v => Rep h' s v ∧ FrameBut h nL h' ∧ Rep h' nL lv) ?_
    · simp only [bind_assoc, ok_bind] at this
      exact this
    · rintro _ h2 bs ⟨hI2, r2⟩
      exact ⟨r2, hI2.frame, hI2.left⟩
  · intro i h2 ev hI2 re
    refine Sim.idxBind (List.Forall₂.imp (fun a b p => p) hI2.tables) i ?_
    intro x y p
    refine (appendEval_sim hI2.left hI2.right p.1 (p.2.apart' rL.valid)).mono ?_
    rintro a h3 b ⟨e, f3, r3⟩
    exact ⟨e, ⟨hI2.frame.trans f3, r3, hI2.right.frameBut f3 ap, forall₂_frameBut hI2.tables f3 apT⟩, re.frameBut f3 apE⟩
  · intro h2 h3 hI2 f3
    exact ⟨hI2.frame.trans_outside f3 (om.mono f1), hI2.left.frameBut f3 (om.apart (rL.valid.frame f1)),
      hI2.right.frameBut f3 (om.apart (rR.valid.frame f1)),
      forall₂_frameBut hI2.tables f3 fun s hs => om.apart (hv s hs).1⟩

theorem evaluateStaticTablesLinCombsH_sim {h : Heap F} (l : Layer F) {qL qR nL nR : Slice} {qLv qRv lv rv : List F}
    (lambdaL lambdaR : F) (rqL : Rep h qL qLv) (rqR : Rep h qR qRv)
    (rL : Rep h nL lv) (rR : Rep h nR rv) (ap : Apart nL nR) :
    Sim (fun s h' v => Rep h' s v ∧ FrameBut h nL h' ∧ Rep h' nL lv)
      (evaluateStaticTablesLinCombsH h l qL qR nL nR lambdaL lambdaR)
      (evaluateStaticTablesLinCombs l qLv qRv lv rv lambdaL lambdaR) := by
  unfold evaluateStaticTablesLinCombsH evaluateStaticTablesLinCombs
  refine (getStaticTableH_sim l rqL).bind ?_
  rintro tabsL h1 tvsL ⟨rtL, f1⟩
  refine (getStaticTableH_sim l (rqR.frame f1)).bind ?_
  rintro tabsR h2 tvsR ⟨rtR, f2⟩
  simp only
  obtain ⟨rm, om, fm⟩ := make_rep h2 tabsL.length
  generalize h2.make tabsL.length = m at rm om fm
  have hm : m.1.len = tabsL.length := by rw [← rm.len]; simp
  rw [gen, ← rtL.length_eq]
  have f12 := f1.trans f2
  replace rtL : List.Forall₂ (fun s t => Rep h2 s t ∧ Outside h s) tabsL tvsL :=
    List.Forall₂.imp (fun _ _ r => ⟨r.1.frame f2, r.2⟩) rtL
  replace rtR : List.Forall₂ (fun s t => Rep h2 s t ∧ Outside h s) tabsR tvsR :=
    List.Forall₂.imp (fun _ _ r => ⟨r.1, r.2.mono f1⟩) rtR
  have hvL := forall₂_rep rtL
  have hvR := forall₂_rep rtR
  have apE : Apart nL m.1 := om.apart' (rL.valid.frame f12)
  have apTL : ∀ s ∈ tabsL, Apart nL s := fun s hs => (hvL s hs).2.apart' rL.valid
  have apTR : ∀ s ∈ tabsR, Apart nL s := fun s hs => (hvR s hs).2.apart' rL.valid
  have mk : ∀ {tabs tvs}, List.Forall₂ (fun s t => Rep h2 s t ∧ Outside h s) tabs tvs → SInv h nL nR lv rv tabs tvs m.2 :=
    fun rt => ⟨FrameBut.of_frame (f12.trans fm), (rL.frame f12).frame fm, (rR.frame f12).frame fm,
      List.Forall₂.imp (fun _ _ r => ⟨r.1.frame fm, r.2⟩) rt⟩
  have stepF : ∀ {tabs tvs h3 h4}, SInv h nL nR lv rv tabs tvs h3 → FrameBut h3 nL h4 → Rep h4 nL lv →
      (∀ s ∈ tabs, Apart nL s) → SInv h nL nR lv rv tabs tvs h4 :=
    fun I f r a => ⟨I.frame.trans f, r, I.right.frameBut f ap, forall₂_frameBut I.tables f a⟩
  have stepE : ∀ {tabs tvs h3 h4}, SInv h nL nR lv rv tabs tvs h3 → FrameBut h3 m.1 h4 →
      (∀ s ∈ tabs, Valid h2 s ∧ Outside h s) → SInv h nL nR lv rv tabs tvs h4 :=
    fun I f v => ⟨I.frame.trans_outside f (om.mono f12), I.left.frameBut f (om.apart (rL.valid.frame f12)),
      I.right.frameBut f (om.apart (rR.valid.frame f12)), forall₂_frameBut I.tables f fun s hs => om.apart (v s hs).1⟩
  have key := fillLoop_sim (evals := m.1)
    (I := fun h' => SInv h nL nR lv rv tabsL tvsL h' ∧ SInv h nL nR lv rv tabsR tvsR h')
    (body := fun i h => idx tabsL i >>= fun tl => evaluateH (h.append nL nR).2 tl (h.append nL nR).1 >>= fun left =>
      idx tabsR i >>= fun tr => evaluateH (left.2.append nL nR).2 tr (left.2.append nL nR).1 >>= fun right =>
      .ok (left.1 * lambdaL + right.1 * lambdaR, right.2))
    (g := fun i => idx tvsL i >>= fun tl => evaluate tl (lv ++ rv) >>= fun left =>
      idx tvsR i >>= fun tr => evaluate tr (lv ++ rv) >>= fun right => .ok (left * lambdaL + right * lambdaR))
    ?_ ?_ tabsL.length 0 m.2 [] ⟨mk rtL, mk rtR⟩ rm.valid rfl (by omega) rfl
  · simp only [bind_assoc, ok_bind] at key
    rw [← bind_ok (genM _ 0 tabsL.length)]
    have := key.bind (f := fun x => .ok (m.1, x.2)) (g := fun bs => .ok bs)
      (Q := fun s h' v => Rep h' s v ∧ FrameBut h nL h' ∧ Rep h' nL lv) ?_
    · simp only [bind_assoc, ok_bind] at this
      exact this
    · rintro _ h3 bs ⟨⟨hI3, _⟩, r3⟩
      exact ⟨r3, hI3.frame, hI3.left⟩
  · rintro i h3 ev ⟨IL, IR⟩ re
    refine Sim.idxBind (List.Forall₂.imp (fun a b p => p) IL.tables) i ?_
    intro x y p
    refine (appendEval_sim IL.left IL.right p.1 (p.2.apart' rL.valid)).bind ?_
    rintro a h4 b ⟨rfl, f4, r4⟩
    have IL4 := stepF IL f4 r4 apTL
    have IR4 := stepF IR f4 r4 apTR
    refine Sim.idxBind (List.Forall₂.imp (fun a b p => p) IR4.tables) i ?_
    intro x' y' p'
    refine (appendEval_sim IR4.left IR4.right p'.1 (p'.2.apart' rL.valid)).bind ?_
    rintro a' h5 b' ⟨rfl, f5, r5⟩
    exact ⟨rfl, ⟨stepF IL4 f5 r5 apTL, stepF IR4 f5 r5 apTR⟩, (re.frameBut f4 apE).frameBut f5 apE⟩
  · rintro h3 h4 ⟨IL, IR⟩ f4
    exact ⟨stepE IL f4 hvL, stepE IR f4 hvR⟩

/-! ### Verify -/

/-- The slices of a proof. -/
structure PRep (h : Heap F) (p : GkrProofH) (v : GkrProof F) : Prop where
  proofs : List.Forall₂ (Reps h) p.sumcheckProofs v.sumcheckProofs
  left : Rep h p.claimsLeft v.claimsLeft
  right : Rep h p.claimsRight v.claimsRight

theorem PRep.frame {h h' : Heap F} {p : GkrProofH} {v : GkrProof F} (r : PRep h p v) (f : Frame h h') : PRep h' p v :=
  ⟨List.Forall₂.imp (fun _ _ r => Reps.frame r f) r.proofs, r.left.frame f, r.right.frame f⟩

theorem verifyInputsH_sim {h : Heap F} {p : GkrProofH} {pv : GkrProof F} {inputs : List Slice} {iv : List (List F)}
    {s : VerdictH F} {v : SumcheckVerdict F} (rp : PRep h p pv) (ri : Reps h inputs iv)
    (r1 : Rep h s.qPrime v.qPrime) (r2 : Rep h s.qL v.qL) (r3 : Rep h s.qR v.qR) :
    Sim (fun a h' b => a = b ∧ Frame h h') (verifyInputsH h p inputs s) (verifyInputs pv iv v) := by
  unfold verifyInputsH verifyInputs
  refine (evaluateMixedChunkedH_sim ri r1 r2 r3).bind ?_
  rintro ⟨a, b⟩ h' _ ⟨rfl, f⟩
  refine (rp.left.frame f).loadBind 0 fun cl => ?_
  refine (rp.right.frame f).loadBind 0 fun cr => ?_
  simp only
  split
  · exact ⟨rfl, f⟩
  · exact ⟨rfl, f⟩

theorem verifyLayersH_sim (H : List F → F) (c : Circuit F) {p : GkrProofH} {pv : GkrProof F} {inputs : List Slice}
    {iv : List (List F)} :
    ∀ (k : Nat) (s : VerdictH F) (v : SumcheckVerdict F) (h : Heap F), PRep h p pv → Reps h inputs iv →
      Rep h s.qPrime v.qPrime → Rep h s.qL v.qL → Rep h s.qR v.qR →
      Sim (fun a h' b => a = b ∧ Frame h h') (verifyLayersH H c p inputs k s h) (verifyLayers H c pv iv k v)
  | 0, s, v, h, rp, ri, r1, r2, r3 => verifyInputsH_sim rp ri r1 r2 r3
  | k + 1, s, v, h, rp, ri, r1, r2, r3 => by
    unfold verifyLayersH verifyLayers
    refine rp.left.loadBind _ fun cl => ?_
    refine rp.right.loadBind _ fun cr => ?_
    refine Sim.idxBind rp.proofs k fun sp spv rsp => ?_
    refine Sim.pureBind fun l _ => ?_
    refine (sumcheckVerifyH_sim H _ l.bGInputs rsp).bind ?_
    rintro r h1 t ⟨f1, pr⟩
    rcases r with _ | s' <;> rcases t with _ | v' <;> simp only at pr
    · exact ⟨rfl, f1⟩
    simp only
    rw [(r1.frame f1).vals, pr.qPrime.vals]
    refine Sim.pureBind fun eqEval _ => ?_
    refine (rp.left.frame f1).loadBind _ fun vl => ?_
    refine (rp.right.frame f1).loadBind _ fun vr => ?_
    refine (evaluateStaticTablesLinCombsH_sim l 1 _ (r2.frame f1) (r3.frame f1) pr.qL pr.qR pr.apartR).bind ?_
    rintro st h2 stv ⟨rst, f2, rL⟩
    simp only
    rw [rst.vals, pr.claim]
    refine Sim.pureBind fun comb _ => ?_
    have f := f2.frame f1 pr.outside
    split
    · exact ⟨rfl, f⟩
    · exact (verifyLayersH_sim H c k s' v' h2 (rp.frame f) (Reps.frame ri f) (pr.qPrime.frameBut f2 pr.apartP) rL
        (pr.qR.frameBut f2 pr.apartR)).mono fun _ _ _ q => ⟨q.1, f.trans q.2⟩

theorem makeFill_sim (h : Heap F) (n : Nat) (f : Nat → F) :
    Sim (fun s h' v => (Rep h' s v ∧ Outside h s) ∧ Frame h h') (makeFill h n f) (.ok ((List.range n).map f)) := by
  unfold makeFill
  simp only
  obtain ⟨rm, om, fm⟩ := make_rep h n
  generalize h.make n = m at rm om fm
  have hm : m.1.len = n := by rw [← rm.len]; simp
  have key := fillLoop_sim (evals := m.1) (I := fun h' => Frame h h') (body := fun i h => .ok (f i, h)) (g := fun i => .ok (f i))
    (fun i h1 ev I r => ⟨rfl, I, r⟩) (fun h1 h2 I b => b.frame I om) n 0 m.2 [] fm rm.valid rfl (by omega) rfl
  have e : genM (fun i => (.ok (f i) : Go F)) 0 n = .ok ((List.range n).map f) := by
    exact (gen_ok f n fun _ _ => rfl).trans rfl
  rw [e] at key
  have := key.bind (f := fun x => .ok (m.1, x.2)) (g := fun bs => .ok bs)
    (Q := fun s h' v => (Rep h' s v ∧ Outside h s) ∧ Frame h h') ?_
  · simp only [bind_assoc, ok_bind] at this
    exact this
  · rintro _ h3 bs ⟨f3, r3⟩
    exact ⟨⟨r3, om⟩, f3⟩

theorem gkrVerifyH_sim (H : List F → F) (bN : Nat) (c : Circuit F) {h : Heap F} {p : GkrProofH} {pv : GkrProof F}
    {inputs outputs : List Slice} {iv ov : List (List F)} (rp : PRep h p pv) (ri : Reps h inputs iv)
    (ro : Reps h outputs ov) :
    Sim (fun a h' b => a = b ∧ Frame h h') (gkrVerifyH H bN c h p inputs outputs) (gkrVerify H bN c pv iv ov) := by
  unfold gkrVerifyH gkrVerify getInitialQPrimeAndQH getInitialQPrimeAndQ
  simp only
  refine Sim.pureBind fun l _ => ?_
  rw [bind_assoc]
  refine (makeFill_sim h l.bGOutputs fun i => ((i + 1 : Nat) : F)).bind (g := fun q => do
    let claim ← evaluateChunked ov (q ++ (List.range bN).map fun i => ((i + 1 : Nat) : F))
    let sp ← idx pv.sumcheckProofs (c.layers.length - 1)
    let res ← sumcheckVerify H claim sp l.bGInputs
    match res with
    | none => return false
    | some v => do
      let eqEval ← evalEq ((List.range bN).map fun i => ((i + 1 : Nat) : F)) v.qPrime
      let vl ← idx pv.claimsLeft (c.layers.length - 1)
      let vr ← idx pv.claimsRight (c.layers.length - 1)
      let statics ← evaluateStaticTables l q v.qL v.qR
      let comb ← evaluateCombinator vl vr eqEval l.gates statics
      if v.finalClaim ≠ comb then return false
      else verifyLayers H c pv iv (c.layers.length - 1) v) ?_
  rintro q h1 qv ⟨⟨rq, _⟩, f1⟩
  simp only
  rw [bind_assoc]
  refine (makeFill_sim h1 bN fun i => ((i + 1 : Nat) : F)).bind (g := fun qPrime => do
    let claim ← evaluateChunked ov (qv ++ qPrime)
    let sp ← idx pv.sumcheckProofs (c.layers.length - 1)
    let res ← sumcheckVerify H claim sp l.bGInputs
    match res with
    | none => return false
    | some v => do
      let eqEval ← evalEq qPrime v.qPrime
      let vl ← idx pv.claimsLeft (c.layers.length - 1)
      let vr ← idx pv.claimsRight (c.layers.length - 1)
      let statics ← evaluateStaticTables l qv v.qL v.qR
      let comb ← evaluateCombinator vl vr eqEval l.gates statics
      if v.finalClaim ≠ comb then return false
      else verifyLayers H c pv iv (c.layers.length - 1) v) ?_
  rintro qP h2 qPv ⟨⟨rqP, _⟩, f2⟩
  change Sim _ (do
    let claim ← evaluateChunkedH ((h2.append Slice.nil q).2.append (h2.append Slice.nil q).1 qP).2 outputs
      ((h2.append Slice.nil q).2.append (h2.append Slice.nil q).1 qP).1
    let sp ← idx p.sumcheckProofs (c.layers.length - 1)
    let res ← sumcheckVerifyH H claim.2 claim.1 sp l.bGInputs
    match res.1 with
    | none => return (false, res.2)
    | some v => do
      let eqEval ← evalEq (res.2.vals qP) (res.2.vals v.qPrime)
      let vl ← res.2.load p.claimsLeft (c.layers.length - 1)
      let vr ← res.2.load p.claimsRight (c.layers.length - 1)
      let statics ← evaluateStaticTablesH res.2 l q v.qL v.qR
      let comb ← evaluateCombinator vl vr eqEval l.gates (statics.2.vals statics.1)
      if v.finalClaim ≠ comb then return (false, statics.2)
      else verifyLayersH H c p inputs (c.layers.length - 1) v statics.2) _
  obtain ⟨ra, oa, fa⟩ := appendNil_rep (rq.frame f2)
  generalize h2.append Slice.nil q = a at ra oa fa
  obtain ⟨rb, fb, _⟩ := append_rep ra (rqP.frame fa)
  generalize a.2.append a.1 qP = b at rb fb
  have f2b : Frame h2 b.2 := fb.frame fa oa
  have f0b : Frame h b.2 := (f1.trans f2).trans f2b
  refine (evaluateChunkedH_sim (Reps.frame ro f0b) rb).bind ?_
  rintro claim h3 _ ⟨rfl, f3⟩
  have f03 := f0b.trans f3
  have f23 := f2b.trans f3
  simp only
  refine Sim.idxBind (rp.frame f03).proofs _ fun sp spv rsp => ?_
  refine (sumcheckVerifyH_sim H _ l.bGInputs rsp).bind ?_
  rintro r h4 t ⟨f4, pr⟩
  have f04 := f03.trans f4
  have f24 := f23.trans f4
  rcases r with _ | s' <;> rcases t with _ | v' <;> simp only at pr
  · exact ⟨rfl, f04⟩
  simp only
  rw [(rqP.frame f24).vals, pr.qPrime.vals]
  refine Sim.pureBind fun eqEval _ => ?_
  refine (rp.frame f04).left.loadBind _ fun vl => ?_
  refine (rp.frame f04).right.loadBind _ fun vr => ?_
  refine (evaluateStaticTablesH_sim l ((rq.frame f2).frame f24) pr.qL pr.qR pr.apartR).bind ?_
  rintro st h5 stv ⟨rst, f5, rL⟩
  simp only
  rw [rst.vals, pr.claim]
  refine Sim.pureBind fun comb _ => ?_
  have f := f5.frame f04 (pr.outside.mono f03)
  split
  · exact ⟨rfl, f⟩
  · exact (verifyLayersH_sim H c _ s' v' h5 (rp.frame f) (Reps.frame ri f) (pr.qPrime.frameBut f5 pr.apartP) rL
      (pr.qR.frameBut f5 pr.apartR)).mono fun _ _ _ q => ⟨q.1, f.trans q.2⟩

end GkrMimc
