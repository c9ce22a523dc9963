import Verif.Proofs.R1csGadgets

/-! The simulation for the sumcheck and GKR gadgets. -/

namespace GkrMimc

open Spec

variable {F : Type} [Field F] {n : Nat} {w : Nat → F} {α β : Type}

/-! ### `snark/sumcheck` -/

/-- Lists of polynomials and their values. -/
def VssRel (n : Nat) (w : Nat → F) (as : List (List (Lin F))) (xs : List (List F)) : Prop := List.Forall₂ (VsRel n w) as xs

theorem VssRel.mono {n m : Nat} {w w' : Nat → F} {a : List (List (Lin F))} {x : List (List F)} (h : VssRel n w a x) (hm : n ≤ m)
    (hw : AgreeTo n w w') : VssRel m w' a x := List.Forall₂.imp (fun _ _ h => VsRel.mono h hm hw) h

/-- Multiplications for a round polynomial with `k` coefficients: its hash and its evaluation. -/
def polyCost (k : Nat) : Nat := 364 * k + (k - 1 + 1)

/-- Multiplications of a sumcheck gadget. -/
def roundsCost (polys : List (List (Lin F))) : Nat := (polys.map fun p => polyCost p.length).sum

/-- The results of a sumcheck gadget and their values; `k` variables of the first two kinds, `k'` of the last. -/
structure VerdictRel (k k' : Nat) (n : Nat) (w : Nat → F) (v : SumcheckVerdict (Lin F)) (x : SumcheckVerdict F) : Prop where
  qPrime : VsRel n w v.qPrime x.qPrime
  qL : VsRel n w v.qL x.qL
  qR : VsRel n w v.qR x.qR
  claim : VRel n w v.finalClaim x.finalClaim
  lenPrime : v.qPrime.length = k'
  lenL : v.qL.length = k
  lenR : v.qR.length = k

theorem VerdictRel.mono {k k' n m : Nat} {w w' : Nat → F} {v : SumcheckVerdict (Lin F)} {x : SumcheckVerdict F} (h : VerdictRel k k' n w v x)
    (hm : n ≤ m) (hw : AgreeTo n w w') : VerdictRel k k' m w' v x :=
  ⟨h.qPrime.mono hm hw, h.qL.mono hm hw, h.qR.mono hm hw, h.claim.mono hm hw, h.lenPrime, h.lenL, h.lenR⟩

theorem sim_sumcheck (arks : List F) {polys : List (List (Lin F))} {xs : List (List F)} {a : Lin F} {x : F} (bG : Nat)
    (hp : VssRel n w polys xs) (ha : VRel n w a x) :
    CsSim n w (roundsCost polys) polys.length (bldSumcheckAssertValid arks polys a bG) (sumcheckAssertValid arks xs x bG)
      (VerdictRel bG (polys.length - 2 * bG)) := by
  unfold bldSumcheckAssertValid sumcheckAssertValid
  have hloop := CsSim.foldlM (Q := fun r m w' (s : Lin F × List (Lin F)) (y : F × List F) => VRel m w' s.1 y.1 ∧ VsRel m w' s.2 y.2 ∧ s.2.length = r)
    (E := VsRel) (fun h hm hw => h.mono hm hw) (fun p => polyCost p.length) (fun _ => 1)
    (f := fun (s : Lin F × List (Lin F)) poly => do
      let zeroAndOne ← bldZeroAndOne poly
      Bld.assertIsEqual zeroAndOne s.1
      let h ← bldMimcHash arks poly
      let claim ← bldUniEval poly h
      return (claim, s.2 ++ [h]))
    (k := fun (s : F × List F) poly => do
      let zeroAndOne ← uniZeroAndOne poly
      Cs.assertIsEqual zeroAndOne s.1
      let h ← snarkMimcHash arks poly
      let claim ← uniEval poly h
      return (claim, s.2 ++ [h]))
    (by
      intro r n w s y p z hs hpz
      refine CsSim.bind' (c' := 1) (sim_zeroAndOne hpz) ?_ (Nat.zero_add _) rfl
      intro n1 w1 b u hn1 hw1 hb
      refine CsSim.bind' (c' := 0) (CsSim.assert hb (hs.1.mono hn1 hw1)) ?_ (Nat.zero_add _) rfl
      intro n2 w2 _ _ hn2 hw2 _
      have hp2 := (hpz.mono hn1 hw1).mono hn2 hw2
      refine CsSim.bind' (c' := 0) (sim_mimcHash arks hp2) ?_ rfl rfl
      intro n3 w3 h u3 hn3 hw3 hh
      refine CsSim.bind' (g' := 0) (c' := 0) (sim_uniEval (hp2.mono hn3 hw3) hh) ?_ rfl rfl
      intro n4 w4 cl u4 hn4 hw4 hcl
      refine CsSim.pure ⟨hcl, ?_, by rw [List.length_append, hs.2.2]; rfl⟩
      exact List.rel_append ((((VsRel.mono hs.2.1 hn1 hw1).mono hn2 hw2).mono hn3 hw3).mono hn4 hw4) (.cons (hh.mono hn4 hw4) .nil))
    polys xs 0 n w (a, []) (x, []) hp ⟨ha, .nil, rfl⟩
  refine CsSim.bind' (c' := 0) (g' := 0) hloop ?_ rfl (by simp)
  rintro n1 w1 ⟨cl, hs⟩ ⟨cx, hx⟩ hn1 hw1 ⟨hcl, hhs, hlen⟩
  dsimp only at hcl hhs hlen ⊢
  refine CsSim.bind' (g' := 0) (c' := 0) (CsSim.go (Q := fun m w' a b => VsRel m w' a b ∧ a.length = bG) (goTo_rel hhs _)) ?_ rfl rfl
  intro n2 w2 l2 x2 hn2 hw2 h2
  refine CsSim.bind' (g' := 0) (c' := 0) (CsSim.go (Q := fun m w' a b => VsRel m w' a b ∧ a.length = 2 * bG - bG)
    (goBetween_rel (hhs.mono hn2 hw2) _ _)) ?_ rfl rfl
  intro n3 w3 l3 x3 hn3 hw3 h3
  refine CsSim.bind' (g' := 0) (c' := 0) (CsSim.go (Q := fun m w' a b => VsRel m w' a b ∧ a.length = hs.length - 2 * bG)
    (goFrom_rel ((hhs.mono hn2 hw2).mono hn3 hw3) _)) ?_ rfl rfl
  intro n4 w4 l4 x4 hn4 hw4 h4
  refine CsSim.pure ⟨h4.1, (VsRel.mono h2.1 hn3 hw3).mono hn4 hw4, VsRel.mono h3.1 hn4 hw4,
    ((hcl.mono hn2 hw2).mono hn3 hw3).mono hn4 hw4, ?_, h2.2, by rw [h3.2]; omega⟩
  rw [h4.2, hlen, Nat.zero_add]

/-! ### `snark/gkr` -/

theorem bld_go_ok {α : Type} (a : α) : (Bld.go (.ok a) : Bld F α) = pure a := rfl

/-- A gate at compile time and on values, with `g` multiplications. -/
def GateSim (g : Nat) (b : Lin F → Lin F → Bld F (Lin F)) (s : F → F → Cs F F) : Prop :=
  ∀ n w a x a' x', VRel n w a x → VRel n w a' x' → CsSim n w g 0 (b a a') (s x x') VRel

/-- A static table of `k` entries at compile time and on values, with `g` multiplications. -/
def TableSim (g k : Nat) (b : List (Lin F) → Bld F (List (Lin F))) (s : List F → Cs F (List F)) : Prop :=
  ∀ n w q x, VsRel n w q x → CsSim n w g 0 (b q) (s x) (fun m w' l y => VsRel m w' l y ∧ l.length = k)

/-- The numbers of multiplications and entries for one gate of a layer: the gate, its table, and the size of the table. -/
structure GateCost where
  gate : Nat
  table : Nat
  size : Nat

/-- A layer at compile time and on values. -/
structure LayerSim (b : BldLayer F) (s : SnarkLayer F) (cost : List GateCost) : Prop where
  bG : b.bG = s.bG
  lenG : b.gates.length = cost.length
  lenG' : s.gates.length = cost.length
  lenT : b.staticTable.length = cost.length
  lenT' : s.staticTable.length = cost.length
  gate : ∀ i (h : i < cost.length), GateSim cost[i].gate (b.gates[i]'(lenG ▸ h)) (s.gates[i]'(lenG' ▸ h))
  table : ∀ i (h : i < cost.length), TableSim cost[i].table cost[i].size (b.staticTable[i]'(lenT ▸ h)) (s.staticTable[i]'(lenT' ▸ h))

/-- Multiplications of `Combine` with `k` coordinates of `hL` and `hR` together and `k'` of `qPrime`. -/
def combineCost (cost : List GateCost) (k k' : Nat) : Nat :=
  (cost.map fun c => c.table + (foldCost k c.size + (c.gate + 1))).sum + (3 * k' + 1)

/-- Multiplications of `CombineWithLinearComb`. -/
def combineLinCost (cost : List GateCost) (k k' : Nat) : Nat :=
  (cost.map fun c => c.table + (c.table + (foldCost k c.size + (1 + (foldCost k c.size + (1 + (c.gate + 1))))))).sum + (3 * k' + 1)

theorem sum_range_get {ι : Type} (l : List ι) (d : ι) (f : ι → Nat) : ((List.range l.length).map fun i => f (l.getD i d)).sum = (l.map f).sum := by
  congr 1
  apply List.ext_getElem (by simp)
  intro i h1 h2
  have : i < l.length := by simpa using h1
  simp [List.getElem?_eq_getElem this]

theorem sim_combine {b : BldLayer F} {s : SnarkLayer F} {cost : List GateCost} (h : LayerSim b s cost) {q q' hL hR h' : List (Lin F)}
    {xq xq' xL xR xh : List F} {vl vr : Lin F} {xl xr : F} (hq : VsRel n w q xq) (hq' : VsRel n w q' xq') (hhL : VsRel n w hL xL)
    (hhR : VsRel n w hR xR) (hh' : VsRel n w h' xh) (hvl : VRel n w vl xl) (hvr : VRel n w vr xr) :
    CsSim n w (combineCost cost (hL.length + hR.length) q'.length) 0 (b.combine q q' hL hR h' vl vr) (s.combine xq xq' xL xR xh xl xr) VRel := by
  unfold BldLayer.combine SnarkLayer.combine combineCost
  rw [h.lenG, h.lenG']
  dsimp only
  have hLR : VsRel n w (hL ++ hR) (xL ++ xR) := List.rel_append hhL hhR
  have hll : (hL ++ hR).length = hL.length + hR.length := List.length_append
  rw [← sum_range_get cost ⟨0, 0, 0⟩ fun c => c.table + (foldCost (hL.length + hR.length) c.size + (c.gate + 1))]
  refine CsSim.bind' (c := 0) (c' := 0) (Q := VRel) ?_ ?_ rfl rfl
  · have := CsSim.forN (n := n) (w := w) (Q := fun _ => VRel) cost.length
      (fun i => (fun c : GateCost => c.table + (foldCost (hL.length + hR.length) c.size + (c.gate + 1))) (cost.getD i ⟨0, 0, 0⟩)) (fun _ => 0)
      (f := fun i res => do
        let gen ← Bld.go (idx b.staticTable i)
        let tab ← gen q
        let t ← bldEval tab (hL ++ hR)
        let gate ← Bld.go (idx b.gates i)
        let g ← gate vl vr
        let m ← Bld.mul t g
        return res.add m)
      (k := fun i res => do
        let gen ← Cs.go (idx s.staticTable i)
        let tab ← gen xq
        let t ← mlEval tab (xL ++ xR)
        let gate ← Cs.go (idx s.gates i)
        let g ← gate xl xr
        return csAdd res (csMul t g))
      (by
        intro i hi n1 w1 r y hn1 hw1 hr
        rw [idx_ok (show i < b.staticTable.length from h.lenT ▸ hi), idx_ok (show i < s.staticTable.length from h.lenT' ▸ hi),
          idx_ok (show i < b.gates.length from h.lenG ▸ hi), idx_ok (show i < s.gates.length from h.lenG' ▸ hi),
          List.getD_eq_getElem _ _ hi]
        simp only [bld_go_ok, Cs.go_ok, pure_bind]
        refine CsSim.bind' (c := 0) (c' := 0) (h.table i hi n1 w1 q xq (hq.mono hn1 hw1)) ?_ rfl rfl
        intro n2 w2 t x2 hn2 hw2 ht
        rw [← hll, ← ht.2]
        refine CsSim.bind' (c' := 0) (sim_eval ht.1 ((hLR.mono hn1 hw1).mono hn2 hw2)) ?_ rfl rfl
        intro n3 w3 e x3 hn3 hw3 he
        refine CsSim.bind' (c' := 0) (h.gate i hi n3 w3 vl xl vr xr (((hvl.mono hn1 hw1).mono hn2 hw2).mono hn3 hw3)
          (((hvr.mono hn1 hw1).mono hn2 hw2).mono hn3 hw3)) ?_ rfl rfl
        intro n4 w4 g x4 hn4 hw4 hg
        rw [← pure_bind (csMul x3 x4) fun m => (pure (csAdd y m) : Cs F F)]
        refine CsSim.bind' (g' := 0) (c' := 0) (CsSim.mul (he.mono hn4 hw4) hg) ?_ rfl rfl
        intro n5 w5 m x5 hn5 hw5 hm
        exact CsSim.pure (((((hr.mono hn2 hw2).mono hn3 hw3).mono hn4 hw4).mono hn5 hw5).add hm))
      (x := Lin.ofConst 0) (y := csConst 0) (VRel.const _ _ _)
    simpa using this
  · intro n1 w1 r y hn1 hw1 hr
    refine CsSim.bind' (g' := 1) (c' := 0) (sim_eqEval (hq'.mono hn1 hw1) (hh'.mono hn1 hw1)) ?_ rfl rfl
    intro n2 w2 e x2 hn2 hw2 he
    exact CsSim.mul (hr.mono hn2 hw2) he

theorem sim_combineLin {b : BldLayer F} {s : SnarkLayer F} {cost : List GateCost} (h : LayerSim b s cost)
    {qL qR q' hL hR h' : List (Lin F)} {xqL xqR xq' xL xR xh : List F} {lamL lamR vl vr : Lin F} {yL yR xl xr : F} (hqL : VsRel n w qL xqL)
    (hqR : VsRel n w qR xqR) (hq' : VsRel n w q' xq') (hhL : VsRel n w hL xL)
    (hhR : VsRel n w hR xR) (hh' : VsRel n w h' xh) (hlL : VRel n w lamL yL) (hlR : VRel n w lamR yR) (hvl : VRel n w vl xl) (hvr : VRel n w vr xr) :
    CsSim n w (combineLinCost cost (hL.length + hR.length) q'.length) 0 (b.combineWithLinearComb qL qR q' hL hR h' lamL lamR vl vr)
      (s.combineWithLinearComb xqL xqR xq' xL xR xh yL yR xl xr) VRel := by
  unfold BldLayer.combineWithLinearComb SnarkLayer.combineWithLinearComb combineLinCost
  rw [h.lenG, h.lenG']
  dsimp only
  have hLR : VsRel n w (hL ++ hR) (xL ++ xR) := List.rel_append hhL hhR
  have hll : (hL ++ hR).length = hL.length + hR.length := List.length_append
  rw [← sum_range_get cost ⟨0, 0, 0⟩ fun c => c.table + (c.table + (foldCost (hL.length + hR.length) c.size +
    (1 + (foldCost (hL.length + hR.length) c.size + (1 + (c.gate + 1))))))]
  refine CsSim.bind' (c := 0) (c' := 0) (Q := VRel) ?_ ?_ rfl rfl
  · have := CsSim.forN (n := n) (w := w) (Q := fun _ => VRel) cost.length
      (fun i => (fun c : GateCost => c.table + (c.table + (foldCost (hL.length + hR.length) c.size +
        (1 + (foldCost (hL.length + hR.length) c.size + (1 + (c.gate + 1))))))) (cost.getD i ⟨0, 0, 0⟩)) (fun _ => 0)
      (f := fun i res => do
        let gen ← Bld.go (idx b.staticTable i)
        let tabL ← gen qL
        let tabR ← gen qR
        let tL ← bldEval tabL (hL ++ hR)
        let mL ← Bld.mul lamL tL
        let tR ← bldEval tabR (hL ++ hR)
        let mR ← Bld.mul lamR tR
        let tabEval := mL.add mR
        let gate ← Bld.go (idx b.gates i)
        let g ← gate vl vr
        let m ← Bld.mul tabEval g
        return res.add m)
      (k := fun i res => do
        let gen ← Cs.go (idx s.staticTable i)
        let tabL ← gen xqL
        let tabR ← gen xqR
        let tL ← mlEval tabL (xL ++ xR)
        let tR ← mlEval tabR (xL ++ xR)
        let tabEval := csAdd (csMul yL tL) (csMul yR tR)
        let gate ← Cs.go (idx s.gates i)
        let g ← gate xl xr
        return csAdd res (csMul tabEval g))
      (by
        intro i hi n1 w1 r y hn1 hw1 hr
        rw [idx_ok (show i < b.staticTable.length from h.lenT ▸ hi), idx_ok (show i < s.staticTable.length from h.lenT' ▸ hi),
          idx_ok (show i < b.gates.length from h.lenG ▸ hi), idx_ok (show i < s.gates.length from h.lenG' ▸ hi),
          List.getD_eq_getElem _ _ hi]
        simp only [bld_go_ok, Cs.go_ok, pure_bind]
        refine CsSim.bind' (c := 0) (c' := 0) (h.table i hi n1 w1 qL xqL (hqL.mono hn1 hw1)) ?_ rfl rfl
        intro n2 w2 t x2 hn2 hw2 ht
        refine CsSim.bind' (c := 0) (c' := 0) (h.table i hi n2 w2 qR xqR ((hqR.mono hn1 hw1).mono hn2 hw2)) ?_ rfl rfl
        intro n3 w3 t3 x3 hn3 hw3 ht3
        rw [← hll]
        have hLR3 := ((hLR.mono hn1 hw1).mono hn2 hw2).mono hn3 hw3
        have e1 := sim_eval (VsRel.mono ht.1 hn3 hw3) hLR3
        rw [ht.2] at e1
        refine CsSim.bind' (c' := 0) e1 ?_ rfl rfl
        intro n4 w4 e x4 hn4 hw4 he
        have hlL4 := (((hlL.mono hn1 hw1).mono hn2 hw2).mono hn3 hw3).mono hn4 hw4
        rw [← pure_bind (csMul yL x4) fun mL => (do
          let tR ← mlEval x3 (xL ++ xR)
          let tabEval := csAdd mL (csMul yR tR)
          let g ← (s.gates[i]'(h.lenG' ▸ hi)) xl xr
          return csAdd y (csMul tabEval g) : Cs F F)]
        refine CsSim.bind' (c' := 0) (CsSim.mul hlL4 he) ?_ rfl rfl
        intro n5 w5 m5 x5 hn5 hw5 hm5
        have e2 := sim_eval ((VsRel.mono ht3.1 hn4 hw4).mono hn5 hw5) ((hLR3.mono hn4 hw4).mono hn5 hw5)
        rw [ht3.2] at e2
        refine CsSim.bind' (c' := 0) e2 ?_ rfl rfl
        intro n6 w6 e6 x6 hn6 hw6 he6
        have hlR6 := (((((hlR.mono hn1 hw1).mono hn2 hw2).mono hn3 hw3).mono hn4 hw4).mono hn5 hw5).mono hn6 hw6
        rw [← pure_bind (csMul yR x6) fun mR => (do
          let tabEval := csAdd x5 mR
          let g ← (s.gates[i]'(h.lenG' ▸ hi)) xl xr
          return csAdd y (csMul tabEval g) : Cs F F)]
        refine CsSim.bind' (c' := 0) (CsSim.mul hlR6 he6) ?_ rfl rfl
        intro n7 w7 m7 x7 hn7 hw7 hm7
        have hvl7 := ((((((hvl.mono hn1 hw1).mono hn2 hw2).mono hn3 hw3).mono hn4 hw4).mono hn5 hw5).mono hn6 hw6).mono hn7 hw7
        have hvr7 := ((((((hvr.mono hn1 hw1).mono hn2 hw2).mono hn3 hw3).mono hn4 hw4).mono hn5 hw5).mono hn6 hw6).mono hn7 hw7
        refine CsSim.bind' (c' := 0) (h.gate i hi n7 w7 vl xl vr xr hvl7 hvr7) ?_ rfl rfl
        intro n8 w8 g x8 hn8 hw8 hg
        have hte : VRel n8 w8 (m5.add m7) (csAdd x5 x7) := (((hm5.mono hn6 hw6).mono hn7 hw7).mono hn8 hw8).add (hm7.mono hn8 hw8)
        rw [← pure_bind (csMul (csAdd x5 x7) x8) fun m => (pure (csAdd y m) : Cs F F)]
        refine CsSim.bind' (g' := 0) (c' := 0) (CsSim.mul hte hg) ?_ rfl rfl
        intro n9 w9 m x9 hn9 hw9 hm
        exact CsSim.pure ((((((((((hr.mono hn2 hw2).mono hn3 hw3).mono hn4 hw4).mono hn5 hw5).mono hn6 hw6).mono hn7 hw7).mono hn8 hw8).mono hn9 hw9).add hm)))
      (x := Lin.ofConst 0) (y := csConst 0) (VRel.const _ _ _)
    simpa using this
  · intro n1 w1 r y hn1 hw1 hr
    refine CsSim.bind' (g' := 1) (c' := 0) (sim_eqEval (hq'.mono hn1 hw1) (hh'.mono hn1 hw1)) ?_ rfl rfl
    intro n2 w2 e x2 hn2 hw2 he
    exact CsSim.mul (hr.mono hn2 hw2) he

/-- A proof and its values. -/
structure ProofRel (n : Nat) (w : Nat → F) (p : GkrProof (Lin F)) (x : GkrProof F) : Prop where
  polys : List.Forall₂ (VssRel n w) p.sumcheckProofs x.sumcheckProofs
  left : VsRel n w p.claimsLeft x.claimsLeft
  right : VsRel n w p.claimsRight x.claimsRight

theorem ProofRel.mono {n m : Nat} {w w' : Nat → F} {p : GkrProof (Lin F)} {x : GkrProof F} (h : ProofRel n w p x) (hm : n ≤ m)
    (hw : AgreeTo n w w') : ProofRel m w' p x :=
  ⟨h.polys.imp fun _ _ h => VssRel.mono h hm hw, h.left.mono hm hw, h.right.mono hm hw⟩

/-- A circuit at compile time and on values. -/
structure CircuitSim (b : BldCircuit F) (s : SnarkCircuit F) (costs : List (List GateCost)) : Prop where
  len : b.layers.length = costs.length
  len' : s.layers.length = costs.length
  layer : ∀ i (h : i < costs.length), LayerSim (b.layers[i]'(len ▸ h)) (s.layers[i]'(len' ▸ h)) costs[i]

/-- `bG` of a layer. -/
def BldCircuit.bG (b : BldCircuit F) (k : Nat) : Nat := (b.layers[k]?.map BldLayer.bG).getD 0

/-- The round polynomials of a layer. -/
def roundsAt {α : Type} (p : GkrProof α) (k : Nat) : List (List α) := p.sumcheckProofs.getD k []

/-- Multiplications of the loop of `AssertValid` over the layers `k-1, …, 0`. -/
def layersCost (b : BldCircuit F) (p : GkrProof (Lin F)) (costs : List (List GateCost)) : Nat → Nat → Nat
  | 0, _ => 0
  | k + 1, q => 728 + (1 + (roundsCost (roundsAt p k) + (combineLinCost (costs.getD k []) (b.bG k + b.bG k) q +
      layersCost b p costs k ((roundsAt p k).length - 2 * b.bG k))))

/-- Assertions of this loop. -/
def layersChecks (p : GkrProof (Lin F)) : Nat → Nat
  | 0 => 0
  | k + 1 => (roundsAt p k).length + (1 + layersChecks p k)

theorem goIdx_getD {R : Nat → (Nat → F) → α → β → Prop} {l : List α} {xs : List β} (h : List.Forall₂ (R n w) l xs) (i : Nat) (d : α) :
    CsSim n w 0 0 (Bld.go (idx l i)) (Cs.go (idx xs i)) (fun m w' a b => m = n ∧ w' = w ∧ R n w a b ∧ a = l.getD i d) := by
  apply CsSim.go
  by_cases hi : i < l.length
  · refine .inr ⟨l[i], xs[i]'(h.length_eq ▸ hi), idx_ok hi, idx_ok _, rfl, rfl, ?_, ?_⟩
    · exact List.Forall₂.get h hi (h.length_eq ▸ hi)
    · rw [List.getD_eq_getElem _ _ hi]
  · refine .inl ⟨.index, ?_, ?_⟩
    · unfold idx; rw [List.getElem?_eq_none (by omega)]
    · unfold idx; rw [List.getElem?_eq_none (by rw [← h.length_eq]; omega)]

theorem goLayer {b : BldCircuit F} {s : SnarkCircuit F} {costs : List (List GateCost)} (h : CircuitSim b s costs) (i : Nat) :
    CsSim n w 0 0 (Bld.go (idx b.layers i)) (Cs.go (idx s.layers i)) (fun m w' l l' => m = n ∧ w' = w ∧ LayerSim l l' (costs.getD i []) ∧ l.bG = b.bG i) := by
  apply CsSim.go
  by_cases hi : i < costs.length
  · have h1 : i < b.layers.length := h.len ▸ hi
    have h2 : i < s.layers.length := h.len' ▸ hi
    refine .inr ⟨b.layers[i], s.layers[i], idx_ok h1, idx_ok h2, rfl, rfl, ?_, ?_⟩
    · rw [List.getD_eq_getElem _ _ hi]
      exact h.layer i hi
    · simp [BldCircuit.bG, h1]
  · refine .inl ⟨.index, ?_, ?_⟩
    · unfold idx; rw [List.getElem?_eq_none (by rw [h.len]; omega)]
    · unfold idx; rw [List.getElem?_eq_none (by rw [h.len']; omega)]

theorem sim_layers (arks : List F) {b : BldCircuit F} {s : SnarkCircuit F} {costs : List (List GateCost)} (h : CircuitSim b s costs)
    {p : GkrProof (Lin F)} {x : GkrProof F} : ∀ (k n : Nat) (w : Nat → F) (v : SumcheckVerdict (Lin F)) (y : SumcheckVerdict F) (a a' : Nat),
    ProofRel n w p x → VerdictRel a a' n w v y →
    CsSim n w (layersCost b p costs k a') (layersChecks p k) (bldLayers arks b p k v) (snarkLayers arks s x k y)
      (VerdictRel (if k = 0 then a else b.bG 0) (if k = 0 then a' else (roundsAt p 0).length - 2 * b.bG 0)) := by
  intro k
  induction k with
  | zero =>
    intro n w v y a a' hp hv
    exact CsSim.pure hv
  | succ k ih =>
    intro n w v y a a' hp hv
    unfold bldLayers snarkLayers
    rw [layersCost, layersChecks]
    dsimp only
    refine CsSim.bind' (g := 0) (c := 0) (goIdx_getD hp.left (k + 1) (Lin.ofConst 0)) ?_ (Nat.zero_add _) (Nat.zero_add _)
    rintro _ _ cl xcl - - ⟨rfl, rfl, hcl, -⟩
    refine CsSim.bind' (g := 0) (c := 0) (goIdx_getD hp.right (k + 1) (Lin.ofConst 0)) ?_ (Nat.zero_add _) (Nat.zero_add _)
    rintro _ _ cr xcr - - ⟨rfl, rfl, hcr, -⟩
    refine CsSim.bind' (g := 728) (c := 0) (sim_mimcHash arks (l := [cl, cr]) (xs := [xcl, xcr]) (.cons hcl (.cons hcr .nil))) ?_ rfl (Nat.zero_add _)
    intro n1 w1 lam xlam hn1 hw1 hlam
    have hp1 := hp.mono hn1 hw1
    have hv1 := hv.mono hn1 hw1
    rw [← pure_bind (csMul xlam xcr) fun m => (do
      let sp ← Cs.go (idx x.sumcheckProofs k)
      let l ← Cs.go (idx s.layers k)
      let v' ← sumcheckAssertValid arks sp (csAdd xcl m) l.bG
      let vl ← Cs.go (idx x.claimsLeft k)
      let vr ← Cs.go (idx x.claimsRight k)
      let actual ← l.combineWithLinearComb y.qL y.qR y.qPrime v'.qL v'.qR v'.qPrime (csConst 1) xlam vl vr
      Cs.assertIsEqual v'.finalClaim actual
      snarkLayers arks s x k v' : Cs F (SumcheckVerdict F))]
    refine CsSim.bind' (c := 0) (CsSim.mul hlam (hcr.mono hn1 hw1)) ?_ rfl (Nat.zero_add _)
    intro n2 w2 m xm hn2 hw2 hm
    have hp2 := hp1.mono hn2 hw2
    have hv2 := hv1.mono hn2 hw2
    have hlam2 := hlam.mono hn2 hw2
    have hcl2 := (hcl.mono hn1 hw1).mono hn2 hw2
    refine CsSim.bind' (g := 0) (c := 0) (goIdx_getD hp2.polys k []) ?_ (Nat.zero_add _) (Nat.zero_add _)
    rintro _ _ sp xsp - - ⟨rfl, rfl, hsp, hspe⟩
    refine CsSim.bind' (g := 0) (c := 0) (goLayer h k) ?_ (Nat.zero_add _) (Nat.zero_add _)
    rintro _ _ l xl - - ⟨rfl, rfl, hl, hbG⟩
    have hspe' : roundsAt p k = sp := hspe.symm
    rw [hspe', ← hbG, ← hl.bG]
    refine CsSim.bind' (sim_sumcheck arks l.bG hsp (hcl2.add hm)) ?_ rfl rfl
    intro n3 w3 v' xv hn3 hw3 hv'
    have hp3 := hp2.mono hn3 hw3
    have hv3 := hv2.mono hn3 hw3
    have hlam3 := hlam2.mono hn3 hw3
    refine CsSim.bind' (g := 0) (c := 0) (goIdx_getD hp3.left k (Lin.ofConst 0)) ?_ (Nat.zero_add _) (Nat.zero_add _)
    rintro _ _ vl xvl - - ⟨rfl, rfl, hvl, -⟩
    refine CsSim.bind' (g := 0) (c := 0) (goIdx_getD hp3.right k (Lin.ofConst 0)) ?_ (Nat.zero_add _) (Nat.zero_add _)
    rintro _ _ vr xvr - - ⟨rfl, rfl, hvr, -⟩
    have hc := sim_combineLin hl hv3.qL hv3.qR hv3.qPrime hv'.qL hv'.qR hv'.qPrime (VRel.const _ _ 1) hlam3 hvl hvr
    rw [hv'.lenL, hv'.lenR, hv3.lenPrime] at hc
    refine CsSim.bind' (c := 0) hc ?_ rfl (Nat.zero_add _)
    intro n4 w4 act xact hn4 hw4 hact
    refine CsSim.bind' (g := 0) (c := 1) (CsSim.assert (hv'.claim.mono hn4 hw4) hact) ?_ (Nat.zero_add _) rfl
    intro n5 w5 _ _ hn5 hw5 _
    refine (ih n5 w5 v' xv l.bG (sp.length - 2 * l.bG) ((hp3.mono hn4 hw4).mono hn5 hw5) ((hv'.mono hn4 hw4).mono hn5 hw5)).imp ?_
    intro m' w' x' y' _ _ hx
    rw [if_neg (Nat.succ_ne_zero k), if_neg (Nat.succ_ne_zero k)]
    by_cases hk : k = 0
    · subst hk
      rw [if_pos rfl, if_pos rfl, hbG] at hx
      rw [hspe']
      exact hx
    · rw [if_neg hk, if_neg hk] at hx
      exact hx

/-- Multiplications of `EvalMixed` of a table of length `t`, with `k` coordinates of `qL` and of `qR` and `k'` of `qPrime`. -/
def mixedCost (t k k' : Nat) : Nat := 2 ^ k * foldCost k' (t / 2 ^ k) + (foldCost k (2 ^ k) + foldCost k (2 ^ k))

theorem sim_assertValid (arks : List F) {b : BldCircuit F} {s : SnarkCircuit F} {costs : List (List GateCost)} (h : CircuitSim b s costs)
    {p : GkrProof (Lin F)} {x : GkrProof F} {q q' vi vo : List (Lin F)} {xq xq' xi xo : List F} (hp : ProofRel n w p x)
    (hq : VsRel n w q xq) (hq' : VsRel n w q' xq') (hi : VsRel n w vi xi) (ho : VsRel n w vo xo) :
    CsSim n w (foldCost (q.length + q'.length) vo.length + (roundsCost (roundsAt p 90) + (combineCost (costs.getD 90 []) (b.bG 90 + b.bG 90) q'.length +
        (layersCost b p costs 90 ((roundsAt p 90).length - 2 * b.bG 90) + mixedCost vi.length (b.bG 0) ((roundsAt p 0).length - 2 * b.bG 0)))))
      ((roundsAt p 90).length + (1 + (layersChecks p 90 + 2)))
      (bldAssertValid arks b p q q' vi vo) (snarkAssertValid arks s x xq xq' xi xo) (fun _ _ _ _ => True) := by
  unfold bldAssertValid snarkAssertValid
  dsimp only
  have h90 : mimcRounds - 1 = 90 := rfl
  rw [h90, ← List.length_append]
  refine CsSim.bind' (c := 0) (sim_eval ho (List.rel_append hq hq')) ?_ rfl (Nat.zero_add _)
  intro n1 w1 cl xcl hn1 hw1 hcl
  have hp1 := hp.mono hn1 hw1
  refine CsSim.bind' (g := 0) (c := 0) (goIdx_getD hp1.polys 90 []) ?_ (Nat.zero_add _) (Nat.zero_add _)
  rintro _ _ sp xsp - - ⟨rfl, rfl, hsp, hspe⟩
  refine CsSim.bind' (g := 0) (c := 0) (goLayer h 90) ?_ (Nat.zero_add _) (Nat.zero_add _)
  rintro _ _ l xl - - ⟨rfl, rfl, hl, hbG⟩
  have hspe' : roundsAt p 90 = sp := hspe.symm
  rw [hspe', ← hbG, ← hl.bG]
  refine CsSim.bind' (sim_sumcheck arks l.bG hsp hcl) ?_ rfl rfl
  intro n2 w2 v xv hn2 hw2 hv
  have hp2 := hp1.mono hn2 hw2
  refine CsSim.bind' (g := 0) (c := 0) (goIdx_getD hp2.left 90 (Lin.ofConst 0)) ?_ (Nat.zero_add _) (Nat.zero_add _)
  rintro _ _ vl xvl - - ⟨rfl, rfl, hvl, -⟩
  refine CsSim.bind' (g := 0) (c := 0) (goIdx_getD hp2.right 90 (Lin.ofConst 0)) ?_ (Nat.zero_add _) (Nat.zero_add _)
  rintro _ _ vr xvr - - ⟨rfl, rfl, hvr, -⟩
  have hc := sim_combine hl ((hq.mono hn1 hw1).mono hn2 hw2) ((hq'.mono hn1 hw1).mono hn2 hw2) hv.qL hv.qR hv.qPrime hvl hvr
  rw [hv.lenL, hv.lenR] at hc
  refine CsSim.bind' (c := 0) hc ?_ rfl (Nat.zero_add _)
  intro n3 w3 act xact hn3 hw3 hact
  refine CsSim.bind' (g := 0) (c := 1) (CsSim.assert (hv.claim.mono hn3 hw3) hact) ?_ (Nat.zero_add _) rfl
  intro n4 w4 _ _ hn4 hw4 _
  have hp4 := (hp2.mono hn3 hw3).mono hn4 hw4
  refine CsSim.bind' (sim_layers arks h 90 n4 w4 v xv _ _ hp4 ((hv.mono hn3 hw3).mono hn4 hw4)) ?_ rfl rfl
  intro n5 w5 v5 x5 hn5 hw5 hv5
  rw [if_neg (by decide), if_neg (by decide)] at hv5
  have hp5 := hp4.mono hn5 hw5
  have hi5 := ((((hi.mono hn1 hw1).mono hn2 hw2).mono hn3 hw3).mono hn4 hw4).mono hn5 hw5
  refine CsSim.bind' (g := 0) (c := 0) (goIdx_getD hp5.left 0 (Lin.ofConst 0)) ?_ (Nat.zero_add _) (Nat.zero_add _)
  rintro _ _ cl0 xcl0 - - ⟨rfl, rfl, hcl0, -⟩
  refine CsSim.bind' (g := 0) (c := 0) (goIdx_getD hp5.right 0 (Lin.ofConst 0)) ?_ (Nat.zero_add _) (Nat.zero_add _)
  rintro _ _ cr0 xcr0 - - ⟨rfl, rfl, hcr0, -⟩
  have hm := sim_evalMixed hi5 hv5.qL hv5.qR hv5.qPrime
  rw [hv5.lenL, hv5.lenR, hv5.lenPrime] at hm
  refine CsSim.bind' (g' := 0) (c := 0) (c' := 2) hm ?_ rfl rfl
  rintro n6 w6 ⟨el, er⟩ ⟨xel, xer⟩ hn6 hw6 ⟨hel, her⟩
  refine CsSim.bind' (g := 0) (g' := 0) (c := 1) (c' := 1) (CsSim.assert hel (hcl0.mono hn6 hw6)) ?_ rfl rfl
  intro n7 w7 _ _ hn7 hw7 _
  exact CsSim.assert (her.mono hn7 hw7) ((hcr0.mono hn6 hw6).mono hn7 hw7)

end GkrMimc
