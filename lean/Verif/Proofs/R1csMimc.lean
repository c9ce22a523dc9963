import Verif.Proofs.R1csGkr

/-! The constraint systems of the circuits of the tests and benchmarks. -/

namespace GkrMimc

open Spec

variable {F : Type} [Field F] {n : Nat} {w : Nat → F} {α β : Type}

theorem cipherGate_sim (ark : F) : GateSim 4 (bldCipherGate ark) (snarkCipherGate ark) := by
  intro n w a x a' x' ha ha'
  unfold bldCipherGate snarkCipherGate
  dsimp only
  have ht := ha'.add (VRel.const n w ark)
  rw [show (pure (csAdd (csMul (csMul (csMul (csMul (csAdd x' (csConst ark)) (csAdd x' (csConst ark))) (csAdd x' (csConst ark)))
      (csMul (csMul (csAdd x' (csConst ark)) (csAdd x' (csConst ark))) (csAdd x' (csConst ark)))) (csAdd x' (csConst ark))) x) : Cs F F) =
    (do
      let c ← pure (csMul (csAdd x' (csConst ark)) (csAdd x' (csConst ark)))
      let c ← pure (csMul c (csAdd x' (csConst ark)))
      let c ← pure (csMul c c)
      let c ← pure (csMul c (csAdd x' (csConst ark)))
      pure (csAdd c x)) by simp only [pure_bind]]
  refine CsSim.bind' (g := 1) (g' := 3) (c := 0) (c' := 0) (CsSim.mul ht ht) ?_ rfl rfl
  intro n1 w1 c1 x1 hn1 hw1 h1
  have ht1 := ht.mono hn1 hw1
  refine CsSim.bind' (g := 1) (g' := 2) (c := 0) (c' := 0) (CsSim.mul h1 ht1) ?_ rfl rfl
  intro n2 w2 c2 x2 hn2 hw2 h2
  refine CsSim.bind' (g := 1) (g' := 1) (c := 0) (c' := 0) (CsSim.mul h2 h2) ?_ rfl rfl
  intro n3 w3 c3 x3 hn3 hw3 h3
  refine CsSim.bind' (g := 1) (g' := 0) (c := 0) (c' := 0) (CsSim.mul h3 ((ht1.mono hn2 hw2).mono hn3 hw3)) ?_ rfl rfl
  intro n4 w4 c4 x4 hn4 hw4 h4
  exact CsSim.pure (h4.add ((((ha.mono hn1 hw1).mono hn2 hw2).mono hn3 hw3).mono hn4 hw4))

theorem copyGate_sim : GateSim 0 (bldCopyGate (F := F)) snarkCopyGate := by
  intro n w a x a' x' ha ha'
  exact CsSim.pure ha

theorem table4 {a b c d : Lin F} {x y z t : F} (ha : VRel n w a x) (hb : VRel n w b y) (hc : VRel n w c z) (hd : VRel n w d t) :
    VsRel n w [a, b, c, d] [x, y, z, t] ∧ [a, b, c, d].length = 4 := ⟨.cons ha (.cons hb (.cons hc (.cons hd .nil))), rfl⟩

theorem copyTable_sim : TableSim 0 4 (bldCopyTable (F := F)) getCopyTable := by
  intro n w q x hq
  unfold bldCopyTable getCopyTable
  refine CsSim.bind' (g := 0) (g' := 0) (c := 0) (c' := 0) (goIdx_getD hq 0 (Lin.ofConst 0)) ?_ rfl rfl
  rintro _ _ q0 x0 - - ⟨rfl, rfl, h0, -⟩
  exact CsSim.pure (table4 (VRel.const _ _ _) (VRel.const _ _ _) h0 (VRel.const _ _ _))

theorem cipherTable_sim : TableSim 0 4 (bldCipherTable (F := F)) getCipherTable := by
  intro n w q x hq
  unfold bldCipherTable getCipherTable
  refine CsSim.bind' (g := 0) (g' := 0) (c := 0) (c' := 0) (goIdx_getD hq 0 (Lin.ofConst 0)) ?_ rfl rfl
  rintro _ _ q0 x0 - - ⟨rfl, rfl, h0, -⟩
  exact CsSim.pure (table4 (VRel.const _ _ _) (VRel.const _ _ _) ((VRel.const _ _ 1).sub h0) (VRel.const _ _ _))

theorem finalTable_sim : TableSim 0 4 (bldFinalCipherTable (F := F)) getFinalCipherTable := by
  intro n w q x hq
  exact CsSim.pure (table4 (VRel.const _ _ _) (VRel.const _ _ _) (VRel.const _ _ _) (VRel.const _ _ _))

/-- A layer of the MiMC circuit but the last. -/
def bldMid (c : F) : BldLayer F := ⟨2, 8, 8, 1, [bldCipherGate c, bldCopyGate], [bldCipherTable, bldCopyTable]⟩

/-- The last layer. -/
def bldLast (c : F) : BldLayer F := ⟨2, 8, 8, 1, [bldCipherGate c], [bldFinalCipherTable]⟩

theorem mid_sim (c : F) : LayerSim (bldMid c) (snarkMid c) [⟨4, 0, 4⟩, ⟨0, 0, 4⟩] := by
  refine ⟨rfl, rfl, rfl, rfl, rfl, ?_, ?_⟩
  · intro i hi
    match i, hi with
    | 0, _ => exact cipherGate_sim c
    | 1, _ => exact copyGate_sim
  · intro i hi
    match i, hi with
    | 0, _ => exact cipherTable_sim
    | 1, _ => exact copyTable_sim

theorem last_sim (c : F) : LayerSim (bldLast c) (snarkLast c) [⟨4, 0, 4⟩] := by
  refine ⟨rfl, rfl, rfl, rfl, rfl, ?_, ?_⟩
  · intro i hi
    match i, hi with
    | 0, _ => exact cipherGate_sim c
  · intro i hi
    match i, hi with
    | 0, _ => exact finalTable_sim

/-- The MiMC circuit at compile time. -/
def bldCircuit (arks : List F) : BldCircuit F := ⟨tab 90 (fun i => bldMid (arks.getD i 0)) ++ [bldLast (arks.getD 90 0)], 0⟩

theorem bldMimc_eq (arks : List F) (h : 91 ≤ arks.length) : bldMimcCircuit arks = .ok (bldCircuit arks) := by
  unfold bldMimcCircuit
  dsimp only
  rw [gen_ok (fun i => bldMid (arks.getD i 0))]
  · rw [ok_bind, idx_getD (show mimcRounds - 1 < arks.length by unfold mimcRounds; omega) 0, ok_bind, go_pure]
    rfl
  · intro i hi
    rw [idx_getD (show i < arks.length by unfold mimcRounds at hi; omega) 0, ok_bind, go_pure]
    rfl

/-- The multiplications of the gates and tables of the MiMC circuit. -/
def mimcCosts : List (List GateCost) := tab 90 (fun _ => [⟨4, 0, 4⟩, ⟨0, 0, 4⟩]) ++ [[⟨4, 0, 4⟩]]

theorem mimc_sim (arks : List F) : CircuitSim (bldCircuit arks) (snarkCircuit arks) mimcCosts := by
  refine ⟨by simp [bldCircuit, mimcCosts], by simp [snarkCircuit, mimcCosts], ?_⟩
  intro i hi
  have hi' : i < 91 := by simpa [mimcCosts] using hi
  rcases Nat.lt_or_ge i 90 with h | h
  · have e1 : (bldCircuit arks).layers[i]'(by simp [bldCircuit]; omega) = bldMid (arks.getD i 0) := by
      apply Option.some.inj
      rw [← List.getElem?_eq_getElem]
      unfold bldCircuit
      dsimp only
      rw [List.getElem?_append_left (by simpa using h), tab_getElem?, if_pos h]
    have e2 : (snarkCircuit arks).layers[i]'(by simp [snarkCircuit]; omega) = snarkMid (arks.getD i 0) := by
      apply Option.some.inj
      rw [← List.getElem?_eq_getElem]
      classical exact snark_mid arks h
    have e3 : mimcCosts[i]'hi = [⟨4, 0, 4⟩, ⟨0, 0, 4⟩] := by
      apply Option.some.inj
      rw [← List.getElem?_eq_getElem]
      unfold mimcCosts
      rw [List.getElem?_append_left (by simpa using h), tab_getElem?, if_pos h]
    rw [e1, e2, e3]
    exact mid_sim _
  · obtain rfl : i = 90 := by omega
    have e1 : (bldCircuit arks).layers[90]'(by simp [bldCircuit]) = bldLast (arks.getD 90 0) := by
      apply Option.some.inj
      rw [← List.getElem?_eq_getElem]
      unfold bldCircuit
      dsimp only
      rw [List.getElem?_append_right (by simp)]
      simp
    have e2 : (snarkCircuit arks).layers[90]'(by simp [snarkCircuit]) = snarkLast (arks.getD 90 0) := by
      apply Option.some.inj
      rw [← List.getElem?_eq_getElem]
      classical exact snark_last arks
    have e3 : mimcCosts[90]'hi = [⟨4, 0, 4⟩] := by
      apply Option.some.inj
      rw [← List.getElem?_eq_getElem]
      unfold mimcCosts
      rw [List.getElem?_append_right (by simp)]
      simp
    rw [e1, e2, e3]
    exact last_sim _

/-! ### Wires of the variables -/

/-- The wires from `n` on have the values `xs`. -/
def Reads (w : Nat → F) (n : Nat) (xs : List F) : Prop := ∀ i (h : i < xs.length), w (n + i) = xs[i]

omit [Field F] in
theorem Reads.append {w : Nat → F} {n : Nat} {xs ys : List F} (h : Reads w n (xs ++ ys)) : Reads w n xs ∧ Reads w (n + xs.length) ys := by
  constructor
  · intro i hi
    have := h i (by simp; omega)
    rwa [List.getElem_append_left hi] at this
  · intro i hi
    have := h (xs.length + i) (by simp; omega)
    rw [List.getElem_append_right (by omega)] at this
    simpa [← Nat.add_assoc] using this

theorem wiresFor_rel {N n : Nat} {w : Nat → F} {as : List α} {xs : List F} (hl : as.length = xs.length) (h : Reads w n xs) (hN : n + xs.length ≤ N) :
    VsRel N w (wiresFor n as) xs := by
  unfold VsRel wiresFor
  rw [List.forall₂_iff_get]
  refine ⟨by simpa using hl, ?_⟩
  intro i h1 h2
  have hi : i < xs.length := h2
  simp only [List.get_eq_getElem, List.getElem_map, List.getElem_range]
  refine ⟨?_, ?_⟩
  · intro t ht
    simp only [Lin.wire, List.mem_singleton] at ht
    subst ht
    dsimp only
    omega
  · simp [linValue, Lin.wire, h i hi]

theorem wiresFor2_rel {N : Nat} {w : Nat → F} : ∀ (as : List (List α)) (xs : List (List F)) (n : Nat), as.map List.length = xs.map List.length →
    Reads w n xs.flatten → n + xs.flatten.length ≤ N → VssRel N w (wiresFor2 n as) xs
  | [], [], _, _, _, _ => .nil
  | a :: as, x :: xs, n, hl, h, hN => by
    simp only [List.map_cons, List.cons.injEq] at hl
    rw [List.flatten_cons] at h hN
    rw [List.length_append] at hN
    obtain ⟨h1, h2⟩ := h.append
    refine .cons (wiresFor_rel hl.1 h1 (by omega)) ?_
    rw [hl.1]
    exact wiresFor2_rel as xs _ hl.2 h2 (by omega)

theorem flatten_length_of {as : List (List α)} {xs : List (List β)} (h : as.map List.length = xs.map List.length) :
    as.flatten.length = xs.flatten.length := by
  rw [List.length_flatten, List.length_flatten, h]

theorem wiresFor3_rel {N : Nat} {w : Nat → F} : ∀ (as : List (List (List α))) (xs : List (List (List F))) (n : Nat),
    as.map (·.map List.length) = xs.map (·.map List.length) →
    Reads w n xs.flatten.flatten → n + xs.flatten.flatten.length ≤ N → List.Forall₂ (VssRel N w) (wiresFor3 n as) xs
  | [], [], _, _, _, _ => .nil
  | a :: as, x :: xs, n, hl, h, hN => by
    simp only [List.map_cons, List.cons.injEq] at hl
    rw [List.flatten_cons, List.flatten_append] at h hN
    rw [List.length_append] at hN
    obtain ⟨h1, h2⟩ := h.append
    refine .cons (wiresFor2_rel a x n hl.1 h1 (by omega)) ?_
    rw [flatten_length_of hl.1]
    exact wiresFor3_rel as xs _ hl.2 h2 (by omega)

theorem flatten2_length_of : ∀ {as : List (List (List α))} {xs : List (List (List β))}, as.map (·.map List.length) = xs.map (·.map List.length) →
    as.flatten.flatten.length = xs.flatten.flatten.length
  | [], [], _ => rfl
  | a :: as, x :: xs, h => by
    simp only [List.map_cons, List.cons.injEq] at h
    rw [List.flatten_cons, List.flatten_append, List.length_append, List.flatten_cons, List.flatten_append, List.length_append,
      flatten_length_of h.1, flatten2_length_of h.2]

/-! ### Systems -/

theorem CsSim.accepts {xs : List F} {g c : Nat} {B : Bld F α} {P : Cs F β} {Q : Nat → (Nat → F) → α → β → Prop}
    (h : CsSim xs.length (fun i => xs.getD i 0) g c B P Q) {x : α} {m : Nat} {gs cs : List (R1C F)} (e : B xs.length = .ok (x, m, gs, cs)) :
    gs.length = g ∧ cs.length = c ∧ (Accepts (m, gs, cs) xs ↔ P.Satisfied) ∧
    ∃ w : Nat → F, (∀ i < xs.length, w i = xs.getD i 0) ∧ Solves w gs ∧
      ∀ w' : Nat → F, (∀ i < xs.length, w' i = xs.getD i 0) → Solves w' gs → ∀ i < m, w' i = w i := by
  unfold CsSim at h
  rw [e] at h
  obtain ⟨hnm, hg, hc, hgb, hcb, y, eqs, w', hPy, hw, hgs, hcs, hu, hQ⟩ := h
  refine ⟨hg, hc, ⟨?_, ?_⟩, w', fun i hi => (hw i hi).symm, hgs, fun v hv hs i hi => (hu v (fun j hj => (hv j hj).symm) hs i hi).symm⟩
  · rintro ⟨v, hv, hs, ha⟩
    have := hu v (fun j hj => (hv j hj).symm) hs
    refine ⟨y, eqs, hPy, ?_, trivial⟩
    exact hcs.1 ((solves_agree hcb this).2 ha)
  · rintro ⟨y', eqs', hP', he, -⟩
    rw [hPy] at hP'
    obtain ⟨rfl, rfl⟩ : y = y' ∧ eqs = eqs' := by simpa using Except.ok.inj hP'
    exact ⟨w', fun i hi => (hw i hi).symm, hgs, hcs.2 he⟩

/-- The lengths of the round polynomials. -/
def lensAt (a : List (List (List α))) (k : Nat) : List Nat := (a.map (·.map List.length)).getD k []

theorem wiresFor2_lens : ∀ (n : Nat) (as : List (List α)), (wiresFor2 n as : List (List (Lin F))).map List.length = as.map List.length
  | _, [] => rfl
  | n, a :: as => by simp [wiresFor2, wiresFor, wiresFor2_lens]

theorem wiresFor3_lens : ∀ (n : Nat) (as : List (List (List α))),
    (wiresFor3 n as : List (List (List (Lin F)))).map (·.map List.length) = as.map (·.map List.length)
  | _, [] => rfl
  | n, a :: as => by simp [wiresFor3, wiresFor2_lens, wiresFor3_lens]

theorem roundsAt_lens (p : GkrProof α) (k : Nat) : (roundsAt p k).map List.length = lensAt p.sumcheckProofs k := by
  unfold roundsAt lensAt
  rw [List.getD_eq_getElem?_getD, List.getD_eq_getElem?_getD, List.getElem?_map]
  cases p.sumcheckProofs[k]? <;> rfl

theorem roundsCost_lens (l : List (List (Lin F))) : roundsCost l = ((l.map List.length).map polyCost).sum := by
  unfold roundsCost
  rw [List.map_map]
  rfl

/-- The lengths of the round polynomials in a proof of the given shape. -/
theorem roundsAt_wires {b : List (List (List α))} {p : GkrProof (Lin F)} (hp : p.sumcheckProofs = wiresFor3 0 b) (k : Nat) :
    (roundsAt p k).map List.length = lensAt b k := by
  rw [roundsAt_lens, hp]
  unfold lensAt
  rw [wiresFor3_lens]

theorem vars_length {a : GkrMimcTestCircuit F α} {c : GkrMimcTestCircuit F β} (h : SameShape a c) : a.vars.length = c.vars.length := by
  obtain ⟨h1, h2, h3, h4, h5, h6, h7⟩ := h
  unfold GkrMimcTestCircuit.vars
  simp only [List.length_append]
  rw [flatten2_length_of h1, h2, h3, h4, h5, h6, h7]

theorem reads_self (xs : List F) : Reads (fun i => xs.getD i 0) 0 xs := by
  intro i hi
  simp [hi]

/-- The proof, as variables. -/
def wiresProof (a : GkrMimcTestCircuit F α) : GkrProof (Lin F) :=
  let n1 := a.proof.sumcheckProofs.flatten.flatten.length
  let n2 := n1 + a.proof.claimsLeft.length
  ⟨wiresFor3 0 a.proof.sumcheckProofs, wiresFor n1 a.proof.claimsLeft, wiresFor n2 a.proof.claimsRight⟩

/-- The constraints of the gadget. -/
def gadgetGates (arks : List F) (a : GkrMimcTestCircuit F α) : Nat :=
  foldCost (a.qInitial.length + a.qInitialprime.length) a.vOutput.length + (roundsCost (roundsAt (wiresProof a) 90) +
    (combineCost (mimcCosts.getD 90 []) ((bldCircuit arks).bG 90 + (bldCircuit arks).bG 90) a.qInitialprime.length +
      (layersCost (bldCircuit arks) (wiresProof a) mimcCosts 90 ((roundsAt (wiresProof a) 90).length - 2 * (bldCircuit arks).bG 90) +
        mixedCost a.vInput.length ((bldCircuit arks).bG 0) ((roundsAt (wiresProof a) 0).length - 2 * (bldCircuit arks).bG 0))))

/-- The assertions of the gadget. -/
def gadgetChecks (a : GkrMimcTestCircuit F α) : Nat :=
  (roundsAt (wiresProof a) 90).length + (1 + (layersChecks (wiresProof a) 90 + 2))

/-- Compiling and running, for any shape. -/
theorem gadget_sim (arks : List F) (a : GkrMimcTestCircuit F α) (c : GkrMimcTestCircuit F F) (hs : SameShape a c)
    (hc : c.circuit = snarkCircuit arks) :
    CsSim c.vars.length (fun i => c.vars.getD i 0) (gadgetGates arks a) (gadgetChecks a)
      (bldAssertValid arks (bldCircuit arks) (wiresProof a)
        (wiresFor (a.proof.sumcheckProofs.flatten.flatten.length + a.proof.claimsLeft.length + a.proof.claimsRight.length) a.qInitial)
        (wiresFor (a.proof.sumcheckProofs.flatten.flatten.length + a.proof.claimsLeft.length + a.proof.claimsRight.length +
          a.qInitial.length) a.qInitialprime)
        (wiresFor (a.proof.sumcheckProofs.flatten.flatten.length + a.proof.claimsLeft.length + a.proof.claimsRight.length +
          a.qInitial.length + a.qInitialprime.length) a.vInput)
        (wiresFor (a.proof.sumcheckProofs.flatten.flatten.length + a.proof.claimsLeft.length + a.proof.claimsRight.length +
          a.qInitial.length + a.qInitialprime.length + a.vInput.length) a.vOutput))
      (c.define arks) (fun _ _ _ _ => True) := by
  obtain ⟨h1, h2, h3, h4, h5, h6, h7⟩ := hs
  have r := reads_self c.vars
  have l : c.vars.length = c.proof.sumcheckProofs.flatten.flatten.length + (c.proof.claimsLeft.length + (c.proof.claimsRight.length +
      (c.qInitial.length + (c.qInitialprime.length + (c.vInput.length + c.vOutput.length))))) := by
    unfold GkrMimcTestCircuit.vars
    simp only [List.length_append]
  generalize (fun i => c.vars.getD i 0) = w at r ⊢
  generalize c.vars.length = N at l ⊢
  unfold GkrMimcTestCircuit.vars at r
  obtain ⟨r1, r⟩ := r.append
  obtain ⟨r2, r⟩ := r.append
  obtain ⟨r3, r⟩ := r.append
  obtain ⟨r4, r⟩ := r.append
  obtain ⟨r5, r⟩ := r.append
  obtain ⟨r6, r7⟩ := r.append
  rw [Nat.zero_add] at r2 r3 r4 r5 r6 r7
  unfold GkrMimcTestCircuit.define
  rw [hc]
  have f1 := flatten2_length_of h1
  have key := sim_assertValid (n := N) (w := w) arks (mimc_sim arks) (p := wiresProof a) (x := c.proof)
    (q := wiresFor (a.proof.sumcheckProofs.flatten.flatten.length + a.proof.claimsLeft.length + a.proof.claimsRight.length) a.qInitial)
    (q' := wiresFor (a.proof.sumcheckProofs.flatten.flatten.length + a.proof.claimsLeft.length + a.proof.claimsRight.length +
          a.qInitial.length) a.qInitialprime)
    (vi := wiresFor (a.proof.sumcheckProofs.flatten.flatten.length + a.proof.claimsLeft.length + a.proof.claimsRight.length +
          a.qInitial.length + a.qInitialprime.length) a.vInput)
    (vo := wiresFor (a.proof.sumcheckProofs.flatten.flatten.length + a.proof.claimsLeft.length + a.proof.claimsRight.length +
          a.qInitial.length + a.qInitialprime.length + a.vInput.length) a.vOutput)
    (xq := c.qInitial) (xq' := c.qInitialprime) (xi := c.vInput) (xo := c.vOutput)
    ⟨wiresFor3_rel _ _ 0 h1 r1 (by omega), wiresFor_rel h2 (by rw [f1]; exact r2) (by omega),
      wiresFor_rel h3 (by rw [f1, h2]; exact r3) (by omega)⟩
    (wiresFor_rel h4 (by rw [f1, h2, h3]; exact r4) (by omega)) (wiresFor_rel h5 (by rw [f1, h2, h3, h4]; exact r5) (by omega))
    (wiresFor_rel h6 (by rw [f1, h2, h3, h4, h5]; exact r6) (by omega))
    (wiresFor_rel h7 (by rw [f1, h2, h3, h4, h5, h6]; exact r7) (by omega))
  simp only [wiresFor, List.length_map, List.length_range] at key
  exact key

theorem gadget_compile (arks : List F) (h91 : 91 ≤ arks.length) (a : GkrMimcTestCircuit F α) (c : GkrMimcTestCircuit F F) (hs : SameShape a c)
    (hc : c.circuit = snarkCircuit arks) :
    (∃ e, a.compile arks = .error e ∧ c.define arks = .error e) ∨
    ∃ s, a.compile arks = .ok s ∧ s.2.1.length = gadgetGates arks a ∧ s.2.2.length = gadgetChecks a ∧
      (Accepts s c.vars ↔ (c.define arks).Satisfied) ∧
      ∃ w : Nat → F, (∀ i < c.vars.length, w i = c.vars.getD i 0) ∧ Solves w s.2.1 ∧
        ∀ w' : Nat → F, (∀ i < c.vars.length, w' i = c.vars.getD i 0) → Solves w' s.2.1 → ∀ i < s.1, w' i = w i := by
  have key := gadget_sim arks a c hs hc
  unfold GkrMimcTestCircuit.compile
  rw [bldMimc_eq arks h91, ok_bind, vars_length hs]
  dsimp only
  change (∃ e, (bldAssertValid arks (bldCircuit arks) (wiresProof a) _ _ _ _ c.vars.length >>= _) = _ ∧ _) ∨
    ∃ s, (bldAssertValid arks (bldCircuit arks) (wiresProof a) _ _ _ _ c.vars.length >>= _) = _ ∧ _
  generalize hB : bldAssertValid arks (bldCircuit arks) (wiresProof a) _ _ _ _ = B at key ⊢
  cases hb : B c.vars.length with
  | error e =>
    refine .inl ⟨e, rfl, ?_⟩
    unfold CsSim at key
    rw [hb] at key
    exact key
  | ok r =>
    obtain ⟨x, m, gs, cs⟩ := r
    exact .inr ⟨(m, gs, cs), rfl, key.accepts hb⟩

/-! ### The numbers for the allocated circuit -/

theorem foldCost_pow : ∀ k : Nat, foldCost k (2 ^ k) = 2 ^ k - 1
  | 0 => rfl
  | k + 1 => by
    rw [foldCost, pow_succ, Nat.mul_div_cancel _ (by decide), foldCost_pow k]
    have := Nat.one_le_two_pow (n := k)
    omega

theorem bG_mid (arks : List F) {k : Nat} (h : k < 91) : (bldCircuit arks).bG k = 1 := by
  unfold BldCircuit.bG bldCircuit
  dsimp only
  rcases Nat.lt_or_ge k 90 with h' | h'
  · rw [List.getElem?_append_left (by simpa using h'), tab_getElem?, if_pos h']
    rfl
  · obtain rfl : k = 90 := by omega
    rw [List.getElem?_append_right (by simp)]
    simp [bldLast]

theorem costs_mid {k : Nat} (h : k < 90) : mimcCosts.getD k [] = [⟨4, 0, 4⟩, ⟨0, 0, 4⟩] := by
  unfold mimcCosts
  rw [List.getD_eq_getElem?_getD, List.getElem?_append_left (by simpa using h), tab_getElem?, if_pos h]
  rfl

theorem costs_last : mimcCosts.getD 90 [] = [⟨4, 0, 4⟩] := by
  unfold mimcCosts
  rw [List.getD_eq_getElem?_getD, List.getElem?_append_right (by simp)]
  simp

/-- The shape which `AllocateGKRMimcTestCircuit` gives: in each of 91 sumcheck proofs one polynomial with 3 coefficients, one with 9 and
`bN` more with 9; single claims on both sides; an initial point; the tables. -/
structure Allocated (bN : Nat) (a : GkrMimcTestCircuit F α) : Prop where
  polys : a.proof.sumcheckProofs.map (·.map List.length) = List.replicate 91 (3 :: 9 :: List.replicate bN 9)
  left : a.proof.claimsLeft.length = 91
  right : a.proof.claimsRight.length = 91
  q : a.qInitial.length = 0
  q' : a.qInitialprime.length = bN
  input : a.vInput.length = 2 ^ (bN + 1)
  output : a.vOutput.length = 2 ^ bN

theorem Allocated.rounds {bN : Nat} {a : GkrMimcTestCircuit F α} (h : Allocated bN a) {k : Nat} (hk : k < 91) :
    roundsCost (roundsAt (wiresProof a) k) = 365 * (12 + 9 * bN) ∧ (roundsAt (wiresProof a) k).length = bN + 2 := by
  have e : (roundsAt (wiresProof a) k).map List.length = 3 :: 9 :: List.replicate bN 9 := by
    rw [roundsAt_wires rfl k]
    unfold lensAt
    rw [h.polys, List.getD_eq_getElem?_getD, List.getElem?_replicate, if_pos hk]
    rfl
  refine ⟨?_, ?_⟩
  · rw [roundsCost_lens, e]
    simp [polyCost]
    ring
  · rw [← List.length_map (f := List.length), e]
    simp

theorem Allocated.layers {bN : Nat} {a : GkrMimcTestCircuit F α} (arks : List F) (h : Allocated bN a) : ∀ k ≤ 90,
    layersCost (bldCircuit arks) (wiresProof a) mimcCosts k bN = k * (365 * (12 + 9 * bN) + 752 + 3 * bN) ∧
    layersChecks (wiresProof a) k = k * (bN + 3)
  | 0, _ => by simp [layersCost, layersChecks]
  | k + 1, hk => by
    obtain ⟨i1, i2⟩ := Allocated.layers arks h k (by omega)
    obtain ⟨r1, r2⟩ := h.rounds (k := k) (by omega)
    rw [layersCost, layersChecks, r1, r2, bG_mid arks (by omega), costs_mid (by omega), show bN + 2 - 2 * 1 = bN by omega, i1, i2]
    have e : combineLinCost [⟨4, 0, 4⟩, ⟨0, 0, 4⟩] (1 + 1) bN = 23 + 3 * bN := by
      simp [combineLinCost, foldCost]
      omega
    rw [e]
    constructor <;> ring

theorem Allocated.gates {bN : Nat} {a : GkrMimcTestCircuit F α} (arks : List F) (h : Allocated bN a) :
    gadgetGates arks a = 3 * 2 ^ bN + 299208 * bN + 466268 := by
  unfold gadgetGates
  obtain ⟨r1, r2⟩ := h.rounds (k := 90) (by omega)
  obtain ⟨-, r3⟩ := h.rounds (k := 0) (by omega)
  rw [h.q, h.q', h.output, h.input, r1, r2, r3, costs_last, bG_mid arks (k := 90) (by omega), bG_mid arks (k := 0) (by omega),
    show bN + 2 - 2 * 1 = bN by omega, (h.layers arks 90 le_rfl).1, Nat.zero_add, foldCost_pow]
  have e1 : combineCost [⟨4, 0, 4⟩] (1 + 1) bN = 9 + 3 * bN := by
    simp [combineCost, foldCost]
    omega
  have e2 : mixedCost (2 ^ (bN + 1)) 1 bN = 2 * (2 ^ bN - 1) + 2 := by
    unfold mixedCost
    rw [pow_one, pow_succ, Nat.mul_div_cancel _ (by decide), foldCost_pow]
    rfl
  rw [e1, e2]
  have := Nat.one_le_two_pow (n := bN)
  generalize 2 ^ bN = t at this ⊢
  obtain ⟨t, rfl⟩ : ∃ u, t = u + 1 := ⟨t - 1, by omega⟩
  rw [Nat.add_sub_cancel]
  ring

theorem Allocated.checks {bN : Nat} {a : GkrMimcTestCircuit F α} (h : Allocated bN a) : gadgetChecks a = 91 * (bN + 3) + 2 := by
  unfold gadgetChecks
  rw [(h.rounds (k := 90) (by omega)).2, (h.layers [] 90 le_rfl).2]
  ring

theorem Allocated.vars {bN : Nat} {a : GkrMimcTestCircuit F α} (h : Allocated bN a) :
    a.vars.length = 3 * 2 ^ bN + 820 * bN + 1274 := by
  unfold GkrMimcTestCircuit.vars
  simp only [List.length_append]
  have e : a.proof.sumcheckProofs.flatten.flatten.length = 91 * (12 + 9 * bN) := by
    have : ∀ (l : List (List (List α))), l.flatten.flatten.length = ((l.map (·.map List.length)).map List.sum).sum := by
      intro l
      induction l with
      | nil => rfl
      | cons x l ih =>
        rw [List.flatten_cons, List.flatten_append, List.length_append, ih]
        simp [List.length_flatten]
    rw [this, h.polys, List.map_replicate, List.sum_replicate, List.sum_cons, List.sum_cons, List.sum_replicate, smul_eq_mul, smul_eq_mul]
    ring
  rw [e, h.left, h.right, h.q, h.q', h.input, h.output]
  ring

theorem allocated (arks : List F) (h91 : 91 ≤ arks.length) (bN : Nat) : ∃ a, allocateTestCircuit arks bN = .ok a ∧ Allocated bN a ∧
    a.circuit = snarkCircuit arks := by
  classical
  unfold allocateTestCircuit
  rw [createSnark_eq arks h91, ok_bind]
  refine ⟨_, rfl, ?_, rfl⟩
  refine ⟨?_, ?_, ?_, rfl, by simp, by simp [allocateMultilinear], by simp [allocateMultilinear]⟩
  · have e : ∀ l ∈ (snarkCircuit arks).layers, (sumcheckAllocateProof bN l.bG l.degHL l.degHR l.degHPrime : List (List (Option F))).map List.length =
        3 :: 9 :: List.replicate bN 9 := by
      intro l hl
      have : l.bG = 1 ∧ l.degHL = 2 ∧ l.degHR = 8 ∧ l.degHPrime = 8 := by
        unfold snarkCircuit at hl
        rw [List.mem_append, List.mem_singleton] at hl
        rcases hl with hl | rfl
        · unfold tab at hl
          simp only [List.mem_map] at hl
          obtain ⟨i, -, rfl⟩ := hl
          exact ⟨rfl, rfl, rfl, rfl⟩
        · exact ⟨rfl, rfl, rfl, rfl⟩
      obtain ⟨h1, h2, h3, h4⟩ := this
      rw [h1, h2, h3, h4]
      simp [sumcheckAllocateProof, allocateUnivariate]
    unfold snarkAllocateProof
    dsimp only
    rw [List.map_map, List.eq_replicate_iff]
    refine ⟨by simp [snarkCircuit], ?_⟩
    intro b hb
    rw [List.mem_map] at hb
    obtain ⟨l, hl, rfl⟩ := hb
    exact e l hl
  · simp [snarkAllocateProof]
  · simp [snarkAllocateProof]

/-! ### The direct circuit -/

theorem hashTest_sim (arks : List F) (k : Nat) (a : HashTestCircuit α) (c : HashTestCircuit F) (h1 : a.x.map List.length = c.x.map List.length)
    (h2 : a.y.length = c.y.length) (hk : ∀ l ∈ a.x, l.length = k) :
    CsSim c.vars.length (fun i => c.vars.getD i 0) (a.x.length * (364 * k)) a.x.length
      (bldHashTest arks ⟨wiresFor2 0 a.x, wiresFor a.x.flatten.length a.y⟩) (c.define arks) (fun _ _ _ _ => True) := by
  have r := reads_self c.vars
  have l : c.vars.length = c.x.flatten.length + c.y.length := by
    unfold HashTestCircuit.vars
    rw [List.length_append]
  generalize (fun i => c.vars.getD i 0) = w at r ⊢
  generalize c.vars.length = N at l ⊢
  unfold HashTestCircuit.vars at r
  obtain ⟨r1, r2⟩ := r.append
  rw [Nat.zero_add] at r2
  have hx := wiresFor2_rel (N := N) a.x c.x 0 h1 r1 (by omega)
  have hy := wiresFor_rel (N := N) (n := a.x.flatten.length) h2 (by rw [flatten_length_of h1]; exact r2) (by rw [flatten_length_of h1]; omega)
  have hlen : (wiresFor2 0 a.x : List (List (Lin F))).length = a.x.length := by
    rw [← List.length_map (f := List.length), wiresFor2_lens, List.length_map]
  unfold bldHashTest HashTestCircuit.define
  dsimp only
  rw [← hx.length_eq, hlen]
  refine CsSim.forN_const (Q := fun _ _ _ _ _ => True) a.x.length (gc := 364 * k) (cc := 1) ?_ trivial rfl (Nat.mul_one _)
  intro i hi n1 w1 _ _ hn1 hw1 _
  refine CsSim.bind' (g := 0) (c := 0) (goIdx_getD (VssRel.mono hx hn1 hw1) i []) ?_ (Nat.zero_add _) (Nat.zero_add _)
  rintro _ _ l xl - - ⟨rfl, rfl, hl, he⟩
  have hlk : l.length = k := by
    have e2 : l.length = ((wiresFor2 0 a.x : List (List (Lin F))).map List.length).getD i 0 := by
      rw [he, List.getD_eq_getElem?_getD, List.getD_eq_getElem?_getD, List.getElem?_map, List.getElem?_eq_getElem (by rw [hlen]; exact hi)]
      rfl
    rw [e2, wiresFor2_lens, List.getD_eq_getElem?_getD, List.getElem?_map, List.getElem?_eq_getElem hi]
    exact hk _ (List.getElem_mem hi)
  have hm := sim_mimcHash arks hl
  rw [hlk] at hm
  refine CsSim.bind' (g' := 0) (c := 0) hm ?_ (Nat.add_zero _) (Nat.zero_add _)
  intro n2 w2 y z hn2 hw2 hyz
  refine CsSim.bind' (g := 0) (c := 0) (goIdx_getD ((hy.mono hn1 hw1).mono hn2 hw2) i (Lin.ofConst 0)) ?_ (Nat.zero_add _) (Nat.zero_add _)
  rintro _ _ y' z' - - ⟨rfl, rfl, hyz', -⟩
  exact (CsSim.assert hyz' hyz).imp fun _ _ _ _ _ _ _ => trivial

theorem hashTest_compile (arks : List F) (k : Nat) (a : HashTestCircuit α) (c : HashTestCircuit F) (h1 : a.x.map List.length = c.x.map List.length)
    (h2 : a.y.length = c.y.length) (hk : ∀ l ∈ a.x, l.length = k) :
    (∃ e, a.compile arks = .error e ∧ c.define arks = .error e) ∨
    ∃ s, a.compile arks = .ok s ∧ s.2.1.length = a.x.length * (364 * k) ∧ s.2.2.length = a.x.length ∧
      (Accepts s c.vars ↔ (c.define arks).Satisfied) ∧
      ∃ w : Nat → F, (∀ i < c.vars.length, w i = c.vars.getD i 0) ∧ Solves w s.2.1 ∧
        ∀ w' : Nat → F, (∀ i < c.vars.length, w' i = c.vars.getD i 0) → Solves w' s.2.1 → ∀ i < s.1, w' i = w i := by
  have key := hashTest_sim arks k a c h1 h2 hk
  have hv : a.vars.length = c.vars.length := by
    unfold HashTestCircuit.vars
    rw [List.length_append, List.length_append, flatten_length_of h1, h2]
  unfold HashTestCircuit.compile
  rw [hv]
  generalize bldHashTest arks _ = B at key ⊢
  cases hb : B c.vars.length with
  | error e =>
    refine .inl ⟨e, rfl, ?_⟩
    unfold CsSim at key
    rw [hb] at key
    exact key
  | ok r =>
    obtain ⟨x, m, gs, cs⟩ := r
    exact .inr ⟨(m, gs, cs), rfl, key.accepts hb⟩

end GkrMimc
