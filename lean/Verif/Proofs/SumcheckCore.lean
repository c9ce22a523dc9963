import Verif.Proofs.Gates
import Verif.Proofs.Circuit
import Verif.Model.Sumcheck

/-! The three round evaluations of the sumcheck prover and `GetClaim`, as hypercube sums. -/

set_option linter.unusedSectionVars false

namespace GkrMimc

open Spec Finset Polynomial

variable {F : Type} [Field F] [DecidableEq F]

/-- The function of gate `i` of the list. -/
def gateF (gates : List (Gate F)) (i : Nat) (x y : F) : F :=
  match gates[i]? with
  | some g => g.eval x y
  | none => 0

theorem gateF_eq {gates : List (Gate F)} {i : Nat} (h : i < gates.length) (x y : F) :
    gateF gates i x y = gates[i].eval x y := by simp [gateF, h]

/-- A prover in terms of functions: `A` left indices, `B` right indices, `n` instances. -/
def mkP (gates : List (Gate F)) (A B n : Nat) (vL vR e : Nat → F) (s : Nat → Nat → F) : SProver F :=
  newSProver (tab (A * n) vL) (tab (B * n) vR) (tab n e) gates (tab gates.length (fun i => tab (A * B) (s i)))

/-- The sum over the hypercube. -/
def hsum (gates : List (Gate F)) (A B n : Nat) (vL vR e : Nat → F) (s : Nat → Nat → F) : F :=
  ∑ h ∈ range n, ∑ l ∈ range A, ∑ r ∈ range B, ∑ i ∈ range gates.length,
    gateF gates i (vL (l * n + h)) (vR (r * n + h)) * e h * s i (l * B + r)

/-- Folding a function whose upper half starts at `m`. -/
def foldF (m : Nat) (f : Nat → F) (r : F) (i : Nat) : F := f i + (f (m + i) - f i) * r

theorem foldF_zero (m : Nat) (f : Nat → F) (i : Nat) : foldF m f 0 i = f i := by simp [foldF]
theorem foldF_one (m : Nat) (f : Nat → F) (i : Nat) : foldF m f 1 i = f (m + i) := by simp [foldF]

theorem fold_tab' (m : Nat) (f : Nat → F) (r : F) : fold (tab (2 * m) f) r = tab m (foldF m f r) := fold_tab m f r

theorem ramp_eq (x d : F) (n : Nat) : ramp x d n = tab n (fun t => x + d * (t : F)) := by
  induction n generalizing x with
  | zero => rfl
  | succ n ih =>
    rw [ramp, ih, tab_succ]
    congr 1
    · simp
    · apply tab_congr; intro t _; push_cast; ring

/-! Nested accumulators. -/

/-- A table of tables. -/
def tab2 (a b : Nat) (m : Nat → Nat → F) : List (List F) := tab a (fun i => tab b (m i))

/-- A table of tables of tables. -/
def tab3 (a b c : Nat) (m : Nat → Nat → Nat → F) : List (List (List F)) :=
  tab a (fun i => tab b (fun j => tab c (m i j)))

theorem idx_tab2 {a b i j : Nat} {m : Nat → Nat → F} (hi : i < a) (hj : j < b) :
    idx2 (tab2 a b m) i j = .ok (m i j) := by
  unfold idx2 tab2
  rw [idx_tab hi, ok_bind, idx_tab hj]

theorem modIdx_tab2_add {a b i j : Nat} {m : Nat → Nat → F} {v : F} (hi : i < a) (hj : j < b) :
    modIdx2 (tab2 a b m) i j (fun x => x + v) = .ok (tab2 a b (m + Pi.single i (Pi.single j v))) := by
  unfold modIdx2 tab2
  rw [idx_tab hi, ok_bind, modIdx_tab_add hj, ok_bind, setIdx_tab hi]
  congr 1
  apply tab_congr
  intro k _
  rw [Function.update_apply, Pi.add_apply, Pi.single_apply]
  split
  · subst_vars; rfl
  · simp

theorem modIdx_tab3_add {a b c i j k : Nat} {m : Nat → Nat → Nat → F} {v : F} (hi : i < a) (hj : j < b) (hk : k < c) :
    modIdx3 (tab3 a b c m) i j k (fun x => x + v) =
      .ok (tab3 a b c (m + Pi.single i (Pi.single j (Pi.single k v)))) := by
  have h2 := modIdx_tab2_add (m := m i) (v := v) hj hk
  unfold modIdx3 tab3
  unfold tab2 at h2
  rw [idx_tab hi, ok_bind, h2, ok_bind, setIdx_tab hi]
  congr 1
  apply tab_congr
  intro u _
  rw [Function.update_apply, Pi.add_apply, Pi.single_apply]
  split
  · subst_vars; rfl
  · simp

theorem replicate2_eq (a b : Nat) : List.replicate a (List.replicate b (0 : F)) = tab2 a b (fun _ _ => 0) := by
  unfold tab2
  rw [replicate_eq_tab]
  apply tab_congr
  intro _ _
  rw [replicate_eq_tab]

theorem replicate3_eq (a b c : Nat) :
    List.replicate a (List.replicate b (List.replicate c (0 : F))) = tab3 a b c (fun _ _ _ => 0) := by
  unfold tab3
  rw [replicate_eq_tab]
  apply tab_congr
  intro _ _
  rw [replicate_eq_tab]
  apply tab_congr
  intro _ _
  rw [replicate_eq_tab]

/-- `m ↦ ∑_{i<a} ∑_{j<b} m i j * s i j`. -/
def pair2 (a b : Nat) (s : Nat → Nat → F) : (Nat → Nat → F) →+ F where
  toFun m := ∑ i ∈ range a, ∑ j ∈ range b, m i j * s i j
  map_zero' := by simp
  map_add' x y := by simp [add_mul, Finset.sum_add_distrib]

theorem pair2_single {a b i j : Nat} (s : Nat → Nat → F) (hi : i < a) (hj : j < b) (v : F) :
    pair2 a b s (Pi.single i (Pi.single j v)) = v * s i j := by
  show ∑ i' ∈ range a, ∑ j' ∈ range b, _ * s i' j' = _
  rw [Finset.sum_eq_single i, Finset.sum_eq_single j]
  · simp
  · intro j' _ hne; simp [hne]
  · intro h; simp at h; omega
  · intro i' _ hne; simp [hne]
  · intro h; simp at h; omega

/-- `m ↦ ∑_{i<a} ∑_{j<b} m i j t * s i j`. -/
def pair3 (a b : Nat) (s : Nat → Nat → Nat → F) (t : Nat) : (Nat → Nat → Nat → F) →+ F where
  toFun m := ∑ i ∈ range a, ∑ j ∈ range b, m i j t * s i j t
  map_zero' := by simp
  map_add' x y := by simp [add_mul, Finset.sum_add_distrib]

theorem pair3_single {a b i j : Nat} (s : Nat → Nat → Nat → F) (t k : Nat) (hi : i < a) (hj : j < b) (v : F) :
    pair3 a b s t (Pi.single i (Pi.single j (Pi.single k v))) = if t = k then v * s i j t else 0 := by
  show ∑ i' ∈ range a, ∑ j' ∈ range b, _ * s i' j' t = _
  rw [Finset.sum_eq_single i, Finset.sum_eq_single j]
  · by_cases h : t = k
    · subst h; simp
    · simp [h]
  · intro j' _ hne; simp [hne]
  · intro h; simp at h; omega
  · intro i' _ hne; simp [hne]
  · intro h; simp at h; omega

theorem mul_add_lt {l n h A : Nat} (hl : l < A) (hh : h < n) : l * n + h < A * n := by
  calc l * n + h < (l + 1) * n := by rw [Nat.add_mul]; omega
    _ ≤ _ := Nat.mul_le_mul_right _ hl

/-- `GetClaim` is the hypercube sum. -/
theorem getClaim_mkP (gates : List (Gate F)) (g n : Nat) (hn : 0 < n) (vL vR e : Nat → F) (s : Nat → Nat → F) :
    (mkP gates g g n vL vR e s).getClaim = .ok (hsum gates g g n vL vR e s) := by
  unfold SProver.getClaim mkP newSProver
  simp only [tab_length]
  rw [goDiv_ok hn, ok_bind, Nat.mul_div_cancel _ hn]
  have hnz : gen gates.length (fun i => gen (g * g) fun h => do
      let x ← idx2 (tab gates.length (fun i => tab (g * g) (s i))) i h
      return decide (x ≠ 0)) = .ok (tab gates.length (fun i => tab (g * g) (fun h => decide (s i h ≠ 0)))) := by
    apply gen_ok
    intro i hi
    apply gen_ok
    intro h hh
    have := idx_tab2 (m := s) hi hh
    unfold tab2 at this
    rw [this]; rfl
  rw [hnz, ok_bind, replicate2_eq]
  have hsplit := forN_acc (M := Nat → Nat → F) (mk := tab2 gates.length (g * g)) (m := fun _ _ => 0)
    (body := fun hPrime split => do
      let eq ← idx (tab n e) hPrime
      forN g split fun hL split => do
        let vL ← idx (tab (g * n) vL) (hL * n + hPrime)
        forN g split fun hR split => do
          let vR ← idx (tab (g * n) vR) (hR * n + hPrime)
          forN gates.length split fun i split => do
            let nz ← idx2 (tab gates.length (fun i => tab (g * g) (fun h => decide (s i h ≠ 0)))) i (hL * g + hR)
            if nz then do
              let gate ← idx gates i
              modIdx2 split i (hL * g + hR) (fun x => x + gate.eval vL vR * eq)
            else return split)
    (fun h => ∑ l ∈ range g, ∑ r ∈ range g, ∑ i ∈ range gates.length,
      if s i (l * g + r) ≠ 0 then
        Pi.single i (Pi.single (l * g + r) (gateF gates i (vL (l * n + h)) (vR (r * n + h)) * e h)) else 0) n (by
    intro h hh m
    rw [idx_tab hh, ok_bind]
    refine forN_acc (M := Nat → Nat → F) (mk := tab2 gates.length (g * g)) _ g m ?_
    intro l hl m
    rw [idx_tab (mul_add_lt hl hh), ok_bind]
    refine forN_acc (M := Nat → Nat → F) (mk := tab2 gates.length (g * g)) _ g m ?_
    intro r hr m
    rw [idx_tab (mul_add_lt hr hh), ok_bind]
    refine forN_acc (M := Nat → Nat → F) (mk := tab2 gates.length (g * g)) _ gates.length m ?_
    intro i hi m
    have hlr := mul_add_lt hl hr
    unfold idx2
    rw [idx_tab hi, ok_bind, idx_tab hlr, ok_bind]
    by_cases hz : s i (l * g + r) = 0
    · simp [hz]
    · simp only [ne_eq, hz, not_false_eq_true, decide_true, if_true]
      rw [idx_ok hi, ok_bind, modIdx_tab2_add hi hlr, gateF_eq hi])
  rw [hsplit, ok_bind]
  set M : Nat → Nat → F := (fun _ _ => 0) + ∑ h ∈ range n, ∑ l ∈ range g, ∑ r ∈ range g, ∑ i ∈ range gates.length,
      if s i (l * g + r) ≠ 0 then
        Pi.single i (Pi.single (l * g + r) (gateF gates i (vL (l * n + h)) (vR (r * n + h)) * e h)) else 0 with hM
  have hfin := forN_acc (M := F) (mk := id) (m := 0)
    (body := fun i res => do
      let row ← idx (tab2 gates.length (g * g) M) i
      forN row.length res fun h res => do
        let v ← idx row h
        let x ← idx2 (tab gates.length (fun i => tab (g * g) (s i))) i h
        return res + v * x)
    (fun i => ∑ h ∈ range (g * g), M i h * s i h) gates.length (by
    intro i hi m
    unfold tab2
    rw [idx_tab hi, ok_bind, tab_length]
    refine forN_acc (M := F) (mk := id) _ (g * g) m ?_
    intro h hh m
    have := idx_tab2 (m := s) hi hh
    unfold tab2 at this
    rw [idx_tab hh, ok_bind, this]; rfl)
  refine hfin.trans ?_
  simp only [id, zero_add]
  congr 1
  have e1 : ∑ i ∈ range gates.length, ∑ h ∈ range (g * g), M i h * s i h = pair2 gates.length (g * g) s M := rfl
  have e0 : (fun _ _ => 0 : Nat → Nat → F) = 0 := rfl
  rw [e1, hM, e0, zero_add, map_sum]
  unfold hsum
  apply Finset.sum_congr rfl; intro h hh
  rw [map_sum]; apply Finset.sum_congr rfl; intro l hl
  rw [map_sum]; apply Finset.sum_congr rfl; intro r hr
  rw [map_sum]; apply Finset.sum_congr rfl; intro i hi
  split
  · rw [pair2_single s (mem_range.1 hi) (mul_add_lt (mem_range.1 hl) (mem_range.1 hr))]
  · rename_i hz
    rw [map_zero, not_not.1 hz, mul_zero]

theorem map_tab_id (n : Nat) (f : Nat → F) (g : F → F) : (tab n f).map g = tab n (fun i => g (f i)) := tab_map n f g

/-- `addRow` on a nested accumulator. -/
theorem addRow_eq {a b c i h : Nat} (hi : i < a) (hh : h < b) (v : Nat → F) (eq : F) (m : Nat → Nat → Nat → F) :
    addRow (tab c v) eq i h (tab3 a b c m) =
      .ok (tab3 a b c (m + ∑ t ∈ range c, Pi.single i (Pi.single h (Pi.single t (v t * eq))))) := by
  unfold addRow
  rw [tab_length]
  refine forN_acc (M := Nat → Nat → Nat → F) (mk := tab3 a b c) _ c m ?_
  intro t ht m
  rw [idx_tab ht, ok_bind, modIdx_tab3_add hi hh ht]

theorem combineSplit_eq (a b c : Nat) (m s : Nat → Nat → Nat → F) :
    combineSplit (tab3 a b c m) (tab3 a b c s) c = .ok (tab c (fun t => pair3 a b s t m)) := by
  unfold combineSplit
  unfold tab3
  rw [replicate_eq_tab, tab_length]
  have := forN_acc (M := Nat → F) (mk := tab c) (m := fun _ => 0)
    (body := fun i res => do
      let rows ← idx (tab a (fun i => tab b (fun j => tab c (m i j)))) i
      forN rows.length res fun h res => do
        let row ← idx rows h
        forN row.length res fun t res => do
          let v ← idx row t
          let evi ← idx (tab a (fun i => tab b (fun j => tab c (s i j)))) i
          let x ← idx2 evi h t
          modIdx res t (fun x' => x' + v * x))
    (fun i => ∑ h ∈ range b, ∑ t ∈ range c, Pi.single t (m i h t * s i h t)) a (by
    intro i hi r
    rw [idx_tab hi, ok_bind, tab_length]
    refine forN_acc (M := Nat → F) (mk := tab c) _ b r ?_
    intro h hh r
    rw [idx_tab hh, ok_bind, tab_length]
    refine forN_acc (M := Nat → F) (mk := tab c) _ c r ?_
    intro t ht r
    have := idx_tab2 (m := s i) hh ht
    unfold tab2 at this
    rw [idx_tab ht, ok_bind, idx_tab hi, ok_bind, this, ok_bind, modIdx_tab_add ht])
  rw [this]
  congr 1
  apply tab_congr
  intro t ht
  rw [Pi.add_apply, zero_add, Finset.sum_apply]
  show _ = ∑ i ∈ range a, ∑ j ∈ range b, _
  apply Finset.sum_congr rfl; intro i _
  rw [Finset.sum_apply]
  apply Finset.sum_congr rfl; intro h _
  rw [Finset.sum_apply, Finset.sum_eq_single t]
  · simp
  · intro t' _ hne; rw [Pi.single_apply, if_neg (Ne.symm hne)]
  · intro hc; simp at hc; omega

/-- The precomputed tables. -/
theorem preEvalStatics_eq (nG size nEvals : Nat) (s : Nat → Nat → F) :
    preEvalStatics (tab nG (fun i => tab (2 * size) (s i))) size nEvals =
      .ok (tab nG (fun i => tab size (fun h => decide (¬ (s i h = 0 ∧ s i (size + h) - s i h = 0)))),
        tab3 nG size nEvals (fun i h t => foldF size (s i) (t : F) h)) := by
  unfold preEvalStatics
  have hin : ∀ x ∈ tab nG (fun i => tab (2 * size) (s i)), ∃ i, x = tab (2 * size) (s i) := by
    intro x hx
    obtain ⟨i, _, rfl⟩ := List.mem_map.1 hx
    exact ⟨i, rfl⟩
  have hx : ∀ i h, h < size → idx (tab (2 * size) (s i)) h = .ok (s i h) := fun i h hh => idx_tab (by omega)
  have hd : ∀ i h, h < size → idx (functionEvals (tab (2 * size) (s i))) h = .ok (s i (size + h) - s i h) := by
    intro i h hh
    rw [functionEvals_tab, idx_tab hh]
  rw [mapGo_ok (fun t : List F => tab size (fun h => decide (¬ (t.getD h 0 = 0 ∧ t.getD (size + h) 0 - t.getD h 0 = 0)))),
    ok_bind, mapGo_ok (fun t : List F => tab size (fun h => tab nEvals (fun k => foldF size (fun j => t.getD j 0) (k : F) h))),
    ok_bind]
  · simp only [go_pure, tab_map]
    congr 2
    · apply tab_congr; intro i _
      apply tab_congr; intro h hh
      have h1 : (tab (2 * size) (s i)).getD h 0 = s i h := by
        rw [List.getD_eq_getElem?_getD, tab_getElem?, if_pos (by omega)]; rfl
      have h2 : (tab (2 * size) (s i)).getD (size + h) 0 = s i (size + h) := by
        rw [List.getD_eq_getElem?_getD, tab_getElem?, if_pos (by omega)]; rfl
      rw [h1, h2]
    · unfold tab3
      apply tab_congr; intro i _
      apply tab_congr; intro h hh
      apply tab_congr; intro t _
      have h1 : (tab (2 * size) (s i)).getD h 0 = s i h := by
        rw [List.getD_eq_getElem?_getD, tab_getElem?, if_pos (by omega)]; rfl
      have h2 : (tab (2 * size) (s i)).getD (size + h) 0 = s i (size + h) := by
        rw [List.getD_eq_getElem?_getD, tab_getElem?, if_pos (by omega)]; rfl
      unfold foldF
      beta_reduce
      rw [h1, h2]
  · intro x hxm
    obtain ⟨i, rfl⟩ := hin x hxm
    apply gen_ok
    intro h hh
    have h1 : (tab (2 * size) (s i)).getD h 0 = s i h := by
      rw [List.getD_eq_getElem?_getD, tab_getElem?, if_pos (by omega)]; rfl
    have h2 : (tab (2 * size) (s i)).getD (size + h) 0 = s i (size + h) := by
      rw [List.getD_eq_getElem?_getD, tab_getElem?, if_pos (by omega)]; rfl
    rw [hx i h hh, ok_bind, hd i h hh, ok_bind, ramp_eq]
    unfold foldF
    simp only [go_pure, h1, h2]
  · intro x hxm
    obtain ⟨i, rfl⟩ := hin x hxm
    apply gen_ok
    intro h hh
    have h1 : (tab (2 * size) (s i)).getD h 0 = s i h := by
      rw [List.getD_eq_getElem?_getD, tab_getElem?, if_pos (by omega)]; rfl
    have h2 : (tab (2 * size) (s i)).getD (size + h) 0 = s i (size + h) := by
      rw [List.getD_eq_getElem?_getD, tab_getElem?, if_pos (by omega)]; rfl
    rw [hx i h hh, ok_bind, hd i h hh, ok_bind, h1, h2]
    rfl

end GkrMimc
