import Verif.Proofs.SumcheckComplete
import Verif.Proofs.Circuit
import Verif.Props.Circuit

/-! The sumcheck claim of a layer is the extension of its outputs. -/

set_option linter.unusedSectionVars false

namespace GkrMimc

open Spec Finset

variable {F : Type} [Field F] [DecidableEq F]

theorem list_map_sum_eq {α : Type} (xs : List α) (f : α → F) : (xs.map f).sum = ∑ i : Fin xs.length, f xs[i] :=
  (Fin.sum_univ_fun_getElem xs f).symm

theorem list_flatMap_sum {α β : Type} (xs : List α) (f : α → List β) (c : β → F) :
    ((xs.flatMap f).map c).sum = (xs.map fun x => ((f x).map c).sum).sum := by
  induction xs with
  | nil => rfl
  | cons x xs ih => simp [ih]

/-- Sums over the counted wires. -/
theorem countedWires_sum (wires : List (Wire F)) (c : Wire F → F) :
    ((countedWires wires).map c).sum =
      (wires.map fun w => (wires.map fun w' => if w'.gate.id = w.gate.id then c { w' with gate := w.gate } else 0).sum).sum := by
  unfold countedWires
  rw [list_flatMap_sum]
  apply list_sum_congr
  intro w _
  rw [List.map_map, list_sum_ite]
  rfl

theorem countedWires_mem {wires : List (Wire F)} {w : Wire F} (h : w ∈ countedWires wires) :
    ∃ w1 ∈ wires, ∃ w2 ∈ wires, w2.gate.id = w1.gate.id ∧ w = { w2 with gate := w1.gate } := by
  obtain ⟨w1, h1, h⟩ := List.mem_flatMap.1 h
  obtain ⟨w2, h2, rfl⟩ := List.mem_map.1 h
  obtain ⟨h2, h3⟩ := List.mem_filter.1 h2
  exact ⟨w1, h1, w2, h2, by simpa using h3, rfl⟩

theorem filter_key {α β : Type} [DecidableEq β] (xs : List α) (f : α → β) : (xs.map f).Nodup → ∀ x ∈ xs,
    xs.filter (fun y => f y = f x) = [x] := by
  induction xs with
  | nil => intro _ x hx; cases hx
  | cons y ys ih =>
    intro hd x hx
    rw [List.map_cons, List.nodup_cons] at hd
    rcases List.mem_cons.1 hx with rfl | hx
    · rw [List.filter_cons, if_pos (by simp), List.filter_eq_nil_iff.2]
      intro z hz hc
      exact hd.1 (List.mem_map.2 ⟨z, hz, by simpa using hc⟩)
    · rw [List.filter_cons, if_neg, ih hd.2 x hx]
      intro hc
      exact hd.1 (List.mem_map.2 ⟨x, hx, (by simpa using hc : f y = f x).symm⟩)

/-- With distinct IDs the counted wires are the wires. -/
theorem countedWires_of_nodup (wires : List (Wire F)) (hd : (wires.map (·.gate.id)).Nodup) : countedWires wires = wires := by
  unfold countedWires
  have : ∀ w ∈ wires, ((wires.filter fun w' => w'.gate.id = w.gate.id).map fun w' => ({ w' with gate := w.gate } : Wire F)) = [w] := by
    intro w hw
    rw [filter_key wires (·.gate.id) hd w hw]; rfl
  rw [List.flatMap_congr this]
  simp

theorem countedWires_eq (wires : List (Wire F)) : countedWires wires = countedBy (wires.map (·.gate)) wires := by
  unfold countedWires countedBy
  rw [List.flatMap_map]

theorem countedBy_sum (gates : List (Gate F)) (wires : List (Wire F)) (c : Wire F → F) :
    ((countedBy gates wires).map c).sum =
      (gates.map fun g => (wires.map fun w => if w.gate.id = g.id then c { w with gate := g } else 0).sum).sum := by
  unfold countedBy
  rw [list_flatMap_sum]
  apply list_sum_congr
  intro w _
  rw [List.map_map, list_sum_ite]
  rfl

theorem countedBy_mem {gates : List (Gate F)} {wires : List (Wire F)} {w : Wire F} (h : w ∈ countedBy gates wires) :
    ∃ g ∈ gates, ∃ w2 ∈ wires, w2.gate.id = g.id ∧ w = { w2 with gate := g } := by
  obtain ⟨g, h1, h⟩ := List.mem_flatMap.1 h
  obtain ⟨w2, h2, rfl⟩ := List.mem_map.1 h
  obtain ⟨h2, h3⟩ := List.mem_filter.1 h2
  exact ⟨g, h1, w2, h2, by simpa using h3, rfl⟩

theorem list_sum_swap {α β : Type} (xs : List α) (ys : List β) (f : α → β → F) :
    (xs.map fun x => (ys.map fun y => f x y).sum).sum = (ys.map fun y => (xs.map fun x => f x y).sum).sum := by
  simp only [list_map_sum_eq]
  exact Finset.sum_comm

/-- In a list with distinct keys, the sum over the elements with a given key. -/
theorem list_sum_key {α β : Type} [DecidableEq β] (xs : List α) (key : α → β) (hd : (xs.map key).Nodup) (x : α) (hx : x ∈ xs)
    (c : α → F) : (xs.map fun y => if key x = key y then c y else 0).sum = c x := by
  have e : (xs.map fun y => if key x = key y then c y else 0) = xs.map fun y => if key y = key x then c y else 0 := by
    apply List.map_congr_left
    intro y _
    by_cases h : key x = key y
    · rw [if_pos h, if_pos h.symm]
    · rw [if_neg h, if_neg (fun h' => h h'.symm)]
  rw [e, list_sum_ite, filter_key xs key hd x hx]
  simp

/-- With the gates listed, the sum over the counted wires is the sum over the wires. -/
theorem listed_sum {gates : List (Gate F)} {wires : List (Wire F)} (h : ListsGates gates wires)
    (c : (F → F → F) → Wire F → F) (hc : ∀ f w g, c f { w with gate := g } = c f w) :
    ((countedBy gates wires).map fun w => c w.gate.eval w).sum = (wires.map fun w => c w.gate.eval w).sum := by
  rw [countedBy_sum, list_sum_swap]
  apply list_sum_congr
  intro w hw
  obtain ⟨g, hg, h1, h2⟩ := h.listed w hw
  have e := list_sum_key gates (·.id) h.nodup g hg (fun g => c g.eval w)
  simp only [hc]
  rw [h2, h1] at e
  exact e

theorem wiredOutput_listed {gates : List (Gate F)} {wires : List (Wire F)} (h : ListsGates gates wires) (N : Nat)
    (inp : List F) (O i : Nat) : wiredOutput (countedBy gates wires) N inp O i = wiredOutput wires N inp O i := by
  unfold wiredOutput
  rw [← list_sum_ite, ← list_sum_ite]
  exact listed_sum h (fun f w => if w.O = O then f (inp.getD (w.L * N + i) 0) (inp.getD (w.R * N + i) 0) else 0)
    (fun _ _ _ => rfl)

theorem wiredOutputs_listed {gates : List (Gate F)} {wires : List (Wire F)} (h : ListsGates gates wires) (N nOut : Nat)
    (inp : List F) : wiredOutputs (countedBy gates wires) N nOut inp = wiredOutputs wires N nOut inp := by
  unfold wiredOutputs
  simp only [wiredOutput_listed h]

/-- Distinct IDs: the gates of the wires list them. -/
theorem listsGates_of_nodup {wires : List (Wire F)} (hd : (wires.map (·.gate.id)).Nodup) :
    ListsGates (wires.map (·.gate)) wires where
  nodup := by rw [List.map_map]; exact hd
  listed := fun w hw => ⟨w.gate, List.mem_map.2 ⟨w, hw, rfl⟩, rfl, rfl⟩

/-- The sum over the wires is the extension of their outputs. -/
theorem wires_mle (wires : List (Wire F)) (O bN : Nat) (hr : ∀ w ∈ wires, w.O < 2 ^ O) (inp : List F) (q q' : List F)
    (hq : q.length = O) (hq' : q'.length = bN) :
    ∑ h ∈ range (2 ^ bN), (wires.map fun w =>
      w.gate.eval (inp.getD (w.L * 2 ^ bN + h) 0) (inp.getD (w.R * 2 ^ bN + h) 0) * chi q' h * chi q w.O).sum =
      mle (wiredOutputs wires (2 ^ bN) (2 ^ O) inp) (q ++ q') := by
  set N := 2 ^ bN with hN
  have hN0 : 0 < N := Nat.two_pow_pos _
  unfold mle
  rw [mleF_append]
  have e1 : ∀ i < 2 ^ q.length, mleF (fun j => (wiredOutputs wires N (2 ^ O) inp).getD
      (i * 2 ^ q'.length + j) 0) q' = ∑ h ∈ range N, wiredOutput wires N inp i h * chi q' h := by
    intro i hi
    unfold mleF
    rw [hq', ← hN]
    apply Finset.sum_congr rfl; intro h hh
    have hh := mem_range.1 hh
    have : wiredOutputs wires N (2 ^ O) inp = tab (2 ^ O * N) (fun j =>
      wiredOutput wires N inp (j / N) (j % N)) := rfl
    rw [this]
    beta_reduce
    rw [tab_getD (mul_add_lt (hq ▸ hi) hh)]
    have := (div_mod_lt (O := i) (N := N) (j := i * N + h) hh).1 rfl
    rw [this.1, this.2]
  rw [mleF_congr e1]
  unfold mleF
  rw [hq]
  simp only [Finset.sum_mul]
  rw [Finset.sum_comm]
  apply Finset.sum_congr rfl; intro h hh
  unfold wiredOutput
  simp only [← list_sum_ite, ← list_sum_mul_right]
  rw [← list_sum_finset]
  apply list_sum_congr
  intro w hw
  have rO := hr w hw
  rw [Finset.sum_eq_single w.O]
  · simp
  · intro b _ hne; rw [if_neg (fun h => hne h.symm)]; simp
  · intro hc; exact absurd (mem_range.2 rO) hc

/-- The value of `hsum` for any layer. -/
theorem hsum_counted (l : Layer F) (hr : l.InRange) (bN : Nat) (inp : List F)
    (q q' : List F) (hq : q.length = l.bGOutputs) (hq' : q'.length = bN) :
    hsum l.gates (2 ^ l.bGInputs) (2 ^ l.bGInputs) (2 ^ bN) (fun i => inp.getD i 0) (fun i => inp.getD i 0) (chi q')
      (fun i => staticF l.wires ((l.gates.map (·.id)).getD i "") q l.bGInputs) =
      mle (wiredOutputs (countedBy l.gates l.wires) (2 ^ bN) (2 ^ l.bGOutputs) inp) (q ++ q') := by
  have hr' : ∀ w ∈ countedBy l.gates l.wires, w.L < 2 ^ l.bGInputs ∧ w.R < 2 ^ l.bGInputs ∧ w.O < 2 ^ l.bGOutputs := by
    intro w hw
    obtain ⟨_, _, w2, h2, _, rfl⟩ := countedBy_mem hw
    exact hr w2 h2
  rw [← wires_mle (countedBy l.gates l.wires) l.bGOutputs bN (fun w hw => (hr' w hw).2.2) inp q q' hq hq']
  set G := l.bGInputs with hG
  set N := 2 ^ bN with hN
  have hN0 : 0 < N := Nat.two_pow_pos _
  unfold hsum
  apply Finset.sum_congr rfl; intro h hh
  have e : ∀ a b, ∑ i ∈ range l.gates.length, gateF l.gates i (inp.getD (a * N + h) 0) (inp.getD (b * N + h) 0) *
        chi q' h * staticF l.wires ((l.gates.map (·.id)).getD i "") q G (a * 2 ^ G + b) =
      ((countedBy l.gates l.wires).map fun w => w.gate.eval (inp.getD (a * N + h) 0) (inp.getD (b * N + h) 0) *
        chi q' h * (if a * 2 ^ G + b = 2 ^ G * w.L + w.R then chi q w.O else 0)).sum := by
    intro a b
    rw [countedBy_sum, Finset.sum_range, list_map_sum_eq]
    apply Finset.sum_congr rfl; intro i _
    have h1 : (l.gates.map (·.id)).getD i "" = l.gates[i].id := by simp
    have h2 : ∀ x y, gateF l.gates i x y = l.gates[i].eval x y := fun x y => gateF_eq i.2 x y
    rw [h1, h2]
    unfold staticF
    rw [mul_comm, ← list_sum_mul_right]
    apply list_sum_congr
    intro w _
    by_cases c1 : w.gate.id = l.gates[i].id
    · by_cases c2 : a * 2 ^ G + b = 2 ^ G * w.L + w.R
      · rw [if_pos ⟨c1, c2⟩, if_pos c1, if_pos c2]; ring
      · rw [if_neg (fun hc => c2 hc.2), if_pos c1, if_neg c2]; ring
    · rw [if_neg (fun hc => c1 hc.1), if_neg c1]; ring
  simp only [e]
  simp only [← list_sum_finset]
  apply list_sum_congr
  intro w hw
  obtain ⟨rL, rR, _⟩ := hr' w hw
  rw [Finset.sum_eq_single w.L, Finset.sum_eq_single w.R]
  · rw [if_pos (by ring)]
  · intro b hb hne
    rw [if_neg, mul_zero]
    intro hc
    apply hne
    rw [mul_comm] at hc; omega
  · intro hc; exact absurd (mem_range.2 rR) hc
  · intro a ha hne
    apply Finset.sum_eq_zero
    intro b hb
    rw [if_neg, mul_zero]
    intro hc
    apply hne
    have hb' := mem_range.1 hb
    rw [mul_comm (2 ^ G)] at hc
    have := (div_mod_lt (O := w.L) (N := 2 ^ G) (j := a * 2 ^ G + b) rR).1 hc
    have h2 := (div_mod_lt (O := a) (N := 2 ^ G) (j := a * 2 ^ G + b) hb').1 rfl
    exact h2.1.symm.trans this.1
  · intro hc; exact absurd (mem_range.2 rL) hc

/-- The value of `hsum` for a layer whose gates are listed. -/
theorem hsum_layer (l : Layer F) (hr : l.InRange) (hd : ListsGates l.gates l.wires) (bN : Nat) (inp : List F) (q q' : List F) (hq : q.length = l.bGOutputs)
    (hq' : q'.length = bN) :
    hsum l.gates (2 ^ l.bGInputs) (2 ^ l.bGInputs) (2 ^ bN) (fun i => inp.getD i 0) (fun i => inp.getD i 0) (chi q')
      (fun i => staticF l.wires ((l.gates.map (·.id)).getD i "") q l.bGInputs) =
      mle (wiredOutputs l.wires (2 ^ bN) (2 ^ l.bGOutputs) inp) (q ++ q') := by
  rw [hsum_counted l hr bN inp q q' hq hq', wiredOutputs_listed hd]

end GkrMimc
