import Verif.Props.Chunking

/-! Property C74: the instances of a batch do not interact. -/

set_option linter.unusedSectionVars false

namespace GkrMimc

open Spec

section

variable {F : Type} [Field F]

/-- Specification for C74: the values of instance `h` in a table that holds `N` instances, value `g` of instance `h` at `g*N+h`. -/
def instanceOf (N h : Nat) (t : List F) : List F := (List.range (t.length / N)).map fun g => t.getD (g * N + h) 0

theorem instanceOf_getD {N h M : Nat} (hh : h < N) {t : List F} (ht : t.length = M * N) (g : Nat) :
    (instanceOf N h t).getD g 0 = t.getD (g * N + h) 0 := by
  have hN : 0 < N := by omega
  unfold instanceOf
  rw [ht, Nat.mul_div_cancel _ hN, List.getD_eq_getElem?_getD, List.getD_eq_getElem?_getD]
  by_cases hg : g < M
  · simp [hg]
  · have h1 : M * N ≤ g * N := Nat.mul_le_mul_right _ (by omega)
    rw [List.getElem?_eq_none (by simp; omega), List.getElem?_eq_none (by omega)]

/-- A layer evaluated as wired treats each instance on its own. -/
theorem instanceOf_wired {N h M : Nat} (hh : h < N) (wires : List (Wire F)) (nOut : Nat) {inp : List F} (hi : inp.length = M * N) :
    instanceOf N h (wiredOutputs wires N nOut inp) = wiredOutputs wires 1 nOut (instanceOf N h inp) := by
  have hN : 0 < N := by omega
  apply List.ext_getElem?
  intro g
  have hl : (wiredOutputs wires N nOut inp).length = nOut * N := by simp [wiredOutputs]
  unfold instanceOf
  rw [hl, Nat.mul_div_cancel _ hN]
  by_cases hg : g < nOut
  · have hlt : g * N + h < nOut * N := by
      calc g * N + h < (g + 1) * N := by rw [Nat.add_mul]; omega
        _ ≤ _ := Nat.mul_le_mul_right _ hg
    have e1 : (g * N + h) / N = g := ((div_mod_lt hh).1 rfl).1
    have e2 : (g * N + h) % N = h := ((div_mod_lt hh).1 rfl).2
    rw [List.getElem?_map, List.getElem?_range hg, Option.map_some, List.getD_eq_getElem?_getD]
    unfold wiredOutputs
    rw [List.getElem?_map, List.getElem?_range hlt, Option.map_some, Option.getD_some, e1, e2, List.getElem?_map,
      List.getElem?_range (by omega), Option.map_some, Nat.div_one, Nat.mod_one]
    congr 1
    unfold wiredOutput
    congr 1
    apply List.map_congr_left
    intro w _
    rw [mul_one, mul_one, add_zero, add_zero]
    change _ = w.gate.eval ((instanceOf N h inp).getD w.L 0) ((instanceOf N h inp).getD w.R 0)
    rw [instanceOf_getD hh hi, instanceOf_getD hh hi]
  · rw [List.getElem?_eq_none (by simp; omega), List.getElem?_eq_none (by simp [wiredOutputs]; omega)]

/-- The values of `Assign` begin with the inputs, and each layer is evaluated on the one before. -/
theorem assignFrom_cons_ok {nCore : Int} {l : Layer F} {ls : List (Layer F)} {cur : List (List F)} {values : List (List (List F))}
    (h : assignFrom nCore (l :: ls) cur = .ok values) :
    ∃ nxt rest, l.evaluate cur nCore = .ok nxt ∧ assignFrom nCore ls nxt = .ok rest ∧ values = cur :: rest := by
  rw [assignFrom, bind_eq_ok] at h
  obtain ⟨nxt, h1, h⟩ := h
  rw [bind_eq_ok] at h
  obtain ⟨rest, h2, h⟩ := h
  exact ⟨nxt, rest, h1, h2, (Except.ok.inj h).symm⟩

theorem semaphore_ok_pos {nCore : Int} {n : Nat} (hn : n ≠ 0) (h : semaphoreSection nCore n = .ok ()) : 1 ≤ nCore := by
  unfold semaphoreSection at h
  by_contra hc
  by_cases h0 : nCore < 0
  · rw [if_pos h0] at h; cases h
  · rw [if_neg h0, if_pos (by omega)] at h; cases h

/-- What a layer that returns computes, for all wirings. -/
theorem evaluate_ok (wires : List (Wire F)) (N : Nat) (hN : 1 ≤ N) (inputs out : List (List F)) (hne : inputs ≠ []) (nCore : Int)
    (hlen : ∀ c ∈ inputs, c.length = 2 ^ (newLayer wires).bGInputs * N) (h : (newLayer wires).evaluate inputs nCore = .ok out) :
    out = inputs.map (wiredOutputs (wires.map fun w => { w with R := w.R * N }) N (2 ^ (newLayer wires).bGOutputs)) := by
  have hs : 1 ≤ nCore := by
    have h' := h
    unfold Layer.evaluate at h'
    rw [bind_eq_ok] at h'
    exact semaphore_ok_pos (by simpa using hne) h'.choose_spec.1
  rcases C12_evaluate_exact wires N hN inputs hne nCore hs hlen with ⟨_, h1⟩ | ⟨_, e, h1⟩
  · rw [h] at h1
    exact Except.ok.inj h1
  · rw [h] at h1; cases h1

theorem isolated_from (N h h' : Nat) (hh : h < N) (hh' : h' < N) (n n' : Int) (c c' : Nat) (layers : List (Layer F)) :
    ∀ (wiring : List (List (Wire F))) (G : Nat) (inputs inputs' : List (List F)) (values values' : List (List (List F))) (x x' : List F),
    layers = wiring.map newLayer → Chained G layers →
    (∀ y ∈ inputs, y.length = 2 ^ G * N) → (∀ y ∈ inputs', y.length = 2 ^ G * N) →
    assignFrom n layers inputs = .ok values → assignFrom n' layers inputs' = .ok values' →
    inputs[c]? = some x → inputs'[c']? = some x' → instanceOf N h x = instanceOf N h' x' →
    ∀ i : Nat, i ≤ layers.length → ∃ v v' y y', values[i]? = some v ∧ values'[i]? = some v' ∧ v[c]? = some y ∧ v'[c']? = some y' ∧
      instanceOf N h y = instanceOf N h' y' := by
  induction layers with
  | nil =>
    intro wiring G inputs inputs' values values' x x' _ _ _ _ ha ha' hx hx' he i hi
    obtain rfl := Except.ok.inj ha
    obtain rfl := Except.ok.inj ha'
    obtain rfl : i = 0 := by simpa using hi
    exact ⟨inputs, inputs', x, x', rfl, rfl, hx, hx', he⟩
  | cons l ls ih =>
    intro wiring G inputs inputs' values values' x x' hw hG hl hl' ha ha' hx hx' he i hi
    cases wiring with
    | nil => cases hw
    | cons ws wiring =>
    rw [List.map_cons, List.cons.injEq] at hw
    obtain ⟨rfl, hw⟩ := hw
    obtain ⟨rfl, hG⟩ := hG
    obtain ⟨nxt, rest, a1, a2, rfl⟩ := assignFrom_cons_ok ha
    obtain ⟨nxt', rest', b1, b2, rfl⟩ := assignFrom_cons_ok ha'
    cases i with
    | zero => exact ⟨inputs, inputs', x, x', rfl, rfl, hx, hx', he⟩
    | succ i =>
    have e1 := evaluate_ok ws N (by omega) inputs nxt (by rintro rfl; simp at hx) n hl a1
    have e2 := evaluate_ok ws N (by omega) inputs' nxt' (by rintro rfl; simp at hx') n' hl' b1
    have out : ∀ (us : List (Wire F)) (z : List (List F)), ∀ y ∈ z.map (wiredOutputs us N (2 ^ (newLayer ws).bGOutputs)),
        y.length = 2 ^ (newLayer ws).bGOutputs * N := by
      intro us z y hy
      obtain ⟨t, _, rfl⟩ := List.mem_map.1 hy
      simp [wiredOutputs]
    exact ih wiring _ nxt nxt' rest rest' _ _ hw hG (by rw [e1]; exact out _ _) (by rw [e2]; exact out _ _) a2 b2
      (by rw [e1, List.getElem?_map, hx]; rfl) (by rw [e2, List.getElem?_map, hx']; rfl)
      (by rw [instanceOf_wired hh _ _ (hl x (List.mem_of_getElem? hx)), instanceOf_wired hh' _ _ (hl' x' (List.mem_of_getElem? hx')), he])
      i (by simpa using hi)

/-- C74. The values of an instance depend on its own inputs only, for every circuit, also where `Assign` does not follow the wiring
(C12): if two calls of `Assign` return and have the same inputs for instance `h` of chunk `c` and instance `h'` of chunk `c'`, then
all values of these instances are the same, whatever the other instances, their number of chunks and the numbers of cores. -/
theorem C74_isolated (wiring : List (List (Wire F))) (G N : Nat) (hG : Chained G (newCircuit wiring).layers)
    (inputs inputs' : List (List F)) (hl : ∀ y ∈ inputs, y.length = 2 ^ G * N) (hl' : ∀ y ∈ inputs', y.length = 2 ^ G * N)
    (n n' : Int) (values values' : List (List (List F))) (ha : (newCircuit wiring).assign inputs n = .ok values)
    (ha' : (newCircuit wiring).assign inputs' n' = .ok values') (c c' h h' : Nat) (hh : h < N) (hh' : h' < N) (x x' : List F)
    (hx : inputs[c]? = some x) (hx' : inputs'[c']? = some x') (he : instanceOf N h x = instanceOf N h' x') :
    ∀ i : Nat, i ≤ wiring.length → ∃ v v' y y', values[i]? = some v ∧ values'[i]? = some v' ∧ v[c]? = some y ∧ v'[c']? = some y' ∧
      instanceOf N h y = instanceOf N h' y' := by
  intro i hi
  exact isolated_from N h h' hh hh' n n' c c' _ wiring G inputs inputs' values values' x x' rfl hG hl hl' ha ha' hx hx' he i
    (by simpa [newCircuit] using hi)

theorem alone_from (N h : Nat) (hh : h < N) (c : Nat) (layers : List (Layer F)) :
    ∀ (G : Nat) (inputs : List (List F)) (x : List F), Chained G layers → (∀ y ∈ inputs, y.length = 2 ^ G * N) → inputs[c]? = some x →
    ∀ i : Nat, i ≤ layers.length → ∃ v y, (wiredAssignment N layers inputs)[i]? = some v ∧ v[c]? = some y ∧
      (wiredAssignment 1 layers [instanceOf N h x])[i]? = some [instanceOf N h y] := by
  induction layers with
  | nil =>
    intro G inputs x _ _ hx i hi
    obtain rfl : i = 0 := by simpa using hi
    exact ⟨inputs, x, rfl, hx, rfl⟩
  | cons l ls ih =>
    intro G inputs x hG hl hx i hi
    obtain ⟨rfl, hG⟩ := hG
    cases i with
    | zero => exact ⟨inputs, x, rfl, hx, rfl⟩
    | succ i =>
    obtain ⟨v, y, h1, h2, h3⟩ := ih l.bGOutputs (inputs.map (wiredOutputs l.wires N (2 ^ l.bGOutputs)))
      (wiredOutputs l.wires N (2 ^ l.bGOutputs) x) hG (by
        intro y hy
        obtain ⟨t, _, rfl⟩ := List.mem_map.1 hy
        simp [wiredOutputs]) (by rw [List.getElem?_map, hx]; rfl) i (by simpa using hi)
    refine ⟨v, y, h1, h2, ?_⟩
    rw [wiredAssignment, List.getElem?_cons_succ, List.map_cons, List.map_nil,
      ← instanceOf_wired hh _ _ (hl x (List.mem_of_getElem? hx))]
    exact h3

/-- C74. A batch computes what its instances compute alone: where all wires have R = 0 (C12), `Assign` on `N` instances per chunk gives
instance `h` of chunk `c` the values that `Assign` gives it as the only instance. -/
theorem C74_alone (wiring : List (List (Wire F))) (G N : Nat) (hG : Chained G (newCircuit wiring).layers)
    (hR : ∀ ws ∈ wiring, ∀ w ∈ ws, w.R = 0) (inputs : List (List F)) (hl : ∀ y ∈ inputs, y.length = 2 ^ G * N)
    (n n' : Int) (hn : 1 ≤ n) (hn' : 1 ≤ n') (c h : Nat) (hh : h < N) (x : List F) (hx : inputs[c]? = some x) :
    ∃ values alone, (newCircuit wiring).assign inputs n = .ok values ∧
      (newCircuit wiring).assign [instanceOf N h x] n' = .ok alone ∧
      ∀ i : Nat, i ≤ wiring.length → ∃ v y, values[i]? = some v ∧ v[c]? = some y ∧ alone[i]? = some [instanceOf N h y] := by
  refine ⟨_, _, C12_assign_partial wiring G N inputs n hn hG (fun ws h w hw => .inl (hR ws h w hw)) hl,
    C12_assign_partial wiring G 1 [instanceOf N h x] n' hn' hG (fun ws h w hw => .inl (hR ws h w hw)) ?_, ?_⟩
  · intro y hy
    obtain rfl := List.mem_singleton.1 hy
    simp only [instanceOf, List.length_map, List.length_range]
    rw [hl x (List.mem_of_getElem? hx), Nat.mul_div_cancel _ (by omega), mul_one]
  · intro i hi
    exact alone_from N h hh c _ G inputs x hG hl hx i (by simpa [newCircuit] using hi)

end

/-- C74 for the circuit of `CreateMimcCircuit`: each instance of a batch gets the values it gets alone. -/
theorem C74_mimc (N : Nat) (inputs : List (List Fr)) (hl : ∀ y ∈ inputs, y.length = 2 * N) (n n' : Int) (hn : 1 ≤ n) (hn' : 1 ≤ n')
    (c h : Nat) (hh : h < N) (x : List Fr) (hx : inputs[c]? = some x) :
    ∃ circ values alone, createMimcCircuit frString arks = .ok circ ∧ circ.assign inputs n = .ok values ∧
      circ.assign [instanceOf N h x] n' = .ok alone ∧
      ∀ i ≤ 91, ∃ v y, values[i]? = some v ∧ v[c]? = some y ∧ alone[i]? = some [instanceOf N h y] := by
  obtain ⟨values, alone, h1, h2, h3⟩ := C74_alone (mimcWiring frString (arks.take 91)) 1 N (mimcWiring_chained _ _) (mimcWiring_R _ _)
    inputs (by simpa using hl) n n' hn hn' c h hh x hx
  refine ⟨_, values, alone, mimc_circuit, h1, h2, fun i hi => h3 i ?_⟩
  have : (mimcWiring frString (arks.take 91)).length = 91 := by
    obtain ⟨cs, c, d, e, hcs, _⟩ := arks_split
    rw [e, show cs ++ [c, d] = (cs ++ [c]) ++ [d] by simp, mimcWiring_append]
    simp [hcs]
  omega

/-- C74 fails where a wire has R ≠ 0 (C12): in a batch of two the first instance gets 1005, alone it gets 15. -/
theorem C74_negation :
    (newCircuit [c12Wires]).assign [[0, 0, 10, 20, 1000, 2000, 5, 6]] 1 =
      .ok [[[0, 0, 10, 20, 1000, 2000, 5, 6]], [[1005, 2006]]] ∧
    instanceOf 2 0 ([0, 0, 10, 20, 1000, 2000, 5, 6] : List Fr) = [0, 10, 1000, 5] ∧
    (newCircuit [c12Wires]).assign [[0, 10, 1000, 5]] 1 = .ok [[[0, 10, 1000, 5]], [[15]]] ∧
    instanceOf 2 0 ([1005, 2006] : List Fr) = [1005] := by
  decide +kernel

/-- The hypotheses of `C74_isolated` are met by this circuit: instance 0 of one batch and instance 1 of the second chunk of another. -/
example : ∃ values values', (newCircuit [c12Wires]).assign [[0, 0, 10, 20, 1000, 2000, 5, 6]] 1 = .ok values ∧
    (newCircuit [c12Wires]).assign [[1, 2, 3, 4, 5, 6, 7, 8], [9, 0, 9, 10, 9, 1000, 9, 5]] 3 = .ok values' ∧
    ∀ i ≤ 1, ∃ v v' y y', values[i]? = some v ∧ values'[i]? = some v' ∧ v[0]? = some y ∧ v'[1]? = some y' ∧
      instanceOf 2 0 y = instanceOf 2 1 y' := by
  have h1 : (newCircuit [c12Wires]).assign [[0, 0, 10, 20, 1000, 2000, 5, 6]] 1 =
      .ok [[[0, 0, 10, 20, 1000, 2000, 5, 6]], [[1005, 2006]]] := by decide +kernel
  have h2 : (newCircuit [c12Wires]).assign [[1, 2, 3, 4, 5, 6, 7, 8], [9, 0, 9, 10, 9, 1000, 9, 5]] 3 =
      .ok [[[1, 2, 3, 4, 5, 6, 7, 8], [9, 0, 9, 10, 9, 1000, 9, 5]], [[12, 14], [18, 1005]]] := by decide +kernel
  exact ⟨_, _, h1, h2, C74_isolated [c12Wires] 2 2 ⟨by decide +kernel, trivial⟩ _ _ (by simp) (by simp) 1 3 _ _ h1 h2 0 1 0 1
    (by decide) (by decide) _ _ rfl rfl (by decide +kernel)⟩

/-- Three instances of MiMC in one chunk. -/
example : ∃ circ values alone, createMimcCircuit frString arks = .ok circ ∧ circ.assign [[1, 2, 3, 4, 5, 6]] 4 = .ok values ∧
    circ.assign [instanceOf 3 1 [1, 2, 3, 4, 5, 6]] 1 = .ok alone ∧
    ∀ i ≤ 91, ∃ v y, values[i]? = some v ∧ v[0]? = some y ∧ alone[i]? = some [instanceOf 3 1 y] :=
  C74_mimc 3 _ (by simp) 4 1 (by decide) (by decide) 0 1 (by decide) _ rfl

end GkrMimc
