import Verif.Model.Mimc
import Verif.Props.Gkr
import Verif.Props.Hash

/-! Proofs about the MiMC circuit. -/

set_option linter.unusedSectionVars false

namespace GkrMimc

open Spec

variable {F : Type} [Field F]

/-- The wiring of a circuit with one layer per round constant. -/
def mimcWiring (toStr : F → String) : List F → List (List (Wire F))
  | [] => []
  | [c] => [mimcLastWires toStr c]
  | c :: c' :: cs => mimcMidWires toStr c :: mimcWiring toStr (c' :: cs)

theorem mimcWiring_append (toStr : F → String) (cs : List F) (c : F) :
    mimcWiring toStr (cs ++ [c]) = cs.map (mimcMidWires toStr) ++ [mimcLastWires toStr c] := by
  induction cs with
  | nil => rfl
  | cons d cs ih =>
    cases cs with
    | nil => rfl
    | cons e cs => exact congrArg (mimcMidWires toStr d :: ·) ih

theorem createMimcCircuit_eq (toStr : F → String) (consts : List F) (h : 91 ≤ consts.length) :
    createMimcCircuit toStr consts = .ok (newCircuit (mimcWiring toStr (consts.take 91))) := by
  unfold createMimcCircuit
  dsimp only
  rw [gen_ok (fun i => mimcMidWires toStr (consts.getD i 0))]
  · rw [ok_bind, idx_ok (by omega), ok_bind, go_pure, List.take_succ_eq_append_getElem (show 90 < consts.length by omega),
      mimcWiring_append]
    congr 3
    apply List.ext_getElem
    · simp; omega
    intro i h1 h2
    simp only [tab_length] at h1
    simp [List.getD_eq_getElem?_getD, List.getElem?_eq_getElem (show i < consts.length by omega)]
  · intro i hi
    rw [idx_ok (by omega), ok_bind, go_pure]
    simp [List.getD_eq_getElem?_getD, List.getElem?_eq_getElem (show i < consts.length by omega)]

theorem log2Ceil_two : log2Ceil 2 = 1 := log2Ceil_pow 1
theorem log2Ceil_one : log2Ceil 1 = 0 := log2Ceil_pow 0

@[simp] theorem mid_bGInputs (toStr : F → String) (c : F) : (newLayer (mimcMidWires toStr c)).bGInputs = 1 := log2Ceil_two
@[simp] theorem mid_bGOutputs (toStr : F → String) (c : F) : (newLayer (mimcMidWires toStr c)).bGOutputs = 1 := log2Ceil_two
@[simp] theorem last_bGInputs (toStr : F → String) (c : F) : (newLayer (mimcLastWires toStr c)).bGInputs = 1 := log2Ceil_two
@[simp] theorem last_bGOutputs (toStr : F → String) (c : F) : (newLayer (mimcLastWires toStr c)).bGOutputs = 0 := log2Ceil_one

theorem mimcWiring_chained (toStr : F → String) (cs : List F) : Chained 1 (newCircuit (mimcWiring toStr cs)).layers := by
  induction cs with
  | nil => trivial
  | cons c cs ih =>
    cases cs with
    | nil => exact ⟨last_bGInputs _ _, trivial⟩
    | cons d cs => exact ⟨mid_bGInputs _ _, by rw [mid_bGOutputs]; exact ih⟩

theorem mimcWiring_forall (toStr : F → String) (P : List (Wire F) → Prop) (h1 : ∀ c, P (mimcMidWires toStr c))
    (h2 : ∀ c, P (mimcLastWires toStr c)) (cs : List F) : ∀ ws ∈ mimcWiring toStr cs, P ws := by
  induction cs with
  | nil => intro ws h; cases h
  | cons c cs ih =>
    cases cs with
    | nil =>
      intro ws h
      rw [mimcWiring, List.mem_singleton] at h
      exact h ▸ h2 c
    | cons d cs =>
      intro ws h
      rw [mimcWiring] at h
      rcases List.mem_cons.1 h with h | h
      · exact h ▸ h1 c
      · exact ih ws h

theorem mimcWiring_R (toStr : F → String) (cs : List F) : ∀ ws ∈ mimcWiring toStr cs, ∀ w ∈ ws, w.R = 0 := by
  apply mimcWiring_forall
  · intro c w hw
    simp only [mimcMidWires, List.mem_cons, List.not_mem_nil, or_false] at hw
    rcases hw with rfl | rfl <;> rfl
  · intro c w hw
    simp only [mimcLastWires, List.mem_cons, List.not_mem_nil, or_false] at hw
    subst hw; rfl

theorem cipher_ne_copy (s : String) : "CipherGate-" ++ s ≠ "CopyGate" := by
  intro h
  have := congrArg (fun t => t.toList[1]?) h
  simp [String.toList_append] at this

theorem mimcWiring_good (toStr : F → String) (cs : List F) : ∀ ws ∈ mimcWiring toStr cs, GoodWires ws := by
  have deg : ∀ g : Gate F, ShippedGate toStr g → LawfulGate g ∧ g.degHL ≤ 10 ∧ g.degHR ≤ 10 ∧ g.degHPrime ≤ 10 := by
    intro g hg
    obtain ⟨_, _, _, h1, h2, h3⟩ := C11_degrees toStr g hg
    exact ⟨hg.lawful, by omega, by omega, by omega⟩
  apply mimcWiring_forall
  · intro c
    have all : ∀ w ∈ mimcMidWires toStr c, ShippedGate toStr w.gate := by
      intro w hw
      simp only [mimcMidWires, List.mem_cons, List.not_mem_nil, or_false] at hw
      rcases hw with rfl | rfl
      · exact .cipher c
      · exact .copy
    refine ⟨by simp [mimcMidWires], ?_, fun w hw => (deg _ (all w hw)).1, fun w hw => (deg _ (all w hw)).2⟩
    simp only [mimcMidWires, List.map_cons, List.map_nil, List.nodup_cons, List.mem_singleton, List.not_mem_nil,
      not_false_eq_true, List.nodup_nil, and_true, true_and]
    exact cipher_ne_copy _
  · intro c
    have all : ∀ w ∈ mimcLastWires toStr c, ShippedGate toStr w.gate := by
      intro w hw
      simp only [mimcLastWires, List.mem_cons, List.not_mem_nil, or_false] at hw
      subst hw
      exact .cipher c
    exact ⟨by simp [mimcLastWires], by simp [mimcLastWires], fun w hw => (deg _ (all w hw)).1,
      fun w hw => (deg _ (all w hw)).2⟩

/-- The values in a chunk: `v` on the first half, `b` on the second one. -/
def halves (N : Nat) (v b : Nat → F) : List F := tab N v ++ tab N b

theorem halves_low {N : Nat} {v b : Nat → F} {h : Nat} (hh : h < N) : (tab N v ++ tab N b)[h]?.getD 0 = v h := by
  rw [List.getElem?_append_left (by simp; omega), tab_getElem?, if_pos (by omega)]
  simp

theorem halves_high {N : Nat} {v b : Nat → F} {h : Nat} (hh : h < N) : (tab N v ++ tab N b)[N + h]?.getD 0 = b h := by
  rw [List.getElem?_append_right (by simp), tab_getElem?, if_pos (by simp; omega)]
  simp

theorem cipher_eval (toStr : F → String) (c vL vR : F) : (cipherGate toStr c).eval vL vR = vL + (vR + c) ^ 7 := by
  simp only [cipherGate, cipherPow]; ring

theorem mid_outputs (toStr : F → String) (c : F) (N : Nat) (v b : Nat → F) :
    wiredOutputs (mimcMidWires toStr c) N (2 ^ 1) (halves N v b) = halves N (fun h => b h + (v h + c) ^ 7) b := by
  unfold wiredOutputs
  rw [halves, show 2 ^ 1 * N = N + N by omega]
  change tab (N + N) _ = _
  rw [tab_add]
  congr 1
  · apply tab_congr
    intro h hh
    rw [Nat.div_eq_of_lt hh, Nat.mod_eq_of_lt hh]
    simp only [wiredOutput, mimcMidWires, List.filter_cons, List.filter_nil]
    simp [halves_low hh, halves_high hh, cipher_eval, halves]
  · apply tab_congr
    intro h hh
    have hN : 0 < N := by omega
    rw [Nat.add_div_left _ hN, Nat.add_mod_left, Nat.div_eq_of_lt hh, Nat.mod_eq_of_lt hh]
    simp only [wiredOutput, mimcMidWires, List.filter_cons, List.filter_nil]
    simp [halves_high hh, copyGate]

theorem last_outputs (toStr : F → String) (c : F) (N : Nat) (v b : Nat → F) :
    wiredOutputs (mimcLastWires toStr c) N (2 ^ 0) (halves N v b) = tab N (fun h => b h + (v h + c) ^ 7) := by
  unfold wiredOutputs
  rw [show 2 ^ 0 * N = N by omega]
  change tab N _ = _
  apply tab_congr
  intro h hh
  rw [Nat.div_eq_of_lt hh, Nat.mod_eq_of_lt hh]
  simp only [wiredOutput, mimcLastWires, List.filter_cons, List.filter_nil]
  simp [halves_low hh, halves_high hh, cipher_eval, halves]

/-- The last layer of the assignment. -/
theorem mimc_last (toStr : F → String) (N : Nat) (cs : List F) : ∀ (c : F) (chunks : List ((Nat → F) × (Nat → F))),
    (wiredAssignment N (newCircuit (mimcWiring toStr (c :: cs))).layers
      (chunks.map fun p => halves N p.1 p.2)).getLast? =
    some (chunks.map fun p => tab N fun h => (c :: cs).foldl (fun v c => p.2 h + (v + c) ^ 7) (p.1 h)) := by
  induction cs with
  | nil =>
    intro c chunks
    simp only [mimcWiring, newCircuit, List.map_cons, List.map_nil, wiredAssignment, last_bGOutputs]
    rw [List.getLast?_cons_cons, List.getLast?_singleton, List.map_map]
    congr 1
    apply List.map_congr_left
    intro p _
    exact last_outputs toStr c N p.1 p.2
  | cons d cs ih =>
    intro c chunks
    have e : (newCircuit (mimcWiring toStr (c :: d :: cs))).layers =
        newLayer (mimcMidWires toStr c) :: (newCircuit (mimcWiring toStr (d :: cs))).layers := rfl
    rw [e, wiredAssignment, mid_bGOutputs]
    have hne : ∀ (ls : List (Layer F)) (cur : List (List F)), wiredAssignment N ls cur ≠ [] := by
      intro ls cur; cases ls <;> simp [wiredAssignment]
    have hl : ∀ (a : List (List F)) (l : List (List (List F))), l ≠ [] → (a :: l).getLast? = l.getLast? := by
      intro a l h
      cases l with
      | nil => exact absurd rfl h
      | cons b l => rw [List.getLast?_cons_cons]
    rw [hl _ _ (hne _ _)]
    have step : (chunks.map fun p => halves N p.1 p.2).map
        (wiredOutputs (newLayer (mimcMidWires toStr c)).wires N (2 ^ 1)) =
        (chunks.map fun p => ((fun h => p.2 h + (p.1 h + c) ^ 7), p.2)).map fun p => halves N p.1 p.2 := by
      rw [List.map_map, List.map_map]
      apply List.map_congr_left
      intro p _
      exact mid_outputs toStr c N p.1 p.2
    rw [step, ih, List.map_map]
    rfl

/-- The rounds of the circuit compute MiMC, shifted by the block. -/
theorem rounds_cipher (cs : List F) (b : F) : ∀ s, cs.foldl (fun v c => b + (v + c) ^ 7) (s + b) = mimcCipher cs b s + b := by
  induction cs with
  | nil => intro s; rfl
  | cons c cs ih =>
    intro s
    have : b + (s + b + c) ^ 7 = (s + b + c) ^ 7 + b := add_comm _ _
    rw [List.foldl_cons, this, ih]
    rfl

end GkrMimc
