import Verif.Proofs.MachTables

/-! The layers of a circuit on 64 bits. -/

namespace GkrMimc

set_option linter.unusedSectionVars false

variable {F : Type} [Field F]

/-- The wires stay within the sizes of the layer. -/
def WiresIn (l : Layer F) : Prop :=
  ∀ w ∈ l.wires, w.L < 2 ^ l.bGInputs ∧ w.R < 2 ^ l.bGInputs ∧ w.O < 2 ^ l.bGOutputs

theorem rawStaticTableW_eq {lim : Nat} (hl : lim ≤ 2 ^ 61) (l : Layer F) (gate : Gate F) (hw : WiresIn l)
    (h : 2 ^ l.bGOutputs * 2 ^ (2 * l.bGInputs) ≤ lim) : rawStaticTableW lim l gate = rawStaticTable l gate := by
  have p1 : 0 < 2 ^ l.bGOutputs := by positivity
  have p2 : 0 < 2 ^ (2 * l.bGInputs) := by positivity
  have h1 : 2 ^ l.bGOutputs ≤ lim := le_trans (Nat.le_mul_of_pos_right _ p2) h
  have h2 : 2 ^ (2 * l.bGInputs) ≤ lim := le_trans (Nat.le_mul_of_pos_left _ p1) h
  have h3 : 2 ^ l.bGInputs ≤ 2 ^ (2 * l.bGInputs) := Nat.pow_le_pow_right (by norm_num) (by omega)
  have b1 := pow_lt_63 (by omega : lim < 2 ^ 63) h1
  have b2 := pow_lt_63 (by omega : lim < 2 ^ 63) h2
  unfold rawStaticTableW rawStaticTable
  dsimp only
  rw [wMul_eq (by omega) (by omega) (by omega), wShl_eq (by omega) (by omega) (by omega), wShl_eq (by omega) (by omega) (by omega),
    wShl_eq (by omega) (by omega) (by omega)]
  simp only [ok_bind, Nat.shiftLeft_eq, one_mul]
  rw [wMul_eq (by omega) (by omega) (by omega), wMake_eq (by omega) h]
  simp only [ok_bind]
  refine forEach_congr _ _ (fun w hw' s => ?_)
  obtain ⟨a, b, c⟩ := hw w hw'
  split
  · have e1 : 2 ^ (2 * l.bGInputs) * w.O + 2 ^ (2 * l.bGInputs) ≤ lim := by
      calc 2 ^ (2 * l.bGInputs) * w.O + 2 ^ (2 * l.bGInputs) = (w.O + 1) * 2 ^ (2 * l.bGInputs) := by ring
        _ ≤ 2 ^ l.bGOutputs * 2 ^ (2 * l.bGInputs) := Nat.mul_le_mul_right _ (by omega)
        _ ≤ lim := h
    have e2 : 2 ^ l.bGInputs * w.L + 2 ^ l.bGInputs ≤ 2 ^ (2 * l.bGInputs) := by
      calc 2 ^ l.bGInputs * w.L + 2 ^ l.bGInputs = 2 ^ l.bGInputs * (w.L + 1) := by ring
        _ ≤ 2 ^ l.bGInputs * 2 ^ l.bGInputs := Nat.mul_le_mul_left _ (by omega)
        _ = 2 ^ (2 * l.bGInputs) := by rw [← pow_add]; congr 1; omega
    rw [wMul_eq (a := 2 ^ (2 * l.bGInputs)) (by omega) (by omega) (by omega), wMul_eq (a := 2 ^ l.bGInputs) (by omega) (by omega) (by omega),
      wAdd_eq (a := 2 ^ (2 * l.bGInputs) * w.O) (b := 2 ^ l.bGInputs * w.L) (by omega), wAdd_eq (by omega)]
  · rfl

theorem getStaticTableW_eq {lim : Nat} (hl : lim ≤ 2 ^ 61) (l : Layer F) (q : List F) (hw : WiresIn l)
    (h : 2 ^ l.bGOutputs * 2 ^ (2 * l.bGInputs) ≤ lim) : getStaticTableW lim l q = getStaticTable l q := by
  unfold getStaticTableW getStaticTable
  exact mapGo_congr (fun g _ => by rw [rawStaticTableW_eq hl l g hw h])

theorem foldlO_eq (wires : List (Wire F)) : ∀ (r : Nat), r ≤ 2 ^ 62 → (∀ w ∈ wires, w.O ≤ 2 ^ 62) →
    wires.foldl (fun res w => if sgn res < sgn w.O then w.O else res) r =
      wires.foldl (fun res w => if res < w.O then w.O else res) r ∧
    wires.foldl (fun res w => if res < w.O then w.O else res) r ≤ 2 ^ 62 := by
  induction wires with
  | nil => intro r hr _; exact ⟨rfl, hr⟩
  | cons w ws ih =>
    intro r hr h
    have hw := h w (by simp)
    simp only [List.foldl_cons]
    rw [sgn_nat (by omega), sgn_nat (by omega)]
    by_cases hlt : r < w.O
    · rw [if_pos (by omega), if_pos hlt]
      exact ih _ hw (fun v hv => h v (by simp [hv]))
    · rw [if_neg (by omega), if_neg hlt]
      exact ih _ hr (fun v hv => h v (by simp [hv]))

theorem foldlI_eq (wires : List (Wire F)) : ∀ (r : Nat), r ≤ 2 ^ 62 → (∀ w ∈ wires, w.L ≤ 2 ^ 62 ∧ w.R ≤ 2 ^ 62) →
    wires.foldl (fun res w =>
      let res := if sgn res < sgn w.L then w.L else res
      if sgn res < sgn w.R then w.R else res) r =
      wires.foldl (fun res w =>
        let res := if res < w.L then w.L else res
        if res < w.R then w.R else res) r ∧
    wires.foldl (fun res w =>
        let res := if res < w.L then w.L else res
        if res < w.R then w.R else res) r ≤ 2 ^ 62 := by
  induction wires with
  | nil => intro r hr _; exact ⟨rfl, hr⟩
  | cons w ws ih =>
    intro r hr h
    obtain ⟨hL, hR⟩ := h w (by simp)
    have e : ∀ a b : Nat, a ≤ 2 ^ 62 → b ≤ 2 ^ 62 → (if sgn a < sgn b then b else a) = if a < b then b else a := by
      intro a b ha hb
      rw [sgn_nat (by omega), sgn_nat (by omega)]
      by_cases hlt : a < b
      · rw [if_pos (by omega), if_pos hlt]
      · rw [if_neg (by omega), if_neg hlt]
    have e2 : ∀ a b : Nat, a ≤ 2 ^ 62 → b ≤ 2 ^ 62 → (if a < b then b else a) ≤ 2 ^ 62 := by
      intro a b ha hb; split <;> assumption
    simp only [List.foldl_cons]
    rw [e r w.L hr hL, e _ w.R (e2 r w.L hr hL) hR]
    exact ih _ (e2 _ _ (e2 r w.L hr hL) hR) (fun v hv => h v (by simp [hv]))

/-- `NewLayer` on 64 bits. -/
theorem newLayerW_eq (wires : List (Wire F)) (h : ∀ w ∈ wires, w.L ≤ 2 ^ 62 ∧ w.R ≤ 2 ^ 62 ∧ w.O ≤ 2 ^ 62) :
    newLayerW wires = .ok (newLayer wires) := by
  obtain ⟨a1, a2⟩ := foldlI_eq wires 0 (by omega) (fun w hw => ⟨(h w hw).1, (h w hw).2.1⟩)
  obtain ⟨b1, b2⟩ := foldlO_eq wires 0 (by omega) (fun w hw => (h w hw).2.2)
  unfold newLayerW bGInputsOfW bGOutputsOfW
  rw [a1, b1, wAdd_eq (by omega), wAdd_eq (by omega), log2CeilW_nat (by omega), log2CeilW_nat (by omega)]
  rfl

/-- The machine version of the body of one goroutine of `Evaluate`. The last condition is about the index `wRN*N+h`. -/
theorem evaluateChunkW_eq {lim : Nat} (hl : lim ≤ 2 ^ 61) (l : Layer F) (inps : List F) (hw : WiresIn l)
    (hi : inps.length ≤ 2 ^ 61) (hbi : l.bGInputs ≤ 61) (hbo : l.bGOutputs ≤ 61)
    (h : inps.length / 2 ^ l.bGInputs * 2 ^ l.bGOutputs ≤ lim)
    (hR : ∀ w ∈ l.wires, w.R * (inps.length / 2 ^ l.bGInputs) * (inps.length / 2 ^ l.bGInputs) ≤ 2 ^ 62) :
    evaluateChunkW lim l inps = evaluateChunk l inps := by
  have p1 : 0 < 2 ^ l.bGInputs := by positivity
  have h1 : 2 ^ l.bGInputs ≤ 2 ^ 61 := Nat.pow_le_pow_right (by norm_num) hbi
  have h2 : 2 ^ l.bGOutputs ≤ 2 ^ 61 := Nat.pow_le_pow_right (by norm_num) hbo
  unfold evaluateChunkW evaluateChunk
  dsimp only
  rw [wShl_eq (by omega) (by omega) (by omega), wShl_eq (by omega) (by omega) (by omega)]
  simp only [ok_bind, Nat.shiftLeft_eq, one_mul]
  rw [wDiv_eq (by omega) (by omega)]
  unfold goDiv
  rw [if_neg (by omega)]
  simp only [ok_bind]
  have d1 : inps.length / 2 ^ l.bGInputs * 2 ^ l.bGInputs ≤ inps.length := Nat.div_mul_le_self _ _
  have d2 : inps.length / 2 ^ l.bGInputs ≤ inps.length := Nat.div_le_self _ _
  generalize inps.length / 2 ^ l.bGInputs = N at *
  rw [wMul_eq (by omega) (by omega) (by omega), wMake_eq (by omega) h]
  simp only [ok_bind]
  refine forEach_congr _ _ (fun w hw' s => ?_)
  obtain ⟨a, b, c⟩ := hw w hw'
  have r0 := hR w hw'
  have e1 : w.O * N ≤ lim := le_trans (by rw [Nat.mul_comm N]; exact Nat.mul_le_mul_right _ (by omega)) h
  have e2 : w.L * N ≤ inps.length := le_trans (by rw [Nat.mul_comm N]; exact Nat.mul_le_mul_right _ (by omega)) d1
  have e3 : w.R * N ≤ inps.length := le_trans (by rw [Nat.mul_comm N]; exact Nat.mul_le_mul_right _ (by omega)) d1
  rw [wMul_eq (a := w.O) (by omega) (by omega) (by omega), wMul_eq (a := w.L) (by omega) (by omega) (by omega),
    wMul_eq (a := w.R) (by omega) (by omega) (by omega), wMul_eq (a := w.R * N) (by omega) (by omega) (by omega), wIter_eq (by omega)]
  refine forN_congr _ _ (fun k hk s => ?_)
  rw [wAdd_eq (by omega), wAdd_eq (by omega), wAdd_eq (by omega)]

theorem evaluateW_eq {lim : Nat} (hl : lim ≤ 2 ^ 61) (l : Layer F) (inputs : List (List F)) (nCore : Int) (hw : WiresIn l)
    (hbi : l.bGInputs ≤ 61) (hbo : l.bGOutputs ≤ 61)
    (h : ∀ inps ∈ inputs, inps.length ≤ 2 ^ 61 ∧ inps.length / 2 ^ l.bGInputs * 2 ^ l.bGOutputs ≤ lim ∧
      ∀ w ∈ l.wires, w.R * (inps.length / 2 ^ l.bGInputs) * (inps.length / 2 ^ l.bGInputs) ≤ 2 ^ 62) :
    l.evaluateW lim inputs nCore = l.evaluate inputs nCore := by
  unfold Layer.evaluateW Layer.evaluate
  refine bind_congr_go (fun _ _ => mapGo_congr (fun inps hm => ?_))
  obtain ⟨h1, h2, h3⟩ := h inps hm
  exact evaluateChunkW_eq hl l inps hw h1 hbi hbo h2 h3

end GkrMimc
