import Verif.Proofs.Gates
import Verif.Proofs.Eq
import Verif.Spec.Circuit

/-! Layers: evaluation, static tables. -/

set_option linter.unusedSectionVars false

namespace GkrMimc

open Spec Finset

variable {F : Type} [Field F]

theorem modIdx_tab_add {n i : Nat} {f : Nat → F} {v : F} (h : i < n) :
    modIdx (tab n f) i (fun x => x + v) = .ok (tab n (f + Pi.single i v)) := by
  rw [modIdx_tab h]
  congr 1
  apply tab_congr
  intro j _
  rw [Function.update_apply, Pi.add_apply, Pi.single_apply]
  split
  · subst_vars; rfl
  · simp

theorem list_sum_apply {α : Type} (xs : List α) (c : α → Nat → F) (j : Nat) :
    (xs.map c).sum j = (xs.map (fun x => c x j)).sum := by
  induction xs with
  | nil => rfl
  | cons x xs ih => simp [ih]

theorem list_sum_ite {α : Type} (xs : List α) (p : α → Prop) [DecidablePred p] (c : α → F) :
    (xs.map (fun x => if p x then c x else 0)).sum = ((xs.filter (fun x => p x)).map c).sum := by
  induction xs with
  | nil => rfl
  | cons x xs ih =>
    by_cases h : p x <;> simp [h, ih]

theorem list_sum_congr {α : Type} (xs : List α) (c d : α → F) (h : ∀ x ∈ xs, c x = d x) :
    (xs.map c).sum = (xs.map d).sum := by
  rw [List.map_congr_left h]

theorem list_sum_finset {α ι : Type} (xs : List α) (s : Finset ι) (c : α → ι → F) :
    (xs.map (fun x => ∑ i ∈ s, c x i)).sum = ∑ i ∈ s, (xs.map (fun x => c x i)).sum := by
  induction xs with
  | nil => simp
  | cons x xs ih => simp [ih, Finset.sum_add_distrib]

theorem list_sum_mul_right {α : Type} (xs : List α) (c : α → F) (a : F) :
    (xs.map (fun x => c x * a)).sum = (xs.map c).sum * a := by
  induction xs with
  | nil => simp
  | cons x xs ih => simp [ih, add_mul]

/-- What one goroutine of `Evaluate` computes: the right operand is read at `R*N*N+h`. -/
def actualOutput (wires : List (Wire F)) (N : Nat) (inp : List F) (O h : Nat) : F :=
  (wires.map fun w => if w.O = O then
    w.gate.eval (inp.getD (w.L * N + h) 0) (inp.getD (w.R * N * N + h) 0) else 0).sum

theorem div_mod_lt {O N h j : Nat} (hh : h < N) : (j = O * N + h) ↔ (j / N = O ∧ j % N = h) := by
  constructor
  · rintro rfl
    constructor
    · rw [mul_comm, Nat.mul_add_div (by omega), Nat.div_eq_of_lt hh, add_zero]
    · rw [mul_comm, Nat.mul_add_mod, Nat.mod_eq_of_lt hh]
  · rintro ⟨rfl, rfl⟩
    rw [Nat.div_add_mod']

theorem evaluateChunk_eq (l : Layer F) (inp : List F) (N : Nat) (hlen : inp.length = 2 ^ l.bGInputs * N)
    (hO : ∀ w ∈ l.wires, w.O < 2 ^ l.bGOutputs) (hL : ∀ w ∈ l.wires, w.L < 2 ^ l.bGInputs)
    (hR : ∀ w ∈ l.wires, ∀ h < N, w.R * N * N + h < inp.length) :
    evaluateChunk l inp = .ok (tab (N * 2 ^ l.bGOutputs) (fun j => actualOutput l.wires N inp (j / N) (j % N))) := by
  unfold evaluateChunk
  have hN : inp.length / 1 <<< l.bGInputs = N := by
    rw [hlen, Nat.shiftLeft_eq, one_mul, Nat.mul_div_cancel_left _ (Nat.two_pow_pos _)]
  simp only [hN]
  rw [Nat.shiftLeft_eq, one_mul, replicate_eq_tab]
  have key := forEach_acc (M := Nat → F) (mk := tab (N * 2 ^ l.bGOutputs))
    (body := fun (w : Wire F) subRes => forN N subRes fun h subRes => do
      let vL ← idx inp (w.L * N + h)
      let vR ← idx inp (w.R * N * N + h)
      modIdx subRes (w.O * N + h) (fun x => x + w.gate.eval vL vR))
    (fun w => ∑ h ∈ range N, Pi.single (w.O * N + h)
      (w.gate.eval (inp.getD (w.L * N + h) 0) (inp.getD (w.R * N * N + h) 0)))
    l.wires (fun _ => 0) (by
      intro w hw m
      refine forN_acc (M := Nat → F) (mk := tab (N * 2 ^ l.bGOutputs)) _ N m ?_
      intro h hh m
      have h1 : w.L * N + h < inp.length := by
        rw [hlen]
        calc w.L * N + h < (w.L + 1) * N := by rw [Nat.add_mul]; omega
          _ ≤ _ := Nat.mul_le_mul_right _ (hL w hw)
      have h2 := hR w hw h hh
      have h3 : w.O * N + h < N * 2 ^ l.bGOutputs := by
        calc w.O * N + h < (w.O + 1) * N := by rw [Nat.add_mul]; omega
          _ ≤ 2 ^ l.bGOutputs * N := Nat.mul_le_mul_right _ (hO w hw)
          _ = _ := mul_comm _ _
      rw [idx_ok h1, ok_bind, idx_ok h2, ok_bind, modIdx_tab_add h3]
      simp [h1, h2])
  rw [key]
  congr 1
  apply tab_congr
  intro j hj
  rw [Pi.add_apply, list_sum_apply, zero_add]
  unfold actualOutput
  apply list_sum_congr
  intro w _
  rw [Finset.sum_apply]
  have hN0 : 0 < N := by
    by_contra hc
    have : N = 0 := by omega
    subst this; simp at hj
  simp only [Pi.single_apply]
  rw [Finset.sum_congr rfl (g := fun h => if h = j % N then (if w.O = j / N then
    w.gate.eval (inp.getD (w.L * N + j % N) 0) (inp.getD (w.R * N * N + j % N) 0) else 0) else 0)]
  · rw [Finset.sum_ite_eq' (range N) (j % N)]
    simp [Nat.mod_lt j hN0]
  · intro h hh
    have hh := mem_range.1 hh
    have := div_mod_lt (O := w.O) (N := N) (h := h) (j := j) hh
    by_cases h1 : h = j % N
    · subst h1
      by_cases h2 : w.O = j / N
      · rw [if_pos (this.2 ⟨h2.symm, rfl⟩), if_pos rfl, if_pos h2]
      · rw [if_neg (fun hc => h2 (this.1 hc).1.symm), if_pos rfl, if_neg h2]
    · rw [if_neg (fun hc => h1 (this.1 hc).2.symm), if_neg h1]

/-- When the right operand is input 0, or there is one instance per chunk, the layer evaluates as wired. -/
theorem actualOutput_eq_wired (wires : List (Wire F)) (N : Nat) (inp : List F)
    (h : ∀ w ∈ wires, w.R = 0 ∨ N = 1) (O j : Nat) :
    actualOutput wires N inp O j = wiredOutput wires N inp O j := by
  unfold actualOutput wiredOutput
  rw [← list_sum_ite]
  apply list_sum_congr
  intro w hw
  have : w.R * N * N = w.R * N := by
    rcases h w hw with h | h <;> simp [h]
  rw [this]

/-- All wires of the layer are inside its dimensions. -/
def Layer.InRange (l : Layer F) : Prop :=
  ∀ w ∈ l.wires, w.L < 2 ^ l.bGInputs ∧ w.R < 2 ^ l.bGInputs ∧ w.O < 2 ^ l.bGOutputs

theorem lt_pow_log2Ceil (n : Nat) : n < 2 ^ log2Ceil ((n + 1 : Nat) : Int) := by
  obtain ⟨_, h2⟩ := log2Floor_spec (a := ((n + 1 : Nat) : Int)) (by omega)
  have : ((n + 1 : Nat) : Int) ≤ 2 ^ log2Ceil ((n + 1 : Nat) : Int) := by
    unfold log2Ceil
    simp only
    split
    · exact h2.le
    · rename_i heq
      have heq := not_not.1 heq
      rw [Nat.shiftLeft_eq, one_mul] at heq
      rw [heq, log2Floor_pow]; push_cast; exact le_rfl
  have h3 : n + 1 ≤ 2 ^ log2Ceil ((n + 1 : Nat) : Int) := by exact_mod_cast this
  omega

theorem foldl_maxO (wires : List (Wire F)) : ∀ r : Nat,
    r ≤ wires.foldl (fun res w => if res < w.O then w.O else res) r ∧
    ∀ w ∈ wires, w.O ≤ wires.foldl (fun res w => if res < w.O then w.O else res) r := by
  induction wires with
  | nil => intro r; simp
  | cons a ws ih =>
    intro r
    obtain ⟨h1, h2⟩ := ih (if r < a.O then a.O else r)
    rw [List.foldl_cons]
    constructor
    · refine le_trans ?_ h1; split <;> omega
    · intro w hw
      rcases List.mem_cons.1 hw with rfl | hw
      · refine le_trans ?_ h1; split <;> omega
      · exact h2 w hw

theorem foldl_maxLR (wires : List (Wire F)) : ∀ r : Nat,
    let f := fun (res : Nat) (w : Wire F) =>
      let res := if res < w.L then w.L else res
      if res < w.R then w.R else res
    r ≤ wires.foldl f r ∧ ∀ w ∈ wires, w.L ≤ wires.foldl f r ∧ w.R ≤ wires.foldl f r := by
  induction wires with
  | nil => intro r; simp
  | cons a ws ih =>
    intro r f
    obtain ⟨h1, h2⟩ := ih (f r a)
    rw [List.foldl_cons]
    have hf : r ≤ f r a ∧ a.L ≤ f r a ∧ a.R ≤ f r a := by
      simp only [f]; split <;> split <;> omega
    refine ⟨hf.1.trans h1, ?_⟩
    intro w hw
    rcases List.mem_cons.1 hw with rfl | hw
    · exact ⟨hf.2.1.trans h1, hf.2.2.trans h1⟩
    · exact h2 w hw

theorem newLayer_inRange (wires : List (Wire F)) : (newLayer wires).InRange := by
  intro w hw
  have h1 := (foldl_maxO wires 0).2 w hw
  have h2 := (foldl_maxLR wires 0).2 w hw
  refine ⟨lt_of_le_of_lt h2.1 (lt_pow_log2Ceil _), lt_of_le_of_lt h2.2 (lt_pow_log2Ceil _),
    lt_of_le_of_lt h1 (lt_pow_log2Ceil _)⟩

theorem evaluateChunk_wired (l : Layer F) (hr : l.InRange) (inp : List F) (N : Nat)
    (hlen : inp.length = 2 ^ l.bGInputs * N) (h : ∀ w ∈ l.wires, w.R = 0 ∨ N = 1) :
    evaluateChunk l inp = .ok (wiredOutputs l.wires N (2 ^ l.bGOutputs) inp) := by
  rw [evaluateChunk_eq l inp N hlen (fun w hw => (hr w hw).2.2) (fun w hw => (hr w hw).1)]
  · rw [mul_comm]
    congr 1
    unfold wiredOutputs
    apply tab_congr
    intro j _
    exact actualOutput_eq_wired l.wires N inp h _ _
  · intro w hw i hi
    have : w.R * N * N = w.R * N := by rcases h w hw with h | h <;> simp [h]
    rw [this, hlen]
    calc w.R * N + i < (w.R + 1) * N := by rw [Nat.add_mul]; omega
      _ ≤ _ := Nat.mul_le_mul_right _ (hr w hw).2.1

theorem rawStaticTable_eq (l : Layer F) (hr : l.InRange) (gate : Gate F) :
    rawStaticTable l gate = .ok (tab (2 ^ l.bGOutputs * 2 ^ (2 * l.bGInputs)) (fun j =>
      (l.wires.map fun w => if w.gate.id = gate.id ∧
        j = 2 ^ (2 * l.bGInputs) * w.O + 2 ^ l.bGInputs * w.L + w.R then (1 : F) else 0).sum)) := by
  unfold rawStaticTable
  simp only [Nat.shiftLeft_eq, one_mul]
  rw [replicate_eq_tab]
  have key := forEach_acc (M := Nat → F) (mk := tab (2 ^ l.bGOutputs * 2 ^ (2 * l.bGInputs)))
    (body := fun (w : Wire F) t =>
      if w.gate.id = gate.id then modIdx t (2 ^ (2 * l.bGInputs) * w.O + 2 ^ l.bGInputs * w.L + w.R) (fun x => x + 1)
      else .ok t)
    (fun w => if w.gate.id = gate.id then
      Pi.single (2 ^ (2 * l.bGInputs) * w.O + 2 ^ l.bGInputs * w.L + w.R) 1 else 0)
    l.wires (fun _ => 0) (by
      intro w hw m
      obtain ⟨h1, h2, h3⟩ := hr w hw
      split
      · apply modIdx_tab_add
        have e : 2 ^ (2 * l.bGInputs) = 2 ^ l.bGInputs * 2 ^ l.bGInputs := by rw [← pow_add]; congr 1; omega
        have a1 : 2 ^ l.bGInputs * w.L + w.R < 2 ^ (2 * l.bGInputs) := by
          rw [e]
          calc 2 ^ l.bGInputs * w.L + w.R < 2 ^ l.bGInputs * (w.L + 1) := by rw [Nat.mul_add]; omega
            _ ≤ _ := Nat.mul_le_mul_left _ h1
        calc 2 ^ (2 * l.bGInputs) * w.O + 2 ^ l.bGInputs * w.L + w.R
            < 2 ^ (2 * l.bGInputs) * (w.O + 1) := by rw [Nat.mul_add]; omega
          _ ≤ 2 ^ (2 * l.bGInputs) * 2 ^ l.bGOutputs := Nat.mul_le_mul_left _ h3
          _ = _ := mul_comm _ _
      · simp)
  rw [key]
  congr 1
  apply tab_congr
  intro j _
  rw [Pi.add_apply, list_sum_apply, zero_add]
  apply list_sum_congr
  intro w _
  by_cases h : w.gate.id = gate.id
  · simp [h, Pi.single_apply]
  · simp [h]

theorem staticIndex_iff {O L R O' L' R' : Nat} (G : Nat) (hL : L < 2 ^ G) (hR : R < 2 ^ G) (hL' : L' < 2 ^ G)
    (hR' : R' < 2 ^ G) :
    O' * 2 ^ (2 * G) + (L' * 2 ^ G + R') = 2 ^ (2 * G) * O + 2 ^ G * L + R ↔ O = O' ∧ L = L' ∧ R = R' := by
  have e : 2 ^ (2 * G) = 2 ^ G * 2 ^ G := by rw [← pow_add]; congr 1; omega
  constructor
  · intro h
    have h1 : (O' * 2 ^ G + L') * 2 ^ G + R' = (O * 2 ^ G + L) * 2 ^ G + R := by
      rw [e] at h; nlinarith [h]
    have a := (div_mod_lt (O := O * 2 ^ G + L) (N := 2 ^ G) (j := (O' * 2 ^ G + L') * 2 ^ G + R') hR).1 h1
    have b := (div_mod_lt (O := O' * 2 ^ G + L') (N := 2 ^ G) (j := (O' * 2 ^ G + L') * 2 ^ G + R') hR').1 rfl
    have c : O' * 2 ^ G + L' = O * 2 ^ G + L := b.1.symm.trans a.1
    have a2 := (div_mod_lt (O := O) (N := 2 ^ G) (j := O' * 2 ^ G + L') hL).1 c
    have b2 := (div_mod_lt (O := O') (N := 2 ^ G) (j := O' * 2 ^ G + L') hL').1 rfl
    exact ⟨by rw [← a2.1, b2.1], by rw [← a2.2, b2.2], by rw [← a.2, b.2]⟩
  · rintro ⟨rfl, rfl, rfl⟩; ring

/-- The folded table of a gate. -/
theorem staticTable_eq (l : Layer F) (hr : l.InRange) (q : List F) (hq : q.length = l.bGOutputs) (gate : Gate F) :
    (do let t ← rawStaticTable l gate; return q.foldl fold t : Go (Table F)) =
      .ok (tab (2 ^ (2 * l.bGInputs)) (fun u =>
        (l.wires.map fun w => if w.gate.id = gate.id ∧ u = 2 ^ l.bGInputs * w.L + w.R then chi q w.O else 0).sum)) := by
  rw [rawStaticTable_eq l hr gate, ok_bind]
  simp only [go_pure]
  rw [← hq, foldl_fold_tab]
  congr 1
  apply tab_congr
  intro u hu
  unfold mleF
  simp only [← list_sum_mul_right]
  rw [← list_sum_finset]
  apply list_sum_congr
  intro w hw
  obtain ⟨h1, h2, h3⟩ := hr w hw
  have hdiv : u / 2 ^ l.bGInputs < 2 ^ l.bGInputs := by
    rw [Nat.div_lt_iff_lt_mul (Nat.two_pow_pos _), ← pow_add, ← two_mul]; exact hu
  have hmod : u % 2 ^ l.bGInputs < 2 ^ l.bGInputs := Nat.mod_lt _ (Nat.two_pow_pos _)
  have hu' : u = u / 2 ^ l.bGInputs * 2 ^ l.bGInputs + u % 2 ^ l.bGInputs := (Nat.div_add_mod' _ _).symm
  have hiff : ∀ i, (i * 2 ^ (2 * l.bGInputs) + u = 2 ^ (2 * l.bGInputs) * w.O + 2 ^ l.bGInputs * w.L + w.R) ↔
      (w.O = i ∧ u = 2 ^ l.bGInputs * w.L + w.R) := by
    intro i
    have s1 := staticIndex_iff (O := w.O) (L := w.L) (R := w.R) (O' := i) l.bGInputs h1 h2 hdiv hmod
    rw [← hu'] at s1
    rw [s1]
    have s2 := div_mod_lt (O := w.L) (N := 2 ^ l.bGInputs) (j := u) h2
    rw [mul_comm (2 ^ l.bGInputs) w.L, s2]
    constructor
    · rintro ⟨a, b, c⟩; exact ⟨a, b.symm, c.symm⟩
    · rintro ⟨a, b, c⟩; exact ⟨a, b.symm, c.symm⟩
  simp only [hiff, ite_mul, one_mul, zero_mul]
  by_cases h : w.gate.id = gate.id ∧ u = 2 ^ l.bGInputs * w.L + w.R
  · rw [if_pos h, Finset.sum_eq_single w.O]
    · rw [if_pos ⟨h.1, rfl, h.2⟩]
    · intro i _ hi; rw [if_neg]; rintro ⟨_, h', _⟩; exact hi h'.symm
    · intro hc; simp only [mem_range, not_lt] at hc; rw [hq] at hc; omega
  · rw [if_neg h]
    apply Finset.sum_eq_zero
    intro i _
    rw [if_neg]; rintro ⟨a, _, b⟩; exact h ⟨a, b⟩

/-- The entry of a static table as a function of the two input wires. -/
def staticF (wires : List (Wire F)) (id : String) (q : List F) (G u : Nat) : F :=
  (wires.map fun w => if w.gate.id = id ∧ u = 2 ^ G * w.L + w.R then chi q w.O else 0).sum

theorem getStaticTable_eq (l : Layer F) (hr : l.InRange) (q : List F) (hq : q.length = l.bGOutputs) :
    getStaticTable l q = .ok (l.gates.map fun g =>
      tab (2 ^ (2 * l.bGInputs)) (staticF l.wires g.id q l.bGInputs)) := by
  unfold getStaticTable
  apply mapGo_ok
  intro g _
  exact staticTable_eq l hr q hq g

theorem staticF_eq_coeff (l : Layer F) (hr : l.InRange) (q : List F) (hq : q.length = l.bGOutputs) (id : String)
    (L R : Nat) (hR : R < 2 ^ l.bGInputs) :
    staticF l.wires id q l.bGInputs (L * 2 ^ l.bGInputs + R) = staticCoeff l.wires id q L R := by
  unfold staticF staticCoeff
  rw [← list_sum_ite]
  apply list_sum_congr
  intro w hw
  obtain ⟨h1, h2, h3⟩ := hr w hw
  rw [chi_eq_eqPoly q (by rw [hq]; exact h3)]
  have s2 := div_mod_lt (O := w.L) (N := 2 ^ l.bGInputs) (j := L * 2 ^ l.bGInputs + R) h2
  have s3 := (div_mod_lt (O := L) (N := 2 ^ l.bGInputs) (j := L * 2 ^ l.bGInputs + R) hR).1 rfl
  rw [s3.1, s3.2] at s2
  rw [mul_comm (2 ^ l.bGInputs) w.L]
  have : (w.gate.id = id ∧ L = w.L ∧ R = w.R) ↔ (w.gate.id = id ∧ w.L = L ∧ w.R = R) := by
    constructor <;> rintro ⟨a, b, c⟩ <;> exact ⟨a, b.symm, c.symm⟩
  simp only [s2, this]

end GkrMimc
