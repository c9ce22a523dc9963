import Verif.Model.Tests
import Verif.Props.RoundClaims

/-! Property C56: the end-to-end tests of the repository succeed for every random draw and all inputs. -/

set_option linter.unusedSectionVars false

namespace GkrMimc

open Spec

theorem bits_zero_eq (n : Nat) : (bits n 0 : List Fr) = List.replicate n 0 := by
  apply List.ext_getElem
  · simp
  · intro i h1 h2
    simp [bits]

theorem idx2_some {α : Type} {s : List (List α)} {i j : Nat} {r : List α} {x : α} (h1 : s[i]? = some r) (h2 : r[j]? = some x) :
    idx2 s i j = .ok x := by
  unfold idx2
  rw [idx_some h1, ok_bind, idx_some h2]

/-- The draws are cut into chunks of equal length. -/
theorem C56_inputs (k m : Nat) (draw : Nat → Fr) :
    ∃ inputs, randomInputs draw (2 ^ k) (m + k) = .ok inputs ∧ WellChunked k (1 + m) inputs ∧
      ∀ i < 2 ^ k, ∀ j < 2 ^ (1 + m), (inputs.getD i []).getD j 0 = draw (i * 2 ^ (1 + m) + j) := by
  have hd : goDiv (2 * 2 ^ (m + k)) (2 ^ k) = .ok (2 ^ (1 + m)) := by
    unfold goDiv
    rw [if_neg (by positivity), show 2 * 2 ^ (m + k) = 2 ^ (1 + m) * 2 ^ k by rw [← pow_add]; ring,
      Nat.mul_div_cancel _ (by positivity)]
  refine ⟨tab (2 ^ k) fun i => tab (2 ^ (1 + m)) fun j => draw (i * 2 ^ (1 + m) + j), ?_, ⟨by simp, ?_⟩, ?_⟩
  · unfold randomInputs
    dsimp only
    rw [hd, ok_bind]
    exact gen_ok _ _ fun i _ => rfl
  · intro c hc
    obtain ⟨i, _, rfl⟩ := List.mem_map.1 hc
    simp
  · intro i hi j hj
    rw [List.getD_eq_getElem?_getD (l := tab (2 ^ k) _), tab_getElem?, if_pos hi, Option.getD_some, tab_getD hj]

/-- The state and the block of the instances of a chunk of inputs. -/
def unchunk (N : Nat) (c : List Fr) : List Fr × List Fr := ((c.take N).zipWith (· - ·) (c.drop N), c.drop N)

theorem mimcChunk_unchunk {N : Nat} {c : List Fr} (h : c.length = 2 * N) : mimcChunk (unchunk N c) = c := by
  unfold mimcChunk unchunk
  apply List.ext_getElem
  · simp; omega
  intro i h1 h2
  by_cases hi : i < N
  · rw [List.getElem_append_left (by simp; omega)]
    simp
  · rw [List.getElem_append_right (by simp; omega)]
    simp only [List.length_zipWith, List.length_take, List.length_drop, List.getElem_drop]
    congr 1
    omega

/-- The values of the MiMC circuit: what `Assign` gives, and the outputs. -/
theorem mimc_run_values (m : Nat) (inputs : List (List Fr)) (hin : ∀ c ∈ inputs, c.length = 2 ^ (1 + m)) (nCore : Int)
    (hc : 1 ≤ nCore) : (newCircuit (mimcWiring frString (arks.take 91))).assign inputs nCore =
      .ok (wiredAssignment (2 ^ m) (newCircuit (mimcWiring frString (arks.take 91))).layers inputs) ∧
    (wiredAssignment (2 ^ m) (newCircuit (mimcWiring frString (arks.take 91))).layers inputs).getLast? =
      some (inputs.map fun c => mimcExpected (unchunk (2 ^ m) c)) := by
  have h1 := C12_assign_partial (mimcWiring frString (arks.take 91)) 1 (2 ^ m) inputs nCore hc (mimcWiring_chained _ _)
    (fun ws h w hw => .inl (mimcWiring_R _ _ ws h w hw)) (by intro c hcm; rw [hin c hcm, pow_add])
  refine ⟨h1, ?_⟩
  obtain ⟨c, values, g1, g2, g3⟩ := C27_circuit (2 ^ m) (inputs.map (unchunk (2 ^ m))) (by
    intro p hp
    obtain ⟨c, hc', rfl⟩ := List.mem_map.1 hp
    have := hin c hc'
    rw [pow_add] at this
    simp only [unchunk, List.length_zipWith, List.length_take, List.length_drop]
    omega) nCore hc
  have e : (inputs.map (unchunk (2 ^ m))).map mimcChunk = inputs := by
    rw [List.map_map]
    conv_rhs => rw [← List.map_id inputs]
    apply List.map_congr_left
    intro c hc'
    exact mimcChunk_unchunk (by rw [hin c hc', pow_add]; rfl)
  rw [mimc_circuit] at g1
  obtain rfl := Except.ok.inj g1
  rw [e, h1] at g2
  obtain rfl := Except.ok.inj g2
  rw [g3, List.map_map]
  rfl

/-- The first two layers of the assignment of a circuit with at least one layer. -/
theorem wiredAssignment_one (N : Nat) (l : Layer Fr) (ls : List (Layer Fr)) (cur : List (List Fr)) :
    (wiredAssignment N (l :: ls) cur)[1]? = some (cur.map (wiredOutputs l.wires N (2 ^ l.bGOutputs))) := by
  cases ls <;> rfl

theorem unchunk_first {N : Nat} (hN : 0 < N) {c : List Fr} (h : c.length = 2 * N) :
    (mimcExpected (unchunk N c))[0]? = some (mimcCipher (arks.take 91) (c.getD N 0) (c.getD 0 0 - c.getD N 0) + c.getD N 0) := by
  unfold mimcExpected unchunk
  generalize arks.take 91 = cs
  rw [List.getElem?_eq_getElem (by simp; omega)]
  simp only [List.getElem_zipWith, List.getElem_take, List.getElem_drop, List.getD_eq_getElem?_getD, Nat.add_zero,
    List.getElem?_eq_getElem (show 0 < c.length by omega), List.getElem?_eq_getElem (show N < c.length by omega), Option.getD_some]

/-- The first layer of the MiMC circuit on a chunk. -/
theorem mid_entries {N : Nat} (hN : 0 < N) (a : Fr) {c : List Fr} (h : c.length = 2 * N) :
    (wiredOutputs (mimcMidWires frString a) N (2 ^ 1) c)[0]? = some (c.getD N 0 + (c.getD 0 0 + a) ^ 7) ∧
    (wiredOutputs (mimcMidWires frString a) N (2 ^ 1) c)[N]? = some (c.getD N 0) := by
  have e : c = halves N (fun i => c.getD i 0) (fun i => c.getD (N + i) 0) := by
    have := eq_tab c (0 : Fr)
    rwa [h, show 2 * N = N + N by omega, tab_add] at this
  rw [e, mid_outputs, ← e]
  unfold halves
  constructor
  · rw [List.getElem?_append_left (by simp; omega), tab_getElem?, if_pos hN, Nat.add_zero]
  · rw [List.getElem?_append_right (by simp), tab_getElem?, if_pos (by simp; omega)]
    simp

/-- The combinator of the first layer on the two unit vectors. -/
theorem mid_combinator (a vL vR : Fr) :
    evaluateCombinator vL vR 1 (newLayer (mimcMidWires frString a)).gates [1, 0] = .ok (vL + (vR + a) ^ 7) ∧
    evaluateCombinator vL vR 1 (newLayer (mimcMidWires frString a)).gates [0, 1] = .ok vL := by
  have e : (newLayer (mimcMidWires frString a)).gates = [cipherGate frString a, copyGate] := rfl
  rw [e]
  constructor
  · change Except.ok _ = Except.ok _
    congr 1
    rw [cipher_eval]
    ring
  · change Except.ok _ = Except.ok _
    congr 1
    rw [show (copyGate : Gate Fr).eval vL vR = vL from rfl]
    ring

theorem mimcWiring_ends (cs : List Fr) (n : Nat) (h : cs.length = n + 2) : (mimcWiring frString cs).length = n + 2 ∧
    (∃ a, (mimcWiring frString cs)[0]? = some (mimcMidWires frString a)) ∧
    ∃ b, (mimcWiring frString cs)[n + 1]? = some (mimcLastWires frString b) := by
  obtain ⟨ini, b, rfl⟩ : ∃ ini b, cs = ini ++ [b] :=
    ⟨cs.dropLast, cs.getLast (by rintro rfl; simp at h), (List.dropLast_append_getLast _).symm⟩
  simp only [List.length_append, List.length_singleton] at h
  rw [mimcWiring_append]
  obtain ⟨a, ini, rfl⟩ : ∃ a t, ini = a :: t := by
    cases ini with
    | nil => simp at h
    | cons a t => exact ⟨a, t, rfl⟩
  simp only [List.length_cons] at h
  refine ⟨by simp; omega, ⟨a, rfl⟩, b, ?_⟩
  rw [List.getElem?_append_right (by simp; omega)]
  simp [show n + 1 - (ini.length + 1) = 0 by omega]

/-- C56. `TestMimc` for every number of chunks `2^k` with `k ≥ 1`, every number of instances and all inputs: it does not panic,
the elements of all six compared pairs are equal and the verifier accepts. -/
theorem C56_mimc (k m : Nat) (hk : 1 ≤ k) (inputs : List (List Fr)) (hin : WellChunked k (1 + m) inputs) :
    ∃ r, mimcTest mimcHash frString arks (m + k) (2 ^ k) inputs = .ok r ∧ r.pairs.length = 6 ∧
      (∀ p ∈ r.pairs, p.1 = p.2) ∧ r.accepted = true := by
  obtain ⟨hass, hlast⟩ := mimc_run_values m inputs hin.2 1 le_rfl
  obtain ⟨c, values, outputs, prover, proof, h1, h2, h3, h4, h5, h6⟩ := C22_mimc_partial k m hk inputs hin 1 1 le_rfl le_rfl
  rw [mimc_circuit] at h1
  obtain rfl := Except.ok.inj h1
  rw [hass] at h2
  obtain rfl := Except.ok.inj h2
  rw [hlast] at h3
  obtain rfl := Option.some.inj h3
  obtain ⟨chunk, rest, rfl⟩ : ∃ chunk rest, inputs = chunk :: rest := by
    cases inputs with
    | nil => exact absurd hin.1.symm (by simp)
    | cons a b => exact ⟨a, b, rfl⟩
  have hlen : chunk.length = 2 * 2 ^ m := by rw [hin.2 chunk (by simp), pow_add]; rfl
  have hN : 0 < 2 ^ m := by positivity
  have hsz : goDiv (2 * 2 ^ (m + k)) (2 ^ k) = .ok (2 * 2 ^ m) := by
    unfold goDiv
    rw [if_neg (by positivity), show 2 * 2 ^ (m + k) = 2 * 2 ^ m * 2 ^ k by rw [pow_add]; ring,
      Nat.mul_div_cancel _ (by positivity)]
  have hcl : (arks.take 91).length = 91 := by
    have := arks_length
    rw [List.length_take]; omega
  have hne : mimcWiring frString (arks.take 91) ≠ [] := by
    intro h
    rw [h] at h4
    cases h4
  have hA := honest_of_wired _ hne (mimcWiring_good frString (arks.take 91)) 1 k m (mimcWiring_chained _ _) _ hin
  have hpe := mimcPermutation_eq arks (by rw [arks_length]; omega) (chunk.getD 0 0 - chunk.getD (2 ^ m) 0) (chunk.getD (2 ^ m) 0)
  have hfirst := unchunk_first hN hlen
  have hcirc := mimc_circuit
  have hB := C55_boolean (mimcWiring frString (arks.take 91)) hne (mimcWiring_good _ _) 1 k m (mimcWiring_chained _ _) _ hin
  obtain ⟨hwl, ⟨a, ha⟩, b, hb⟩ := mimcWiring_ends (arks.take 91) 89 hcl
  generalize mimcWiring frString (arks.take 91) = wiring at *
  generalize mimcCipher (arks.take 91) = E at *
  obtain ⟨w0, ws, rfl⟩ : ∃ w0 ws, wiring = w0 :: ws := by
    cases wiring with
    | nil => exact absurd rfl hne
    | cons w0 ws => exact ⟨w0, ws, rfl⟩
  obtain rfl := Option.some.inj ha
  obtain ⟨e0, eN⟩ := mid_entries hN a hlen
  obtain ⟨k0, k1⟩ := mid_combinator a (chunk.getD (2 ^ m) 0) (chunk.getD 0 0)
  have hl0 : (newCircuit (mimcMidWires frString a :: ws)).layers[0]? = some (newLayer (mimcMidWires frString a)) := rfl
  have hl90 : (newCircuit (mimcMidWires frString a :: ws)).layers[90]? = some (newLayer (mimcLastWires frString b)) := by
    unfold newCircuit
    rw [List.getElem?_map, hb]
    rfl
  have hv1 := wiredAssignment_one (2 ^ m) (newLayer (mimcMidWires frString a)) (newCircuit ws).layers (chunk :: rest)
  rw [mid_bGOutputs] at hv1
  change (wiredAssignment (2 ^ m) (newCircuit (mimcMidWires frString a :: ws)).layers (chunk :: rest))[1]? = _ at hv1
  have hv91 : (wiredAssignment (2 ^ m) (newCircuit (mimcMidWires frString a :: ws)).layers (chunk :: rest))[91]? =
      some ((chunk :: rest).map fun c => mimcExpected (unchunk (2 ^ m) c)) := by
    have : (newCircuit (mimcMidWires frString a :: ws)).layers.length = 91 := by
      simpa [newCircuit] using hwl
    rw [← hlast, List.getLast?_eq_getElem?, hA.lengths, this]
  have hk0 : 0 < 2 ^ k := by positivity
  obtain ⟨p0, b1, ⟨pq0, b2, b3⟩, _⟩ := hB 0 _ hl0 _ hv1 0 0 0 (by simp) hN hk0 _ rfl _ (by rw [Nat.zero_mul, Nat.zero_add]; exact e0) [0] (by simp) 1 1 le_rfl le_rfl
  obtain ⟨p1, b1', ⟨pq1, b2', b3'⟩, _⟩ := hB 0 _ hl0 _ hv1 1 0 0 (by simp) hN hk0 _ rfl _ (by rw [Nat.one_mul, Nat.add_zero]; exact eN) [0] (by simp) 1 1 le_rfl le_rfl
  obtain ⟨p2, b1'', _, hlastclaim⟩ := hB 90 _ hl90 _ hv91 0 0 0 (by simp) hN hk0 _ rfl _ (by rw [Nat.zero_mul, Nat.zero_add]; exact hfirst) [] (by simp) 1 1 le_rfl le_rfl
  obtain ⟨pqi, b2'', b3''⟩ := hlastclaim hwl.symm
  obtain rfl : prover = p0 := by rw [h4] at b1; exact Except.ok.inj b1
  obtain rfl : prover = p1 := by rw [h4] at b1'; exact Except.ok.inj b1'
  obtain rfl : prover = p2 := by rw [h4] at b1''; exact Except.ok.inj b1''
  have z0 : (bits (newLayer (mimcMidWires frString a)).bGOutputs 0 : List Fr) = [0] := by rw [mid_bGOutputs]; decide
  have z1 : (bits (newLayer (mimcMidWires frString a)).bGOutputs 1 : List Fr) = [1] := by rw [mid_bGOutputs]; decide
  have z2 : (bits (newLayer (mimcLastWires frString b)).bGOutputs 0 : List Fr) = [] := by rw [last_bGOutputs]; rfl
  rw [z0, Nat.zero_mul, Nat.add_zero, bits_zero_eq] at b2
  rw [z1, Nat.zero_mul, Nat.add_zero, bits_zero_eq] at b2'
  rw [z2, Nat.zero_mul, Nat.add_zero, bits_zero_eq] at b2''
  have hc0 : chunk[0]? = some (chunk.getD 0 0) := by
    rw [List.getD_eq_getElem?_getD, List.getElem?_eq_getElem (by omega), Option.getD_some]
  have hcN : chunk[2 ^ m]? = some (chunk.getD (2 ^ m) 0) := by
    rw [List.getD_eq_getElem?_getD, List.getElem?_eq_getElem (by omega), Option.getD_some]
  generalize hexp : E (chunk.getD (2 ^ m) 0) (chunk.getD 0 0 - chunk.getD (2 ^ m) 0) + chunk.getD (2 ^ m) 0 = out at *
  refine ⟨⟨[(out, out), (chunk.getD (2 ^ m) 0 + (chunk.getD 0 0 + a) ^ 7, chunk.getD (2 ^ m) 0 + (chunk.getD 0 0 + a) ^ 7),
    (chunk.getD (2 ^ m) 0, chunk.getD (2 ^ m) 0),
    (chunk.getD (2 ^ m) 0 + (chunk.getD 0 0 + a) ^ 7, chunk.getD (2 ^ m) 0 + (chunk.getD 0 0 + a) ^ 7),
    (chunk.getD (2 ^ m) 0, chunk.getD (2 ^ m) 0), (out, out)], true⟩, ?_, rfl, ?_, rfl⟩
  · unfold mimcTest
    rw [hcirc, ok_bind, hsz, ok_bind, hass, ok_bind, idx_some hv91, ok_bind, idx2_some rfl hc0, ok_bind,
      show 2 * 2 ^ m / 2 = 2 ^ m by omega, idx2_some rfl hcN, ok_bind, hpe, ok_bind]
    dsimp only
    rw [idx2_some rfl hfirst, ok_bind, idx_some hv1, ok_bind, idx_some hl0, ok_bind, k0, ok_bind, k1, ok_bind,
      idx2_some rfl e0, ok_bind, idx2_some rfl eN, ok_bind, h4, ok_bind, b2, ok_bind, b2', ok_bind, b3, ok_bind, b3', ok_bind,
      b2'', ok_bind, b3'', ok_bind, ok_bind, h5, ok_bind, h6, ok_bind, hexp]
    rfl
  · intro p hp
    simp only [List.mem_cons, List.not_mem_nil, or_false] at hp
    rcases hp with rfl | rfl | rfl | rfl | rfl | rfl <;> rfl

/-- C56. `TestMimc` succeeds whatever the random generator draws. -/
theorem C56_testMimc (draw : Nat → Fr) : ∃ r, testMimc mimcHash frString arks draw = .ok r ∧ r.pairs.length = 6 ∧
    (∀ p ∈ r.pairs, p.1 = p.2) ∧ r.accepted = true := by
  obtain ⟨inputs, h1, h2, _⟩ := C56_inputs 1 2 draw
  obtain ⟨r, h3, h4⟩ := C56_mimc 1 2 le_rfl inputs h2
  refine ⟨r, ?_, h4⟩
  unfold testMimc
  dsimp only
  rw [show (2 : Nat) = 2 ^ 1 from rfl, show 3 = 2 + 1 from rfl, h1, ok_bind, h3]

theorem testWires_good : GoodWires ([⟨0, 1, 0, addGate⟩, ⟨0, 1, 1, mulGate⟩] : List (Wire Fr)) ∧
    GoodWires ([⟨0, 1, 0, addGate⟩] : List (Wire Fr)) := by
  have deg : ∀ g : Gate Fr, ShippedGate frString g → LawfulGate g ∧ g.degHL ≤ 10 ∧ g.degHR ≤ 10 ∧ g.degHPrime ≤ 10 := by
    intro g hg
    obtain ⟨_, _, _, h1, h2, h3⟩ := C11_degrees frString g hg
    exact ⟨hg.lawful, by omega, by omega, by omega⟩
  have hsh : ∀ w ∈ ([⟨0, 1, 0, addGate⟩, ⟨0, 1, 1, mulGate⟩] : List (Wire Fr)), ShippedGate frString w.gate := by
    intro w hw
    simp only [List.mem_cons, List.not_mem_nil, or_false] at hw
    rcases hw with rfl | rfl
    · exact .add
    · exact .mul
  have hsub : ∀ w ∈ ([⟨0, 1, 0, addGate⟩] : List (Wire Fr)), w ∈ ([⟨0, 1, 0, addGate⟩, ⟨0, 1, 1, mulGate⟩] : List (Wire Fr)) := by
    intro w hw
    rw [List.mem_singleton] at hw
    rw [hw]; exact List.mem_cons_self
  exact ⟨⟨by simp, by decide +kernel, fun w hw => (deg _ (hsh w hw)).1, fun w hw => (deg _ (hsh w hw)).2⟩,
    ⟨by simp, by decide +kernel, fun w hw => (deg _ (hsh w (hsub w hw))).1, fun w hw => (deg _ (hsh w (hsub w hw))).2⟩⟩

/-- The body of the two tests, for a wiring with two layers whose assignment is known. -/
theorem gkrTest_eq (H : List Fr → Fr) (wiring : List (List (Wire Fr))) (hne : wiring ≠ []) (hw : ∀ ws ∈ wiring, GoodWires ws)
    (hG : Chained 1 (newCircuit wiring).layers) (k : Nat) (hk : 1 ≤ k) (inputs mid outputs : List (List Fr))
    (hin : WellChunked k (1 + 0) inputs)
    (hv : wiredAssignment (2 ^ 0) (newCircuit wiring).layers inputs = [inputs, mid, outputs]) :
    gkrTest H wiring k inputs = .ok ([inputs, mid, outputs], true) := by
  obtain ⟨values, outs, p, proof, h1, h2, h3, h4, h5⟩ := C22_complete_assign_partial H wiring hne hw 1 k 0 hk hG
    (fun _ _ _ _ => .inr rfl) inputs hin 2 1 (by omega) (by omega)
  have ha := C12_assign_partial wiring 1 (2 ^ 0) inputs 2 (by omega) hG (fun _ _ _ _ => .inr rfl) (by
    intro c hc
    rw [hin.2 c hc]; rfl)
  rw [hv] at ha
  rw [ha] at h1
  obtain rfl := Except.ok.inj h1
  obtain rfl : outputs = outs := by simpa using h2
  unfold gkrTest
  dsimp only
  rw [ha, ok_bind, idx_some (show [inputs, mid, outputs][2]? = some outputs from rfl), ok_bind, h3, ok_bind, h4, ok_bind]
  rw [Nat.zero_add] at h5
  rw [h5, ok_bind]
  rfl

theorem two_outputs (a b : Fr) : wiredOutputs (newLayer [⟨0, 1, 0, addGate⟩, ⟨0, 1, 1, mulGate⟩]).wires (2 ^ 0)
    (2 ^ (newLayer ([⟨0, 1, 0, addGate⟩, ⟨0, 1, 1, mulGate⟩] : List (Wire Fr))).bGOutputs) [a, b] = [a + b, a * b] := by
  rw [show (newLayer ([⟨0, 1, 0, addGate⟩, ⟨0, 1, 1, mulGate⟩] : List (Wire Fr))).bGOutputs = 1 from log2Ceil_two]
  simp [wiredOutputs, wiredOutput, newLayer, addGate, mulGate, List.range_succ, List.filter_cons]

theorem one_output (a b : Fr) : wiredOutputs (newLayer [⟨0, 1, 0, addGate⟩]).wires (2 ^ 0)
    (2 ^ (newLayer ([⟨0, 1, 0, addGate⟩] : List (Wire Fr))).bGOutputs) [a, b] = [a + b] := by
  rw [show (newLayer ([⟨0, 1, 0, addGate⟩] : List (Wire Fr))).bGOutputs = 0 from log2Ceil_one]
  simp [wiredOutputs, wiredOutput, newLayer, addGate, List.filter_cons]

/-- C56. `TestGKR` for every number of chunks `2^k` with `k ≥ 1`, one instance in each, every challenge function and all inputs:
the assignment is the expected one and the verifier accepts. -/
theorem C56_gkr (H : List Fr → Fr) (k : Nat) (hk : 1 ≤ k) (ab : List (Fr × Fr)) (hab : ab.length = 2 ^ k) :
    gkrTest H testGkrWiring k (ab.map fun p => [p.1, p.2]) = .ok
      ([ab.map fun p => [p.1, p.2], ab.map fun p => [p.1 + p.2, p.1 * p.2],
        ab.map fun p => [p.1 + p.2 + p.1 * p.2, (p.1 + p.2) * (p.1 * p.2)]], true) := by
  have hw : ∀ ws ∈ (testGkrWiring : List (List (Wire Fr))), GoodWires ws := by
    intro ws hws
    simp only [testGkrWiring, List.mem_cons, List.not_mem_nil, or_false] at hws
    rcases hws with rfl | rfl
    · exact testWires_good.1
    · exact testWires_good.1
  refine gkrTest_eq H _ (by simp [testGkrWiring]) hw ⟨by decide +kernel, by decide +kernel, trivial⟩ k hk _ _ _
    ⟨by simpa using hab, ?_⟩ ?_
  · intro c hc
    obtain ⟨p, _, rfl⟩ := List.mem_map.1 hc
    rfl
  · simp only [newCircuit, testGkrWiring, List.map_cons, List.map_nil, wiredAssignment, List.map_map]
    congr 2
    · apply List.map_congr_left
      intro p _
      exact two_outputs p.1 p.2
    · congr 1
      apply List.map_congr_left
      intro p _
      exact (congrArg _ (two_outputs p.1 p.2)).trans (two_outputs (p.1 + p.2) (p.1 * p.2))

/-- C56. `TestMultiBGs`, in the same generality. -/
theorem C56_multi (H : List Fr → Fr) (k : Nat) (hk : 1 ≤ k) (ab : List (Fr × Fr)) (hab : ab.length = 2 ^ k) :
    gkrTest H testMultiWiring k (ab.map fun p => [p.1, p.2]) = .ok
      ([ab.map fun p => [p.1, p.2], ab.map fun p => [p.1 + p.2, p.1 * p.2],
        ab.map fun p => [p.1 + p.2 + p.1 * p.2]], true) := by
  have hw : ∀ ws ∈ (testMultiWiring : List (List (Wire Fr))), GoodWires ws := by
    intro ws hws
    simp only [testMultiWiring, List.mem_cons, List.not_mem_nil, or_false] at hws
    rcases hws with rfl | rfl
    · exact testWires_good.1
    · exact testWires_good.2
  refine gkrTest_eq H _ (by simp [testMultiWiring]) hw ⟨by decide +kernel, by decide +kernel, trivial⟩ k hk _ _ _
    ⟨by simpa using hab, ?_⟩ ?_
  · intro c hc
    obtain ⟨p, _, rfl⟩ := List.mem_map.1 hc
    rfl
  · simp only [newCircuit, testMultiWiring, List.map_cons, List.map_nil, wiredAssignment, List.map_map]
    congr 2
    · apply List.map_congr_left
      intro p _
      exact two_outputs p.1 p.2
    · congr 1
      apply List.map_congr_left
      intro p _
      exact (congrArg _ (two_outputs p.1 p.2)).trans (one_output (p.1 + p.2) (p.1 * p.2))

/-- The values of the two tests. -/
example (H : List Fr → Fr) : gkrTest H testGkrWiring 1 [[1, 2], [3, 4]] = .ok
    ([[[1, 2], [3, 4]], [[3, 2], [7, 12]], [[5, 6], [19, 84]]], true) := by
  have := C56_gkr H 1 le_rfl [(1, 2), (3, 4)] rfl
  norm_num at this
  exact this
example (H : List Fr → Fr) : gkrTest H testMultiWiring 1 [[1, 2], [3, 4]] = .ok
    ([[[1, 2], [3, 4]], [[3, 2], [7, 12]], [[5], [19]]], true) := by
  have := C56_multi H 1 le_rfl [(1, 2), (3, 4)] rfl
  norm_num at this
  exact this

end GkrMimc
