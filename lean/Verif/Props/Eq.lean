import Verif.Proofs.Chunked
import Verif.Model.Field

/-! Properties C05, C06, C07: the eq polynomial, its tables, and chunked evaluation. -/

namespace GkrMimc

open Spec Finset

variable {F : Type} [Field F]

/-- C05. `EvalEq` computes `∏ (q_i h_i + (1-q_i)(1-h_i))` over the coordinates of `q`, ignoring surplus entries of
`h`; it panics exactly when `h` is shorter. -/
theorem C05_evalEq (q h : List F) :
    (q.length ≤ h.length → evalEq q h = .ok (eqPoly q (h.take q.length))) ∧
    ((∃ e, evalEq q h = .error e) ↔ h.length < q.length) ∧ (h.length < q.length → evalEq q h = .error .index) := by
  refine ⟨?_, ?_, evalEq_err q h⟩
  · intro hl
    rw [evalEq_eq q h hl]
    congr 1
    unfold eqPoly
    congr 1
    apply List.ext_getElem
    · simp
    · intro i h1 h2; simp
  · constructor
    · rintro ⟨e, he⟩
      by_contra hc
      rw [evalEq_eq q h (by omega)] at he; cases he
    · intro hl; exact ⟨_, evalEq_err q h hl⟩

/-- C05. Symmetry. -/
theorem C05_evalEq_symm (q h : List F) (hl : q.length = h.length) : evalEq q h = evalEq h q := by
  rw [evalEq_eq q h hl.le, evalEq_eq h q hl.ge, eqPoly_comm]

/-- C05. On 0/1 points it tests equality. -/
theorem C05_evalEq_boolean (q h : List F) (hl : q.length = h.length) (hq : ∀ x ∈ q, x = 0 ∨ x = 1)
    (hh : ∀ x ∈ h, x = 0 ∨ x = 1) [DecidableEq F] : evalEq q h = .ok (if q = h then 1 else 0) := by
  rw [evalEq_eq q h hl.le]
  congr 1
  induction q generalizing h with
  | nil =>
    have : h = [] := by simpa using hl.symm
    subst this; simp [eqPoly]
  | cons a q ih =>
    cases h with
    | nil => simp at hl
    | cons b h =>
      have := ih h (by simpa using hl) (fun x hx => hq x (by simp [hx])) (fun x hx => hh x (by simp [hx]))
      unfold eqPoly at *
      rw [List.zipWith_cons_cons, List.prod_cons, this]
      rcases hq a (by simp) with rfl | rfl <;> rcases hh b (by simp) with rfl | rfl <;> simp

/-- C05. `GetFoldedEqTable(q)` has `2^n` entries, entry `i` being `EvalEq(q, bits of i)`; the entries sum to 1; and its
evaluation at `h` is `EvalEq(q,h)`. -/
theorem C05_foldedEqTable (q : List F) :
    ∃ T, getFoldedEqTable q = .ok T ∧ T.length = 2 ^ q.length ∧
      (∀ i (hi : i < T.length), evalEq q (bits q.length i) = .ok T[i]) ∧
      (∑ i ∈ range T.length, T.getD i 0 = 1) ∧
      ∀ h : List F, h.length = q.length → evaluate T h = evalEq q h := by
  refine ⟨_, getFoldedEqTable_eq q, by simp, ?_, ?_, ?_⟩
  · intro i hi
    simp only [tab_length] at hi
    rw [evalEq_eq _ _ (by simp), tab_get, chi_eq_eqPoly q hi]
  · rw [tab_length, ← sum_chi q]
    apply Finset.sum_congr rfl
    intro i hi
    rw [mem_range] at hi
    rw [List.getD_eq_getElem?_getD, tab_getElem?]; simp [hi]
  · intro h hl
    rw [← hl, evaluate_tab, evalEq_eq _ _ hl.ge, mleF_chi q h hl]

example : evalEq ([2, 3] : List Fr) [5, 7] =
    .ok ((2 * 5 + (1 - 2) * (1 - 5)) * (3 * 7 + (1 - 3) * (1 - 7))) := by decide +kernel
example : getFoldedEqTable ([2, 3] : List Fr) = .ok [2, -3, -4, 6] := by decide +kernel

/-- C06. The chunked eq table is the interleaved eq table: chunk `s`, entry `u` is entry `u*2^k+s`. -/
theorem C06_chunkedEqTable (q : List F) (k : Nat) (hk : k ≤ q.length) (nCore : Int) (hn : 1 ≤ nCore) :
    ∃ T chunks, getFoldedEqTable q = .ok T ∧ getChunkedEqTable q (2 ^ k) nCore = .ok chunks ∧
      chunks.length = 2 ^ k ∧
      ∀ s (hs : s < chunks.length), chunks[s].length = 2 ^ (q.length - k) ∧
        ∀ u (hu : u < chunks[s].length), T[u * 2 ^ k + s]? = some chunks[s][u] := by
  obtain ⟨a, b, rfl, rfl⟩ : ∃ a b : List F, q = a ++ b ∧ k = b.length :=
    ⟨q.take (q.length - k), q.drop (q.length - k), by simp, by simp; omega⟩
  refine ⟨_, _, getFoldedEqTable_eq _, getChunkedEqTable_eq a b hn, by simp, ?_⟩
  intro s hs
  simp only [chunksOf_length] at hs
  refine ⟨by simp [chunksOf], ?_⟩
  intro u hu
  simp only [chunksOf, tab_get, tab_length] at hu ⊢
  rw [tab_getElem?, if_pos]
  rw [List.length_append, pow_add]
  calc u * 2 ^ b.length + s < u * 2 ^ b.length + 2 ^ b.length := by omega
    _ = (u + 1) * 2 ^ b.length := by ring
    _ ≤ 2 ^ a.length * 2 ^ b.length := Nat.mul_le_mul_right _ hu

/-- C06. When `nChunks` is not a power of two `2^k` with `k ≤ n`, it panics. -/
theorem C06_chunkedEqTable_panics (q : List F) (nChunks : Nat) (nCore : Int)
    (h : ∀ k ≤ q.length, nChunks ≠ 2 ^ k) : ∃ e, getChunkedEqTable q nChunks nCore = .error e := by
  cases hres : getChunkedEqTable q nChunks nCore with
  | error e => exact ⟨e, rfl⟩
  | ok res =>
    exfalso
    unfold getChunkedEqTable at hres
    simp only [bind_eq_ok] at hres
    obtain ⟨cut, hcut, eq0, _, r0, hr0, qs, hqs, hloop⟩ := hres
    unfold goSubBound at hcut
    split at hcut
    case isFalse => cases hcut
    rename_i hle
    cases hcut
    unfold sliceFrom at hqs
    split at hqs
    case isFalse => cases hqs
    cases hqs
    have hl0 : r0.length = nChunks := by rw [setIdx_length hr0]; simp
    have hpos : 0 < nChunks := by
      unfold setIdx at hr0
      split at hr0
      · rename_i hp; simpa using hp
      · cases hr0
    have hlen : (q.drop (q.length - log2Ceil (nChunks : Int))).length = log2Ceil (nChunks : Int) := by
      rw [List.length_drop]; omega
    rw [hlen] at hloop
    -- `nChunks < 2^log2Ceil nChunks`
    have hceil : (nChunks : Int) ≤ 2 ^ log2Ceil (nChunks : Int) := by
      obtain ⟨h1, h2⟩ := log2Floor_spec (a := (nChunks : Int)) (by omega)
      unfold log2Ceil
      simp only
      split
      · exact h2.le
      · rename_i heq
        have heq := not_not.1 heq
        rw [Nat.shiftLeft_eq, one_mul] at heq
        rw [heq]
        rw [log2Floor_pow]; push_cast; exact le_rfl
    have hlt : nChunks < 2 ^ log2Ceil (nChunks : Int) := by
      have := h _ hle
      have : nChunks ≤ 2 ^ log2Ceil (nChunks : Int) := by exact_mod_cast hceil
      omega
    set k := log2Ceil (nChunks : Int) with hk
    have hk1 : 1 ≤ k := by
      by_contra hc
      have : k = 0 := by omega
      rw [this] at hlt; simp at hlt; omega
    have hstep : ∀ i r j (x y : List (Table F)), x.length = nChunks →
        chunkedEqStep k i r nCore j x = .ok y → y.length = nChunks := by
      intro i r j x y hx hy
      unfold chunkedEqStep at hy
      simp only [bind_eq_ok] at hy
      obtain ⟨_, _, _, _, _, _, z, hz, _, _, _, _, _, _, hy⟩ := hy
      rw [setIdx_length hy, setIdx_length hz, hx]
    have houter := forN_ok_inv (fun x : List (Table F) => x.length = nChunks) k r0 res hl0 (by
      intro i hi a b ha hb
      rw [bind_eq_ok] at hb
      obtain ⟨r, _, hb⟩ := hb
      exact (forN_ok_inv (fun x : List (Table F) => x.length = nChunks) _ a b ha
        (fun j _ x y hx hy => hstep _ _ _ x y hx hy) hb).1) hloop
    obtain ⟨a, b, ha, hb, _⟩ := houter.2 (k - 1) (by omega)
    rw [bind_eq_ok] at hb
    obtain ⟨r, _, hb⟩ := hb
    have hin := forN_ok_inv (fun x : List (Table F) => x.length = nChunks) _ a b ha
      (fun j _ x y hx hy => hstep _ _ _ x y hx hy) hb
    obtain ⟨x, y, hx, hy, _⟩ := hin.2 (2 ^ (k - 1) - 1) (by
      rw [Nat.shiftLeft_eq, one_mul]; have := Nat.two_pow_pos (k - 1); omega)
    unfold chunkedEqStep at hy
    rw [bind_eq_ok] at hy
    obtain ⟨_, hi, _⟩ := hy
    have := idx_ok_lt hi
    rw [hx] at this
    simp only [Nat.shiftLeft_eq] at this
    have e1 : k - (k - 1) = 1 := by omega
    have e2 : k - 1 - (k - 1) = 0 := by omega
    rw [e1, e2] at this
    have e3 : 2 ^ k = 2 ^ (k - 1) * 2 := by rw [← pow_succ]; congr 1; omega
    have := Nat.two_pow_pos (k - 1)
    omega

example : getChunkedEqTable ([2, 3] : List Fr) 2 1 = .ok [[2, -4], [-3, 6]] := by decide +kernel
example : ∀ k ≤ ([2, 3] : List Fr).length, 3 ≠ 2 ^ k := by decide

/-- `2^k` chunks of `2^m` entries. -/
def WellChunked (k m : Nat) (chunks : List (List F)) : Prop :=
  chunks.length = 2 ^ k ∧ ∀ c ∈ chunks, c.length = 2 ^ m

theorem eq_chunksOf {k m : Nat} {chunks : List (List F)} (h : WellChunked k m chunks) :
    chunks = chunksOf (2 ^ k) (2 ^ m) (fun i => (interleave (2 ^ k) (2 ^ m) chunks).getD i 0) := by
  apply tab_eq_of h.1
  intro s hs
  have hs' : s < 2 ^ k := h.1 ▸ hs
  apply tab_eq_of (h.2 _ (List.getElem_mem hs))
  intro u hu
  have hu' : u < 2 ^ m := h.2 _ (List.getElem_mem hs) ▸ hu
  have hlt : u * 2 ^ k + s < 2 ^ m * 2 ^ k := by
    calc u * 2 ^ k + s < (u + 1) * 2 ^ k := by rw [Nat.add_mul]; omega
      _ ≤ _ := Nat.mul_le_mul_right _ hu'
  have e1 : (u * 2 ^ k + s) % 2 ^ k = s := by
    rw [mul_comm, Nat.mul_add_mod, Nat.mod_eq_of_lt hs']
  have e2 : (u * 2 ^ k + s) / 2 ^ k = u := by
    rw [mul_comm, Nat.mul_add_div (Nat.two_pow_pos k), Nat.div_eq_of_lt hs', add_zero]
  unfold interleave
  beta_reduce
  rw [List.getD_eq_getElem?_getD, List.getElem?_map, List.getElem?_range hlt]
  simp only [Option.map_some, Option.getD_some, e1, e2]
  simp [hs, hu]

/-- C07 (full claim: every `k ≥ 0`). Proved for `k ≥ 1`: `EvaluateChunked` is `Evaluate` of the interleaved table.
What is missing is `k = 0`, where the claim is false (`C07_single_chunk_panics`). -/
theorem C07_evaluateChunked_partial (k m : Nat) (hk : 1 ≤ k) (chunks : List (List F))
    (h : WellChunked k m chunks) (q : List F) (hq : q.length = m + k) :
    evaluateChunked chunks q = evaluate (interleave (2 ^ k) (2 ^ m) chunks) q := by
  obtain ⟨a, b, rfl, rfl, rfl⟩ : ∃ a b : List F, q = a ++ b ∧ m = a.length ∧ k = b.length :=
    ⟨q.take m, q.drop m, by simp, by simp; omega, by simp; omega⟩
  have hb : b ≠ [] := by rintro rfl; simp at hk
  conv_lhs => rw [eq_chunksOf h]
  rw [evaluateChunked_eq a b hb, evaluate_eq]
  · rfl
  · simp [interleave, pow_add]

/-- C07, the same for `EvaluateMixedChunked` and `EvaluateLeftAndRight`. -/
theorem C07_evaluateMixedChunked_partial (k m : Nat) (hk : 1 ≤ k) (chunks : List (List F))
    (hPrime hL hR : List F) (hl : hL.length = hR.length) (hp : hPrime.length = m + k)
    (h : WellChunked k (hL.length + m) chunks) :
    evaluateMixedChunked chunks hPrime hL hR =
      evaluateLeftAndRight (interleave (2 ^ k) (2 ^ (hL.length + m)) chunks) hPrime hL hR := by
  obtain ⟨a, b, rfl, rfl, rfl⟩ : ∃ a b : List F, hPrime = a ++ b ∧ m = a.length ∧ k = b.length :=
    ⟨hPrime.take m, hPrime.drop m, by simp, by simp; omega, by simp; omega⟩
  have hb : b ≠ [] := by rintro rfl; simp at hk
  conv_lhs => rw [eq_chunksOf h]
  rw [evaluateMixedChunked_eq a b hL hR hb _ hl]
  unfold evaluateLeftAndRight
  rw [evaluate_eq, evaluate_eq]
  · rfl
  · simp [interleave]; rw [← pow_add, ← hl]; congr 1; omega
  · simp [interleave]; rw [← pow_add]; congr 1; omega

/-- C07 is false for a single chunk: whatever the table and the point, `EvaluateChunked` panics (polynomial/chunked.go:39
indexes the nil slice `res`). -/
theorem C07_single_chunk_panics (t : List F) (q : List F) : evaluateChunked [t] q = .error .index := by
  have h : log2Ceil ((1 : Nat) : Int) = 0 := log2Ceil_pow 0
  have h2 : [t].length = 1 := rfl
  unfold evaluateChunked
  simp only [h2, h, goSubBound, ok_bind, Nat.zero_le, if_true, Nat.sub_zero, List.drop_length,
    chunkedEvalRecombine_single, error_bind]

/-- C07, the same for `EvaluateMixedChunked`. -/
theorem C07_single_chunk_mixed_panics (t : List F) (hPrime hL hR : List F) :
    evaluateMixedChunked [t] hPrime hL hR = .error .index := by
  have h : log2Ceil ((1 : Nat) : Int) = 0 := log2Ceil_pow 0
  have h2 : [t].length = 1 := rfl
  unfold evaluateMixedChunked
  simp only [h2, h, gt_iff_lt, Nat.not_lt_zero, if_false, Nat.sub_zero, List.drop_length,
    chunkedEvalRecombine_single, error_bind]

/-- C07: the negation of the full claim, with a witness (`k = 0`, one chunk of one entry, the empty point). -/
theorem C07_negation : ¬ ∀ (k m : Nat) (chunks : List (List Fr)), WellChunked k m chunks → ∀ q : List Fr,
    q.length = m + k → evaluateChunked chunks q = evaluate (interleave (2 ^ k) (2 ^ m) chunks) q := by
  intro h
  have := h 0 0 [[1]] ⟨rfl, by simp⟩ [] rfl
  rw [C07_single_chunk_panics, evaluate_eq] at this
  · cases this
  · rfl

example : WellChunked 1 1 ([[1, 3], [2, 4]] : List (List Fr)) ∧
    evaluateChunked ([[1, 3], [2, 4]] : List (List Fr)) [5, 7] = evaluate ([1, 2, 3, 4] : List Fr) [5, 7] :=
  ⟨⟨rfl, by simp⟩, by decide +kernel⟩

end GkrMimc
