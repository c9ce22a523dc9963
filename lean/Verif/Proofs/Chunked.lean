import Verif.Proofs.Eq

/-! Lemmas on the chunked tables. -/

set_option linter.unusedSectionVars false

namespace GkrMimc

open Finset Spec

variable {F : Type} [Field F]

/-- A table cut in `K` interleaved chunks of `M` entries. -/
def chunksOf (K M : Nat) (f : Nat → F) : List (Table F) := tab K (fun s => tab M (fun u => f (u * K + s)))

@[simp] theorem chunksOf_length (K M : Nat) (f : Nat → F) : (chunksOf K M f).length = K := by
  simp [chunksOf]

theorem getChunkedEqTable_eq (a b : List F) {nCore : Int} (hn : 1 ≤ nCore) :
    getChunkedEqTable (a ++ b) (2 ^ b.length) nCore =
      .ok (chunksOf (2 ^ b.length) (2 ^ a.length) (chi (a ++ b))) := by
  unfold getChunkedEqTable
  simp only [log2Ceil_pow]
  rw [goSubBound_ok (by simp)]
  have hc : (a ++ b).length - b.length = a.length := by simp
  simp only [hc, ok_bind, List.take_left', getFoldedEqTable_eq, sliceFrom]
  rw [replicate_eq_tab, setIdx_tab (Nat.two_pow_pos _)]
  simp only [ok_bind, List.length_append, Nat.le_add_right, if_true, List.drop_left']
  have h := doubling b.length ([] : Table F)
    (fun i j => tab (2 ^ a.length) (fun u => chi a u * chi (b.take i) j))
    (fun i => chunkedEqStep b.length i (b.getD i 0) nCore) (by
      intro i hi j hj f h1 h2
      have hnn : 2 ^ b.length = 2 ^ i * 2 ^ (b.length - i) := by rw [← pow_add]; congr 1; omega
      have hw : 2 ^ (b.length - i) = 2 * 2 ^ (b.length - 1 - i) := by
        rw [← pow_succ']; congr 1; omega
      have hp : 0 < 2 ^ (b.length - 1 - i) := Nat.two_pow_pos _
      have hJ : j * 2 ^ (b.length - i) + 2 ^ (b.length - i) ≤ 2 ^ b.length := by
        rw [hnn, ← Nat.succ_mul]; exact Nat.mul_le_mul_right _ hj
      have hne : j * 2 ^ (b.length - i) ≠ j * 2 ^ (b.length - i) + 2 ^ (b.length - 1 - i) := by omega
      unfold chunkedEqStep
      simp only [Nat.shiftLeft_eq, one_mul]
      rw [idx_tab (by omega), idx_tab (by omega)]
      simp only [ok_bind, h1]
      rw [tableMul_tab _ _ _ _ hn]
      simp only [ok_bind]
      rw [setIdx_tab (by omega)]
      simp only [ok_bind]
      rw [idx_tab (by omega), idx_tab (by omega)]
      simp only [ok_bind, Function.update_self, Function.update_of_ne hne, h1]
      rw [tableSub_tab _ _ _ _ hn]
      simp only [ok_bind]
      rw [setIdx_tab (by omega)]
      rw [take_succ_get b hi]
      have hg : b.getD i 0 = b[i] := by simp [hi]
      rw [hg]
      congr 3
      · congr 1
        apply tab_congr; intro u _
        rw [chi_snoc1]; ring
      · apply tab_congr; intro u _
        rw [chi_snoc0]; ring)
  have e0 : tab (2 ^ b.length) (Function.update (fun _ => ([] : Table F)) 0 (tab (2 ^ a.length) (chi a))) =
      tab (2 ^ b.length) (fun x => if x = 0 then tab (2 ^ a.length) (fun u => chi a u * chi (b.take 0) 0) else []) := by
    apply tab_congr; intro x _; simp [Function.update_apply]
  rw [e0]
  have e1 : chunksOf (2 ^ b.length) (2 ^ a.length) (chi (a ++ b)) =
      tab (2 ^ b.length) (fun j => tab (2 ^ a.length) (fun u => chi a u * chi (b.take b.length) j)) := by
    unfold chunksOf
    apply tab_congr; intro s hs
    apply tab_congr; intro u _
    rw [chi_append a b u hs, List.take_length]
  rw [e1, ← h]
  apply forN_congr
  intro i hi s
  rw [idx_ok hi]
  simp [Nat.shiftLeft_eq, hi]

theorem recombineStep_tab (K M : Nat) (T : Nat → Nat → F) (q : F) :
    recombineStep (tab (2 * K) (fun s => tab M (T s))) q =
      .ok (tab K (fun s => tab M (fun u => T s u + (T (K + s) u - T s u) * q))) := by
  unfold recombineStep
  simp only [tab_length]
  have h : 2 * K / 2 = K := by omega
  rw [h]
  apply gen_ok
  intro k hk
  rw [idx_tab (by omega), idx_tab (by omega)]
  simp only [ok_bind]
  rw [tableSub_tab _ _ _ _ le_rfl]
  simp only [ok_bind]
  rw [tableMul_tab _ _ _ _ le_rfl]
  simp only [ok_bind]
  rw [tableAdd_tab]
  congr 1
  apply tab_congr; intro u _
  rw [add_comm k K]; ring

theorem tab_one {α : Type _} (f : Nat → α) : tab 1 f = [f 0] := rfl

theorem recombine_loop (M : Nat) (qs : List F) : ∀ (T : Nat → Nat → F) (r0 : List (Table F)),
    forEach qs (tab (2 ^ qs.length) (fun s => tab M (T s)), r0) (fun q s => do
      let res ← recombineStep s.1 q
      return (res, res)) =
    .ok ([tab M (fun u => mleF (fun s => T s u) qs)],
      if qs = [] then r0 else [tab M (fun u => mleF (fun s => T s u) qs)]) := by
  induction qs with
  | nil => intro T r0; simp [tab_one]
  | cons q qs ih =>
    intro T r0
    have e : 2 ^ (q :: qs).length = 2 * 2 ^ qs.length := by simp [pow_succ]; ring
    rw [forEach_cons]
    simp only [e]
    rw [recombineStep_tab]
    simp only [ok_bind]
    refine (ih _ _).trans ?_
    have e2 : ∀ u, mleF (fun s => T s u + (T (2 ^ qs.length + s) u - T s u) * q) qs
        = mleF (fun s => T s u) (q :: qs) := fun u => (mleF_cons _ _ _).symm
    simp only [e2]
    by_cases hq : qs = []
    · subst hq; simp [tab_one, mleF_cons]
    · simp [hq]

/-- Recombination of `2^k`, `k ≥ 1` chunks: the chunk-index variables are evaluated at `qs`. -/
theorem chunkedEvalRecombine_eq (M : Nat) (qs : List F) (hq : qs ≠ []) (T : Nat → Nat → F) :
    chunkedEvalRecombine (tab (2 ^ qs.length) (fun s => tab M (T s))) qs =
      .ok (tab M (fun u => mleF (fun s => T s u) qs)) := by
  unfold chunkedEvalRecombine
  simp only [tab_length, log2Ceil_pow, ne_eq, not_true_eq_false, if_false]
  rw [recombine_loop]
  simp [hq, idx]

/-- A single chunk: `res` is still nil. -/
theorem chunkedEvalRecombine_single (t : Table F) : chunkedEvalRecombine [t] [] = .error .index := by
  have h : log2Ceil ((1 : Nat) : Int) = 0 := log2Ceil_pow 0
  unfold chunkedEvalRecombine
  simp only [List.length_singleton, h, List.length_nil]
  simp [idx]

theorem evaluateChunked_eq (a b : List F) (hb : b ≠ []) (f : Nat → F) :
    evaluateChunked (chunksOf (2 ^ b.length) (2 ^ a.length) f) (a ++ b) = .ok (mleF f (a ++ b)) := by
  unfold evaluateChunked
  simp only [chunksOf_length, log2Ceil_pow]
  rw [goSubBound_ok (by simp)]
  have hc : (a ++ b).length - b.length = a.length := by simp
  simp only [hc, ok_bind, List.take_left', List.drop_left']
  unfold chunksOf
  rw [chunkedEvalRecombine_eq _ b hb (fun s u => f (u * 2 ^ b.length + s))]
  simp only [ok_bind]
  rw [evaluate_tab, mleF_append]

theorem foldl_evaluate_tab (x y : List F) (f : Nat → F) :
    evaluate (tab (2 ^ x.length * 2 ^ y.length) f) (x ++ y) = .ok (mleF f (x ++ y)) := by
  have := evaluate_tab (x ++ y) f
  rwa [List.length_append, pow_add] at this

/-- `EvaluateMixedChunked` on interleaved chunks, `hPrime = a ++ b` with `2^|b|` chunks. -/
theorem evaluateMixedChunked_eq (a b hL hR : List F) (hb : b ≠ []) (f : Nat → F)
    (hl : hL.length = hR.length) :
    evaluateMixedChunked (chunksOf (2 ^ b.length) (2 ^ (hL.length + a.length)) f) (a ++ b) hL hR =
      .ok (mleF f (hL ++ (a ++ b)), mleF f (hR ++ (a ++ b))) := by
  unfold evaluateMixedChunked
  simp only [chunksOf_length, log2Ceil_pow]
  have hc : (a ++ b).length - b.length = a.length := by simp
  rw [if_neg (by simp)]
  simp only [hc, List.take_left', List.drop_left']
  unfold chunksOf
  rw [chunkedEvalRecombine_eq _ b hb (fun s u => f (u * 2 ^ b.length + s))]
  simp only [ok_bind, evaluateLeftAndRight]
  have e1 : hL.length + a.length = (hL ++ a).length := by simp
  have e2 : (hL ++ a).length = (hR ++ a).length := by simp [hl]
  rw [e1, evaluate_tab]
  simp only [ok_bind]
  rw [e2, evaluate_tab]
  simp only [ok_bind, go_pure]
  rw [← List.append_assoc, ← List.append_assoc, mleF_append f (hL ++ a), mleF_append f (hR ++ a)]

end GkrMimc
