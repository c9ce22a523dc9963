import Verif.Proofs.Mle
import Verif.Model.Field

/-! Property C03: `Evaluate` computes the multilinear extension. -/

namespace GkrMimc

open Spec

variable {F : Type} [Field F]

/-- C03. `Evaluate` is the multilinear extension. -/
theorem C03_evaluate_is_mle (T x : List F) (h : T.length = 2 ^ x.length) :
    evaluate T x = .ok (mle T x) := evaluate_eq T x h

/-- C03. At the Boolean point spelling `i`, `Evaluate` returns `Table[i]`. -/
theorem C03_evaluate_boolean (n : Nat) (T : List F) (h : T.length = 2 ^ n) (i : Nat) (hi : i < T.length) :
    evaluate T (bits n i) = .ok T[i] := by
  rw [evaluate_eq T _ (by simpa using h), mle, mleF_bits n _ (by omega)]
  simp [hi]

/-- C03. `Fold(r)` is the partial evaluation of the first variable: it leaves a table of half the size whose
extension at `xs` is that of the original table at `r :: xs`. -/
theorem C03_fold_partial_eval (T : List F) (r : F) (xs : List F) (h : T.length = 2 ^ (xs.length + 1)) :
    (fold T r).length = 2 ^ xs.length ∧ mle (fold T r) xs = mle T (r :: xs) := by
  have hl : (fold T r).length = 2 ^ xs.length := by
    rw [fold_length, h, pow_succ]; omega
  refine ⟨hl, ?_⟩
  have h1 := evaluate_eq (fold T r) xs hl
  have h2 := evaluate_eq T (r :: xs) (by simpa using h)
  have : evaluate (fold T r) xs = evaluate T (r :: xs) := rfl
  rw [h1, h2] at this
  exact Except.ok.inj this

/-- C03. More coordinates than variables: index out of range. -/
theorem C03_evaluate_too_many (n : Nat) (T x : List F) (h : T.length = 2 ^ n) (hx : n < x.length) :
    evaluate T x = .error .index := by
  have key : ∀ (x : List F) (T : List F), T.length < 2 ^ x.length → x.foldl fold T = [] := by
    intro x
    induction x with
    | nil => intro T hT; simpa using hT
    | cons r xs ih =>
      intro T hT
      rw [List.foldl_cons]
      apply ih
      rw [fold_length]
      simp only [List.length_cons, pow_succ] at hT
      omega
  unfold evaluate
  rw [key x T (by rw [h]; exact Nat.pow_lt_pow_right (by norm_num) hx)]
  rfl

/-- C03. Fewer coordinates than variables: the value at the given coordinates followed by zeros. -/
theorem C03_evaluate_too_few (T x : List F) (k : Nat) (h : T.length = 2 ^ (x.length + k)) :
    evaluate T x = .ok (mle T (x ++ List.replicate k 0)) := by
  have hz : ∀ (k : Nat) (f : Nat → F), mleF f (List.replicate k (0 : F)) = f 0 := by
    intro k
    induction k with
    | zero => intro f; simp
    | succ k ih => intro f; rw [List.replicate_succ, mleF_cons, ih]; simp
  unfold evaluate mle
  rw [mleF_append]
  conv_lhs => rw [eq_tab T 0, h, pow_add, foldl_fold_tab, idx_tab (Nat.two_pow_pos k)]
  simp [hz]

example : evaluate ([1, 2, 3, 4] : List Fr) [5, 7] = .ok (1 * (-4) * (-6) + 2 * (-4) * 7 + 3 * 5 * (-6) + 4 * 5 * 7) := by
  decide +kernel
example : evaluate ([1, 2] : List Fr) [5, 7] = .error .index := by decide +kernel

end GkrMimc
