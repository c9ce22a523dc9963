import Verif.Model.Polynomial
import Verif.Proofs.GoLemmas
import Verif.Proofs.Common
import Verif.Proofs.Mle

/-! Lemmas on the table arithmetic (`Add`, `Sub`, `Mul`, linear combination). -/

set_option linter.unusedSectionVars false

namespace GkrMimc

open Finset

section
variable {σ : Type _}

theorem forFrom_append {body : Nat → σ → Go σ} (a : Nat) : ∀ (k b : Nat) (s : σ),
    forFrom body k (a + b) s = (forFrom body k a s >>= fun s' => forFrom body (k + a) b s') := by
  induction a with
  | zero => intro k b s; simp [forFrom]
  | succ a ih =>
    intro k b s
    rw [show a + 1 + b = (a + b) + 1 by omega, forFrom, forFrom]
    cases h : body k s with
    | error e => rfl
    | ok s' =>
      simp only
      rw [ih (k + 1) b s', show k + 1 + a = k + (a + 1) by omega]

theorem forEach_append {α : Type _} {body : α → σ → Go σ} (xs ys : List α) : ∀ (s : σ),
    forEach (xs ++ ys) s body = (forEach xs s body >>= fun s' => forEach ys s' body) := by
  induction xs with
  | nil => intro s; rfl
  | cons x xs ih =>
    intro s
    rw [List.cons_append, forEach_cons, forEach_cons]
    cases body x s with
    | error e => rfl
    | ok s' => simpa using ih s'

/-- Running the chunks one after the other is the plain loop. -/
theorem forEach_chunks {body : Nat → σ → Go σ} (N c k : Nat) (s : σ) (h : k * c < N + c) :
    forEach (tab k (fun i => (⟨i * c, min N ((i + 1) * c)⟩ : ChunkRange))) s
      (fun r t => forFrom body r.begin_ (r.end_ - r.begin_) t) = forN (min N (k * c)) s body := by
  induction k with
  | zero => simp
  | succ k ih =>
    have e : (k + 1) * c = k * c + c := by ring
    rw [tab_succ', forEach_append, ih (by omega)]
    have e2 : min N ((k + 1) * c) = min N (k * c) + (min N ((k + 1) * c) - k * c) := by
      rw [e]; omega
    conv_rhs => rw [e2, forN, forFrom_append]
    have e3 : 0 + min N (k * c) = k * c := by omega
    rw [e3]
    unfold forN
    congr 1
    funext s'
    rw [forEach_cons]
    cases forFrom body (k * c) (min N ((k + 1) * c) - k * c) s' <;> rfl

end

variable {F : Type} [Field F]

theorem chunkLoop_eq {nCore : Int} {N : Nat} {chunks : List ChunkRange}
    (h : intoChunkRanges nCore N = .ok chunks) (dst : Table F) (f : Nat → Go F) :
    chunkLoop chunks dst f = forN N dst (fun i t => do let v ← f i; setIdx t i v) := by
  have hn : nCore ≠ 0 := by
    rintro rfl; simp [intoChunkRanges] at h
  rw [intoChunkRanges_eq hn] at h
  have h := (Except.ok.inj h).symm
  subst h
  have hpos : 4096 ≤ chunkSizeOf nCore N := by unfold chunkSizeOf; omega
  generalize chunkSizeOf nCore N = c at *
  unfold chunkLoop
  have h1 : (N + c - 1) / c * c ≤ N + c - 1 := Nat.div_mul_le_self _ _
  have h2 : N + c - 1 < (N + c - 1) / c * c + c := Nat.lt_div_mul_add (by omega)
  rw [forEach_chunks _ _ _ _ (by omega)]
  congr 1
  omega

/-- A loop that overwrites every entry of a table. -/
theorem forN_fill (N : Nat) (d g : Nat → F) (f : Nat → Go F) (h : ∀ i < N, f i = .ok (g i)) :
    forN N (tab N d) (fun i t => do let v ← f i; setIdx t i v) = .ok (tab N g) := by
  have := forN_eq (body := fun i t => do let v ← f i; setIdx t i v)
    (fun k => tab N (fun i => if i < k then g i else d i)) N (by
      intro i hi
      simp only [h i hi, ok_bind]
      rw [setIdx_tab hi]
      congr 1
      apply tab_congr
      intro j _
      rw [Function.update_apply]
      by_cases hj : j = i
      · subst hj; simp
      · have : j < i + 1 ↔ j < i := by omega
        simp [hj, this])
  simp only [Nat.not_lt_zero, if_false] at this
  rw [this]
  congr 1
  apply tab_congr
  intro i hi; simp [hi]

theorem resizeDst_length (dst : List F) (size : Nat) : (resizeDst dst size).length = size := by
  unfold resizeDst
  split
  · simp
  · simp; omega

theorem resizeDst_tab (dst : List F) (size : Nat) :
    resizeDst dst size = tab size (fun i => (resizeDst dst size).getD i 0) := by
  have := eq_tab (resizeDst dst size) 0
  rwa [resizeDst_length] at this

theorem tableAdd_eq (dst left right : Table F) (h : right.length = left.length) :
    tableAdd dst left right = .ok (List.zipWith (· + ·) left right) := by
  unfold tableAdd
  simp only [h, ne_eq, not_true_eq_false, if_false]
  rw [resizeDst_tab]
  rw [forN_congr (body' := fun i t => do
    let v ← (do let l ← idx left i; let r ← idx right i; return l + r : Go F)
    setIdx t i v) _ _ (by
      intro i _ t
      cases idx left i <;> cases idx right i <;> rfl)]
  rw [forN_fill left.length _ (fun i => left.getD i 0 + right.getD i 0) _ (by
      intro i hi
      rw [idx_ok hi, idx_ok (by omega)]
      simp [hi, h])]
  congr 1
  symm
  apply tab_eq_of
  · simp [h]
  · intro i hi
    simp at hi
    simp [hi]

theorem tableSub_eq (dst left right : Table F) {nCore : Int} (hn : 1 ≤ nCore)
    (h : right.length = left.length) :
    tableSub dst left right nCore = .ok (List.zipWith (· - ·) left right) := by
  unfold tableSub
  have hi := intoChunkRanges_eq (nCore := nCore) (by omega) left.length
  simp only [hi]
  simp only [ok_bind, newSemaphore, show ¬ nCore < 0 by omega, if_false, h, ne_eq, not_true_eq_false]
  rw [chunkLoop_eq hi, resizeDst_tab]
  rw [forN_fill left.length _ (fun i => left.getD i 0 - right.getD i 0)]
  · congr 1
    symm
    apply tab_eq_of
    · simp [h]
    · intro i hi
      simp at hi
      simp [hi]
  · intro i hi
    rw [idx_ok hi, idx_ok (by omega)]
    simp [hi, h]

theorem tableMul_eq (dst x : Table F) (l : F) {nCore : Int} (hn : 1 ≤ nCore) :
    tableMul dst l x nCore = .ok (x.map (· * l)) := by
  unfold tableMul
  have hi := intoChunkRanges_eq (nCore := nCore) (by omega) x.length
  simp only [hi]
  simp only [ok_bind, newSemaphore, show ¬ nCore < 0 by omega, if_false]
  rw [chunkLoop_eq hi, resizeDst_tab]
  rw [forN_fill x.length _ (fun i => x.getD i 0 * l)]
  · congr 1
    symm
    apply tab_eq_of
    · simp
    · intro i hi
      simp at hi
      simp [hi]
  · intro i hi
    rw [idx_ok hi]
    simp [hi]

theorem linearCombination_eq (t0 t1 : Table F) (a0 a1 : F) (h : t1.length ≤ t0.length) :
    linearCombination t0 t1 a0 a1 = .ok (tab t1.length (fun i => t1.getD i 0 * a1 + t0.getD i 0 * a0)) := by
  unfold linearCombination
  apply gen_ok
  intro i hi
  rw [idx_ok (by omega), idx_ok hi]
  have : i < t0.length := by omega
  simp [hi, this]

/-! The same on tables given by functions. -/

theorem tableAdd_tab (dst : Table F) (n : Nat) (f g : Nat → F) :
    tableAdd dst (tab n f) (tab n g) = .ok (tab n (fun i => f i + g i)) := by
  rw [tableAdd_eq _ _ _ (by simp), zipWith_tab]

theorem tableSub_tab (dst : Table F) (n : Nat) (f g : Nat → F) {nCore : Int} (hn : 1 ≤ nCore) :
    tableSub dst (tab n f) (tab n g) nCore = .ok (tab n (fun i => f i - g i)) := by
  rw [tableSub_eq _ _ _ hn (by simp), zipWith_tab]

theorem tableMul_tab (dst : Table F) (n : Nat) (f : Nat → F) (l : F) {nCore : Int} (hn : 1 ≤ nCore) :
    tableMul dst l (tab n f) nCore = .ok (tab n (fun i => f i * l)) := by
  rw [tableMul_eq _ _ _ hn, tab_map]

end GkrMimc
