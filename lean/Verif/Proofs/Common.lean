import Verif.Model.Common
import Verif.Proofs.GoLemmas
import Mathlib.Tactic.Ring
import Mathlib.Tactic.Linarith
import Mathlib.Algebra.Order.Ring.Int

/-! Lemmas on `common`. -/

namespace GkrMimc

theorem log2FloorLoop_add (i : Int) (res : Nat) : log2FloorLoop i res = log2FloorLoop i 0 + res := by
  induction i, res using log2FloorLoop.induct with
  | case1 i res h ih =>
    rw [log2FloorLoop, log2FloorLoop.eq_1 i 0]
    simp only [h, dite_true]
    have key : ∀ (n : Nat) (j : Int), j.toNat ≤ n → ∀ r, log2FloorLoop j r = log2FloorLoop j 0 + r := by
      intro n
      induction n with
      | zero =>
        intro j hj r
        rw [log2FloorLoop, log2FloorLoop.eq_1 j 0]
        have : ¬ j > 1 := by omega
        simp [this]
      | succ n ihn =>
        intro j hj r
        rw [log2FloorLoop, log2FloorLoop.eq_1 j 0]
        by_cases h1 : j > 1
        · simp only [h1, dite_true]
          have e : j >>> 1 = j / 2 := by simp [Int.shiftRight_eq_div_pow]
          rw [ihn (j >>> 1) (by omega) (r + 1), ihn (j >>> 1) (by omega) (0 + 1)]
          omega
        · simp [h1]
    rw [key _ (i >>> 1) le_rfl (res + 1), key _ (i >>> 1) le_rfl (0 + 1)]; omega
  | case2 i res h =>
    rw [log2FloorLoop, log2FloorLoop.eq_1 i 0]; simp [h]

theorem log2Floor_le_one {a : Int} (h : a ≤ 1) : log2Floor a = 0 := by
  unfold log2Floor; rw [log2FloorLoop]; simp [show ¬ a > 1 by omega]

theorem log2Floor_step {a : Int} (h : 1 < a) : log2Floor a = log2Floor (a / 2) + 1 := by
  unfold log2Floor
  rw [log2FloorLoop]
  have e : a >>> 1 = a / 2 := by simp [Int.shiftRight_eq_div_pow]
  simp only [gt_iff_lt, h, dite_true, e]
  exact log2FloorLoop_add _ _

theorem log2Floor_spec_nat (n : Nat) (h : 1 ≤ n) :
    2 ^ log2Floor (n : Int) ≤ n ∧ n < 2 ^ (log2Floor (n : Int) + 1) := by
  induction n using Nat.strong_induction_on with
  | _ n ih =>
    rcases Nat.lt_or_ge 1 n with h1 | h1
    · have e : ((n : Int) / 2) = ((n / 2 : Nat) : Int) := by simp
      rw [log2Floor_step (by omega), e]
      obtain ⟨a, b⟩ := ih (n / 2) (by omega) (by omega)
      rw [pow_succ, pow_succ]
      constructor <;> omega
    · have : n = 1 := by omega
      subst this
      rw [log2Floor_le_one (by simp)]; simp

theorem log2Floor_spec {a : Int} (h : 1 ≤ a) :
    (2 : Int) ^ log2Floor a ≤ a ∧ a < (2 : Int) ^ (log2Floor a + 1) := by
  obtain ⟨n, rfl⟩ := Int.eq_ofNat_of_zero_le (by omega : 0 ≤ a)
  obtain ⟨h1, h2⟩ := log2Floor_spec_nat n (by omega)
  constructor <;> exact_mod_cast ‹_›

theorem log2Floor_unique {a : Int} {k : Nat} (h1 : (2 : Int) ^ k ≤ a) (h2 : a < (2 : Int) ^ (k + 1)) :
    log2Floor a = k := by
  have ha : 1 ≤ a := le_trans (one_le_pow₀ (by norm_num)) h1
  obtain ⟨h3, h4⟩ := log2Floor_spec ha
  have l1 : k < log2Floor a + 1 := (pow_lt_pow_iff_right₀ (by norm_num : (1:Int) < 2)).1 (lt_of_le_of_lt h1 h4)
  have l2 : log2Floor a < k + 1 := (pow_lt_pow_iff_right₀ (by norm_num : (1:Int) < 2)).1 (lt_of_le_of_lt h3 h2)
  omega

@[simp] theorem log2Floor_pow (k : Nat) : log2Floor ((2 ^ k : Nat) : Int) = k := by
  apply log2Floor_unique
  · push_cast; rfl
  · push_cast; rw [pow_succ]; have : (0:Int) < 2 ^ k := by positivity
    omega

@[simp] theorem log2Ceil_pow (k : Nat) : log2Ceil ((2 ^ k : Nat) : Int) = k := by
  unfold log2Ceil
  rw [log2Floor_pow]
  simp [Nat.shiftLeft_eq]

theorem log2Ceil_pow' (k : Nat) : log2Ceil ((2 : Int) ^ k) = k := by
  have := log2Ceil_pow k; push_cast at this; exact this

theorem chunkRangesLoop_eq (N c k : Nat) : ∀ b, chunkRangesLoop N c k b =
    tab k (fun i => ⟨b + i * c, min N (b + (i + 1) * c)⟩) := by
  induction k with
  | zero => intro b; rfl
  | succ k ih =>
    intro b
    rw [chunkRangesLoop, ih, tab_succ]
    congr 1
    · simp only [goMin, zero_mul, add_zero, zero_add, one_mul]
      congr 1
      split <;> omega
    · apply tab_congr; intro i _
      have : b + c + i * c = b + (i + 1) * c := by ring
      have h2 : b + c + (i + 1) * c = b + (i + 1 + 1) * c := by ring
      rw [this, h2]

/-- The chunk size used by `intoChunkRanges`. -/
def chunkSizeOf (nCore : Int) (N : Nat) : Nat := max 4096 (Int.tdiv N nCore).toNat

theorem intoChunkRanges_eq {nCore : Int} (h : nCore ≠ 0) (N : Nat) :
    intoChunkRanges nCore N = .ok (tab ((N + chunkSizeOf nCore N - 1) / chunkSizeOf nCore N)
      (fun i => ⟨i * chunkSizeOf nCore N, min N ((i + 1) * chunkSizeOf nCore N)⟩)) := by
  unfold intoChunkRanges
  simp only [maxChunkPerCore, Nat.cast_one, one_mul, h, if_false, minChunkSize]
  have hc : (goMax ((4096 : Nat) : Int) (Int.tdiv N nCore)).toNat = chunkSizeOf nCore N := by
    unfold goMax chunkSizeOf
    split <;> omega
  rw [hc]
  have hpos : 0 < chunkSizeOf nCore N := by unfold chunkSizeOf; omega
  generalize chunkSizeOf nCore N = c at *
  rw [chunkRangesLoop_eq]
  congr 2
  · rw [show (N + c - 1) / c = if N / c * c < N then N / c + 1 else N / c from ?_]
    have hd := Nat.div_add_mod N c
    have hm := Nat.mod_lt N hpos
    split
    · rename_i hlt
      have : 0 < N % c := by rw [mul_comm] at hlt; omega
      rw [Nat.div_eq_iff hpos]
      rw [mul_comm c] at hd
      rw [Nat.add_mul]; omega
    · rename_i hlt
      have : N % c = 0 := by rw [mul_comm] at hlt; omega
      rw [Nat.div_eq_iff hpos]
      rw [mul_comm c] at hd
      omega
  · funext i; simp

end GkrMimc
