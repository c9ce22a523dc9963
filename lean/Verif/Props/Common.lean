import Verif.Proofs.Common

/-! Properties C01 and C02. -/

namespace GkrMimc

/-- C01. `Log2Floor`/`Log2Ceil` are exact for positive arguments. -/
theorem C01_log2_exact (a : Int) (ha : 1 ≤ a) :
    (∀ k : Nat, log2Floor a = k ↔ (2 : Int) ^ k ≤ a ∧ a < (2 : Int) ^ (k + 1)) ∧
    (∀ k : Nat, log2Ceil a ≤ k ↔ a ≤ (2 : Int) ^ k) ∧
    ((1 <<< log2Floor a : Nat) : Int) ≤ a := by
  obtain ⟨h1, h2⟩ := log2Floor_spec ha
  have hs : ((1 <<< log2Floor a : Nat) : Int) = (2 : Int) ^ log2Floor a := by simp [Nat.shiftLeft_eq]
  refine ⟨fun k => ⟨?_, fun h => log2Floor_unique h.1 h.2⟩, fun k => ?_, hs ▸ h1⟩
  · rintro rfl; exact ⟨h1, h2⟩
  · unfold log2Ceil
    simp only [hs]
    split
    · rename_i hne
      have hlt : (2 : Int) ^ log2Floor a < a := lt_of_le_of_ne h1 (Ne.symm hne)
      constructor
      · intro hk
        exact le_trans h2.le (pow_le_pow_right₀ (by norm_num) hk)
      · intro hk
        exact (pow_lt_pow_iff_right₀ (by norm_num : (1 : Int) < 2)).1 (lt_of_lt_of_le hlt hk)
    · rename_i heq
      have heq : a = (2 : Int) ^ log2Floor a := not_not.1 heq
      constructor
      · intro hk
        calc a = (2 : Int) ^ log2Floor a := heq
          _ ≤ _ := pow_le_pow_right₀ (by norm_num) hk
      · intro hk
        rw [heq] at hk
        exact (pow_le_pow_iff_right₀ (by norm_num : (1 : Int) < 2)).1 hk

/-- C01, non-positive arguments. -/
theorem C01_log2_nonpos (a : Int) (ha : a ≤ 0) : log2Floor a = 0 ∧ log2Ceil a = 1 := by
  have h := log2Floor_le_one (a := a) (by omega)
  refine ⟨h, ?_⟩
  unfold log2Ceil
  simp only [h]
  have : a ≠ ((1 <<< 0 : Nat) : Int) := by simp; omega
  rw [if_pos this]

example : (1 : Int) ≤ 5 ∧ log2Floor 5 = 2 ∧ log2Ceil 5 = 3 ∧ log2Ceil 8 = 3 := by
  refine ⟨by norm_num, ?_, ?_, log2Ceil_pow 3⟩
  · exact log2Floor_unique (by norm_num) (by norm_num)
  · have h : log2Floor 5 = 2 := log2Floor_unique (by norm_num) (by norm_num)
    unfold log2Ceil; simp [h]

/-- What it means for a list of ranges to cut `[0,N)` in order: it starts at 0, each range is non-empty and begins
where the previous one ends, and the last one ends at `N`. -/
def IsPartition (N : Nat) (rs : List ChunkRange) : Prop :=
  (∀ k (h : k < rs.length), rs[k].begin_ < rs[k].end_ ∧ rs[k].end_ ≤ N) ∧
  (∀ k (h : k + 1 < rs.length), rs[k].end_ = rs[k + 1].begin_) ∧
  (∀ i < N, ∃! k, ∃ h : k < rs.length, rs[k].begin_ ≤ i ∧ i < rs[k].end_)

/-- C02. The chunk ranges cut `[0,N)`; all but the last have one common size `≥ 4096`, and there are at most
`2*nCore` of them. -/
theorem C02_chunk_ranges (nCore : Int) (N : Nat) (h : nCore ≠ 0) :
    ∃ rs, intoChunkRanges nCore N = .ok rs ∧ IsPartition N rs ∧
      (∃ size, 4096 ≤ size ∧ ∀ k (hk : k < rs.length), rs[k].end_ - rs[k].begin_ ≤ size ∧
        (k + 1 < rs.length → rs[k].end_ - rs[k].begin_ = size)) ∧
      (1 ≤ nCore → (rs.length : Int) ≤ 2 * nCore) := by
  refine ⟨_, intoChunkRanges_eq h N, ?_, ?_, ?_⟩
  all_goals
    have hpos : 4096 ≤ chunkSizeOf nCore N := by unfold chunkSizeOf; omega
  · generalize chunkSizeOf nCore N = c at *
    have hlast : ∀ k, k < (N + c - 1) / c ↔ k * c < N := by
      intro k
      rw [Nat.lt_div_iff_mul_lt (by omega)]
      constructor <;> intro hh <;> rw [mul_comm] at * <;> omega
    refine ⟨?_, ?_, ?_⟩
    · intro k hk
      simp only [tab_length] at hk
      have := (hlast k).1 hk
      simp only [tab_get]
      have e : (k + 1) * c = k * c + c := by ring
      rw [e]; omega
    · intro k hk
      simp only [tab_length] at hk
      have := (hlast (k + 1)).1 hk
      simp only [tab_get]; omega
    · intro i hi
      refine ⟨i / c, ⟨?_, ?_⟩, ?_⟩
      · rw [tab_length, hlast]
        exact lt_of_le_of_lt (Nat.div_mul_le_self i c) hi
      · simp only [tab_get]
        refine ⟨Nat.div_mul_le_self i c, lt_min hi ?_⟩
        have := Nat.lt_div_mul_add (a := i) (b := c) (by omega)
        rw [Nat.add_mul]; omega
      · rintro k ⟨hk, h1, h2⟩
        simp only [tab_get] at h1 h2
        have h3 := (lt_min_iff.1 h2).2
        symm
        rw [Nat.div_eq_iff (by omega)]
        have e : (k + 1) * c = k * c + c := by ring
        omega
  · refine ⟨chunkSizeOf nCore N, hpos, ?_⟩
    generalize chunkSizeOf nCore N = c at *
    intro k hk
    simp only [tab_length] at hk
    simp only [tab_get, tab_length]
    have e : (k + 1) * c = k * c + c := by ring
    refine ⟨by omega, fun hk2 => ?_⟩
    have : (k + 1) * c < N := by
      rw [Nat.lt_div_iff_mul_lt (by omega)] at hk2
      omega
    omega
  · intro h1
    obtain ⟨m, rfl⟩ := Int.eq_ofNat_of_zero_le (by omega : 0 ≤ nCore)
    have hm : 1 ≤ m := by omega
    have hcs : chunkSizeOf (m : Int) N = max 4096 (N / m) := by
      unfold chunkSizeOf
      have : Int.tdiv (N : Int) (m : Int) = ((N / m : Nat) : Int) := by
        rw [Int.tdiv_eq_ediv_of_nonneg (by omega)]; simp
      rw [this, Int.toNat_natCast]
    rw [tab_length]
    have : (N + chunkSizeOf (m : Int) N - 1) / chunkSizeOf (m : Int) N ≤ 2 * m := by
      rw [hcs] at *
      apply Nat.le_of_lt_succ
      rw [Nat.div_lt_iff_lt_mul (by omega)]
      have hN : N < (N / m + 1) * m := by
        have := Nat.lt_div_mul_add (a := N) (b := m) (by omega)
        rw [Nat.add_mul]; omega
      set c := max 4096 (N / m) with hc
      have h2 : N / m ≤ c := le_max_right _ _
      have h3 : (N / m + 1) * m ≤ (c + 1) * m := Nat.mul_le_mul_right _ (by omega)
      have h4 : (c + 1) * m ≤ 2 * m * c := by
        have : c + 1 ≤ 2 * c := by omega
        calc (c + 1) * m ≤ (2 * c) * m := Nat.mul_le_mul_right _ this
          _ = 2 * m * c := by ring
      have h5 : Nat.succ (2 * m) * c = 2 * m * c + c := by rw [Nat.succ_mul]
      omega
    exact_mod_cast this

/-- C02. It panics exactly for `nCore = 0`, with a division by zero. -/
theorem C02_chunk_ranges_panic (nCore : Int) (N : Nat) :
    ((∃ e, intoChunkRanges nCore N = .error e) ↔ nCore = 0) ∧ intoChunkRanges 0 N = .error .divZero := by
  have h0 : intoChunkRanges 0 N = .error .divZero := by simp [intoChunkRanges]
  refine ⟨⟨?_, ?_⟩, h0⟩
  · rintro ⟨e, he⟩
    by_contra h
    rw [intoChunkRanges_eq h] at he; cases he
  · rintro rfl; exact ⟨_, h0⟩

example : intoChunkRanges 2 10000 = .ok [⟨0, 5000⟩, ⟨5000, 10000⟩] := by decide +kernel
example : intoChunkRanges 3 12289 = .ok [⟨0, 4096⟩, ⟨4096, 8192⟩, ⟨8192, 12288⟩, ⟨12288, 12289⟩] := by
  decide +kernel

end GkrMimc
