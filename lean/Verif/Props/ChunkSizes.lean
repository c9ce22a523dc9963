import Verif.Props.Common

/-! Property C02: the sizes of the ranges, exactly. -/

namespace GkrMimc

/-- C02. Range `k` starts at `k * c` and ends at `(k + 1) * c` or at `N`, whatever comes first, and there are as many ranges as it takes;
`c` is `N / nCore`, rounded down, but at least 4096. On at most 4096 cores there is at most one range more than there are cores. -/
theorem C02_sizes (m N : Nat) (hm : 1 ≤ m) :
    ∃ rs, intoChunkRanges m N = .ok rs ∧
      (∀ k (hk : k < rs.length), rs[k].begin_ = k * max 4096 (N / m) ∧ rs[k].end_ = min N ((k + 1) * max 4096 (N / m))) ∧
      (∀ k, k < rs.length ↔ k * max 4096 (N / m) < N) ∧ (m ≤ 4096 → rs.length ≤ m + 1) := by
  have hcs : chunkSizeOf (m : Int) N = max 4096 (N / m) := by
    unfold chunkSizeOf
    have : Int.tdiv (N : Int) (m : Int) = ((N / m : Nat) : Int) := by
      rw [Int.tdiv_eq_ediv_of_nonneg (by omega)]; simp
    rw [this, Int.toNat_natCast]
  have hr := intoChunkRanges_eq (show (m : Int) ≠ 0 by omega) N
  rw [hcs] at hr
  have hN : N < (N / m + 1) * m := by
    have := Nat.lt_div_mul_add (a := N) (b := m) (by omega)
    rw [Nat.add_mul]; omega
  have hc1 : 4096 ≤ max 4096 (N / m) := le_max_left _ _
  have hc2 : N / m ≤ max 4096 (N / m) := le_max_right _ _
  generalize max 4096 (N / m) = c at *
  have hlast : ∀ k, k < (N + c - 1) / c ↔ k * c < N := by
    intro k
    rw [Nat.lt_div_iff_mul_lt (by omega)]
    constructor <;> intro hh <;> rw [mul_comm] at * <;> omega
  refine ⟨_, hr, fun k hk => by simp only [tab_get, and_self], fun k => by rw [tab_length]; exact hlast k, fun hm' => ?_⟩
  rw [tab_length]
  by_contra hcon
  have h1 := (hlast (m + 1)).1 (by omega)
  have h2 : (N / m + 1) * m ≤ (c + 1) * m := Nat.mul_le_mul_right _ (by omega)
  have h3 : (m + 1) * c = c * m + c := by ring
  have h4 : (c + 1) * m = c * m + m := by ring
  omega

/-- C02. With a negative number of cores all ranges have the least size. -/
theorem C02_negative (n : Int) (N : Nat) (hn : n < 0) :
    ∃ rs, intoChunkRanges n N = .ok rs ∧
      (∀ k (hk : k < rs.length), rs[k].begin_ = k * 4096 ∧ rs[k].end_ = min N ((k + 1) * 4096)) ∧ ∀ k, k < rs.length ↔ k * 4096 < N := by
  have hcs : chunkSizeOf n N = 4096 := by
    unfold chunkSizeOf
    have : Int.tdiv (N : Int) n ≤ 0 := by
      obtain ⟨m, rfl⟩ := Int.exists_eq_neg_ofNat (show n ≤ 0 by omega)
      rw [Int.tdiv_neg, Int.tdiv_eq_ediv_of_nonneg (by omega)]
      have : 0 ≤ (N : Int) / (m : Int) := Int.ediv_nonneg (by omega) (by omega)
      omega
    rw [Int.toNat_of_nonpos this]
    rfl
  have hr := intoChunkRanges_eq (show n ≠ 0 by omega) N
  rw [hcs] at hr
  refine ⟨_, hr, fun k hk => by simp only [tab_get, and_self], fun k => ?_⟩
  rw [tab_length, Nat.lt_div_iff_mul_lt (by omega)]
  omega

/-- Three cores and one range more; a negative number of cores. -/
example : (∃ rs, intoChunkRanges (3 : Nat) 12289 = .ok rs ∧ rs.length = 3 + 1) ∧
    intoChunkRanges (-2) 5000 = .ok [⟨0, 4096⟩, ⟨4096, 5000⟩] := by
  refine ⟨⟨[⟨0, 4096⟩, ⟨4096, 8192⟩, ⟨8192, 12288⟩, ⟨12288, 12289⟩], by decide +kernel, rfl⟩, by decide +kernel⟩

end GkrMimc
