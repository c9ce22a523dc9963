import Verif.Model.MachInt
import Verif.Proofs.Common

/-! The 64-bit versions of the functions compute what the unbounded models compute, as long as nothing overflows. -/

namespace GkrMimc

theorem reg_nat {a : Nat} (h : a < 2 ^ 64) : reg (a : Int) = a := by
  unfold reg; omega

theorem reg_lt (x : Int) : reg x < 2 ^ 64 := by
  unfold reg; omega

theorem sgn_nat {a : Nat} (h : a < 2 ^ 63) : sgn a = a := by
  unfold sgn; split <;> omega

theorem sgn_reg {x : Int} (h : -2 ^ 63 ≤ x) (h' : x < 2 ^ 63) : sgn (reg x) = x := by
  unfold sgn reg; split <;> omega

theorem sgn_range (a : Nat) : -2 ^ 63 ≤ sgn a ∧ sgn a < 2 ^ 63 := by
  unfold sgn; split <;> omega

theorem wAdd_eq {a b : Nat} (h : a + b < 2 ^ 63) : wAdd a b = a + b := by
  unfold wAdd
  rw [sgn_nat (by omega), sgn_nat (by omega), ← Nat.cast_add, reg_nat (by omega)]

theorem wSub_eq {a b : Nat} (h : b ≤ a) (ha : a < 2 ^ 63) : wSub a b = a - b := by
  unfold wSub
  rw [sgn_nat ha, sgn_nat (by omega), ← Nat.cast_sub h, reg_nat (by omega)]

theorem sgn_wSub {a b : Nat} (ha : a < 2 ^ 63) (hb : b < 2 ^ 63) : sgn (wSub a b) = (a : Int) - b := by
  unfold wSub
  rw [sgn_nat ha, sgn_nat hb, sgn_reg (by omega) (by omega)]

/-- A negative difference is a huge register. -/
theorem wSub_big {a b : Nat} (h : a < b) (hb : b < 2 ^ 63) : 2 ^ 63 ≤ wSub a b := by
  unfold wSub
  rw [sgn_nat (by omega), sgn_nat hb]
  unfold reg; omega

theorem wMul_eq {a b : Nat} (ha : a < 2 ^ 63) (hb : b < 2 ^ 63) (h : a * b < 2 ^ 63) : wMul a b = a * b := by
  unfold wMul
  rw [sgn_nat ha, sgn_nat hb, ← Nat.cast_mul, reg_nat (by omega)]

theorem wDiv_eq {a b : Nat} (ha : a < 2 ^ 63) (hb : b < 2 ^ 63) : wDiv a b = goDiv a b := by
  unfold wDiv goDiv
  rw [sgn_nat ha, sgn_nat hb]
  by_cases h : b = 0
  · simp [h]
  · have h' : ¬ (b : Int) = 0 := by omega
    rw [if_neg h, if_neg h']
    have : Int.tdiv (a : Int) b = ((a / b : Nat) : Int) := by simp [Int.tdiv]
    rw [this, reg_nat]
    exact lt_of_le_of_lt (Nat.div_le_self a b) (by omega)

theorem wHalf_eq {a : Nat} (ha : a < 2 ^ 63) : wHalf a = a / 2 := by
  unfold wHalf
  rw [sgn_nat ha]
  have : Int.tdiv (a : Int) 2 = ((a / 2 : Nat) : Int) := by
    rw [Int.tdiv_eq_ediv_of_nonneg (by omega)]; omega
  rw [this, reg_nat (by omega)]

theorem wIter_eq {a : Nat} (ha : a < 2 ^ 63) : wIter a = a := by
  unfold wIter; rw [sgn_nat ha]; simp

theorem wMake_eq {lim a : Nat} (hl : lim < 2 ^ 63) (ha : a ≤ lim) : wMake lim a = .ok a := by
  unfold wMake
  rw [sgn_nat (by omega), if_neg (by omega)]; simp

theorem wMake0_eq {a : Nat} (ha : a < 2 ^ 63) : wMake0 a = .ok a := by
  unfold wMake0
  rw [sgn_nat ha, if_neg (by omega)]; simp

theorem wShl_eq {a k : Nat} (ha : a < 2 ^ 63) (hk : k < 2 ^ 63) (h : a * 2 ^ k < 2 ^ 63) :
    wShl a k = .ok (a <<< k) := by
  unfold wShl
  rw [sgn_nat ha, sgn_nat hk, if_neg (by omega), Nat.shiftLeft_eq]
  have : (a : Int) * 2 ^ (k : Int).toNat = ((a * 2 ^ k : Nat) : Int) := by push_cast; simp
  rw [this, reg_nat (by omega)]

theorem wShr1_eq {a : Nat} (ha : a < 2 ^ 63) : wShr1 a = a / 2 := by
  unfold wShr1
  rw [sgn_nat ha]
  have e : (a : Int) >>> 1 = ((a / 2 : Nat) : Int) := by
    simp [Int.shiftRight_eq_div_pow]
  rw [e, reg_nat (by omega)]

/-- The loop of `Log2Floor`. -/
theorem log2FloorLoopW_nat (a : Nat) : ∀ res, a < 2 ^ 63 → res + a < 2 ^ 63 →
    log2FloorLoopW a res = log2Floor (a : Int) + res := by
  induction a using Nat.strong_induction_on with
  | _ a ih =>
    intro res ha hr
    rw [log2FloorLoopW]
    by_cases h : 1 < a
    · have e : ((a : Int) / 2) = ((a / 2 : Nat) : Int) := by simp
      have hs := log2Floor_step (a := (a : Int)) (by omega)
      rw [dif_pos (by rw [sgn_nat ha]; omega), wShr1_eq ha, wAdd_eq (by omega), ih (a / 2) (by omega) _ (by omega) (by omega),
        hs, e]
      omega
    · rw [dif_neg (by rw [sgn_nat ha]; omega), log2Floor_le_one (by omega)]; omega

theorem log2Floor_lt {a : Int} (h : a < 2 ^ 63) : log2Floor a < 63 := by
  by_cases h1 : 1 ≤ a
  · obtain ⟨h2, _⟩ := log2Floor_spec h1
    by_contra hc
    have : (2 : Int) ^ 63 ≤ 2 ^ log2Floor a := pow_le_pow_right₀ (by norm_num) (by omega)
    omega
  · rw [log2Floor_le_one (by omega)]; omega

/-- `Log2Floor` on 64 bits is exact on every `int`. -/
theorem log2FloorW_eq (a : Nat) : log2FloorW a = log2Floor (sgn a) := by
  unfold log2FloorW
  by_cases h : 1 < sgn a
  · obtain ⟨_, h2⟩ := sgn_range a
    -- the register holds a positive number: one step brings it into canonical form
    have hs : wShr1 a = ((sgn a).toNat) / 2 := by
      unfold wShr1
      have e : sgn a >>> 1 = sgn a / 2 := by simp [Int.shiftRight_eq_div_pow]
      rw [e]; unfold reg; omega
    have e : (((sgn a).toNat / 2 : Nat) : Int) = sgn a / 2 := by omega
    rw [log2FloorLoopW, dif_pos h, hs, wAdd_eq (by omega), log2FloorLoopW_nat _ _ (by omega) (by omega),
      log2Floor_step (a := sgn a) (by omega), e]
  · rw [log2FloorLoopW, dif_neg h, log2Floor_le_one (by omega)]

/-- `Log2Ceil` on 64 bits is exact on every `int`. -/
theorem log2CeilW_eq (a : Nat) : log2CeilW a = .ok (log2Ceil (sgn a)) := by
  have h63 := log2Floor_lt (sgn_range a).2
  unfold log2CeilW log2Ceil
  simp only [log2FloorW_eq]
  have hp : 2 ^ log2Floor (sgn a) < 2 ^ 63 := Nat.pow_lt_pow_right (by norm_num) h63
  rw [wShl_eq (by norm_num) (by omega) (by rw [one_mul]; exact hp)]
  simp only [ok_bind]
  rw [sgn_nat (a := 1 <<< log2Floor (sgn a)) (by rw [Nat.shiftLeft_eq, one_mul]; exact hp), wAdd_eq (by omega)]
  rfl

theorem log2CeilW_nat {a : Nat} (h : a < 2 ^ 63) : log2CeilW a = .ok (log2Ceil (a : Int)) := by
  rw [log2CeilW_eq, sgn_nat h]

theorem log2Ceil_le {a : Int} (h : a < 2 ^ 63) : log2Ceil a ≤ 63 := by
  have := log2Floor_lt h
  unfold log2Ceil
  dsimp only
  split <;> omega

theorem chunkRangesLoopW_eq (N c : Nat) (hN : N < 2 ^ 63) : ∀ (k b : Nat), b + k * c < 2 ^ 63 →
    chunkRangesLoopW N c k b = chunkRangesLoop N c k b := by
  intro k
  induction k with
  | zero => intros; rfl
  | succ k ih =>
    intro b h
    have e : (k + 1) * c = k * c + c := by ring
    rw [chunkRangesLoopW, chunkRangesLoop, wAdd_eq (by omega), ih _ (by omega)]
    congr 2
    unfold wMin goMin
    rw [sgn_nat hN, sgn_nat (by omega)]
    split <;> rfl

/-- `IntoChunkRanges` on 64 bits: exact up to `2^62` entries, for every core count. -/
theorem intoChunkRangesW_eq {nCore : Int} (hc : -2 ^ 63 ≤ nCore) (hc' : nCore < 2 ^ 63) {N : Nat} (hN : N ≤ 2 ^ 62 - 4096) :
    intoChunkRangesW (reg nCore) N = intoChunkRanges nCore N := by
  unfold intoChunkRangesW intoChunkRanges maxChunkPerCore minChunkSize
  have e1 : wMul 1 (reg nCore) = reg nCore := by
    unfold wMul
    rw [sgn_nat (by norm_num), sgn_reg hc hc']; simp
  simp only [e1, Nat.cast_one, one_mul]
  unfold wDiv
  rw [sgn_reg hc hc', sgn_nat (by omega : N < 2 ^ 63)]
  by_cases h0 : nCore = 0
  · simp [h0]
  · rw [if_neg h0, if_neg h0]
    simp only [ok_bind]
    have hq : Int.tdiv N nCore ≤ N ∧ -(N : Int) ≤ Int.tdiv N nCore := by
      have := Int.natAbs_tdiv_le_natAbs (N : Int) nCore
      omega
    generalize Int.tdiv (N : Int) nCore = q at hq
    have e2 : wMax 4096 (reg q) = (goMax 4096 q).toNat := by
      unfold wMax goMax
      rw [sgn_nat (by norm_num), sgn_reg (by omega) (by omega)]
      split
      · rename_i h; rw [if_pos (by simpa using h)]; rfl
      · rename_i h; rw [if_neg (by simpa using h)]; unfold reg; omega
    rw [e2]
    have hcs : 4096 ≤ (goMax 4096 q).toNat ∧ (goMax 4096 q).toNat ≤ max 4096 N := by
      unfold goMax; split <;> omega
    simp only [Nat.cast_ofNat]
    generalize (goMax 4096 q).toNat = cs at hcs
    have hcs2 : cs < 2 ^ 63 := by omega
    rw [sgn_nat hcs2, if_neg (by omega)]
    simp only [ok_bind]
    have e3 : Int.tdiv (N : Int) cs = ((N / cs : Nat) : Int) := by simp [Int.tdiv]
    have hd : N / cs * cs ≤ N := Nat.div_mul_le_self N cs
    have hd2 : N / cs ≤ N := Nat.div_le_self _ _
    rw [e3, reg_nat (by omega), wMul_eq (by omega) hcs2 (by omega), sgn_nat (by omega : N / cs * cs < 2 ^ 63)]
    have key : ∀ k, k ≤ N + 1 → k * cs < 2 ^ 63 →
        (wMake0 k >>= fun k => (pure (chunkRangesLoopW N cs k 0) : Go _)) = .ok (chunkRangesLoop N cs k 0) := by
      intro k hk hk2
      rw [wMake0_eq (by omega)]
      simp only [ok_bind]
      rw [chunkRangesLoopW_eq N cs (by omega) _ _ (by omega)]; rfl
    by_cases hlt : N / cs * cs < N
    · have hlt' : ((N / cs * cs : Nat) : Int) < (N : Int) := by exact_mod_cast hlt
      rw [if_pos hlt', if_pos hlt, wAdd_eq (by omega)]
      apply key _ (by omega)
      have e : (N / cs + 1) * cs = N / cs * cs + cs := by ring
      rw [e]; omega
    · have hlt' : ¬ ((N / cs * cs : Nat) : Int) < (N : Int) := by exact_mod_cast hlt
      rw [if_neg hlt', if_neg hlt]
      apply key _ (by omega) (by omega)

end GkrMimc
