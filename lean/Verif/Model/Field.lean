import Mathlib.NumberTheory.LucasPrimality
import Mathlib.Tactic.NormNum.Prime
import Mathlib.Tactic.Ring
import Mathlib.Data.ZMod.Basic
import Mathlib.Algebra.Field.ZMod

/-! The scalar field of BN254 (`github.com/consensys/gurvy/bn256/fr`, imported e.g. by common/challenge.go:6).
The modulus is that of gurvy's `fr.Modulus()`; gurvy itself is not part of /repo. -/

namespace GkrMimc

/-- The order of the BN254 scalar field. -/
def frModulus : Nat := 21888242871839275222246405745257275088548364400416034343698204186575808495617

/-- Modular power by repeated squaring (structural in `fuel`, so the kernel can run it on literals). -/
def powMod (m : Nat) : (fuel a e acc : Nat) → Nat
  | 0, _, _, acc => acc % m
  | fuel + 1, a, e, acc =>
    powMod m fuel (a * a % m) (e / 2) (if e % 2 = 1 then acc * a % m else acc)

theorem powMod_eq (m : Nat) : ∀ (fuel a e acc : Nat), e < 2 ^ fuel →
    powMod m fuel a e acc = acc * a ^ e % m := by
  intro fuel
  induction fuel with
  | zero =>
    intro a e acc h
    have : e = 0 := by simpa using h
    simp [powMod, this]
  | succ fuel ih =>
    intro a e acc h
    rw [powMod, ih _ _ _ (by rw [pow_succ] at h; omega)]
    have he : a ^ e = (a * a) ^ (e / 2) * a ^ (e % 2) := by
      rw [← pow_two, ← pow_mul, ← pow_add, Nat.div_add_mod]
    have h1 : ∀ x, x * (a * a % m) ^ (e / 2) % m = x * (a * a) ^ (e / 2) % m := by
      intro x
      exact ((Nat.ModEq.refl x).mul ((Nat.mod_modEq (a * a) m).pow _))
    rw [h1, he]
    rcases Nat.mod_two_eq_zero_or_one e with h2 | h2
    · simp [h2]
    · simp only [h2, if_true, pow_one]
      have : acc * a % m * (a * a) ^ (e / 2) % m = acc * a * (a * a) ^ (e / 2) % m :=
        (Nat.mod_modEq (acc * a) m).mul_right _
      rw [this]; congr 1; ring

/-- The computable part of a Pratt certificate: `∏ fs = p-1`, `a^(p-1) = 1`, `a^((p-1)/q) ≠ 1` for `q ∈ fs`. -/
def prattCheck (p a fuel : Nat) (fs : List Nat) : Bool :=
  decide (1 < p) && decide (p < 2 ^ fuel) && decide (fs.prod = p - 1) &&
    decide (powMod p fuel a (p - 1) 1 = 1) && fs.all fun q => decide (powMod p fuel a ((p - 1) / q) 1 ≠ 1)

/-- Lucas' criterion with the factorisation given as a list of primes. -/
theorem prime_of_cert (p a fuel : Nat) (fs : List Nat) (hc : prattCheck p a fuel fs = true)
    (hprime : ∀ q ∈ fs, q.Prime) : p.Prime := by
  simp only [prattCheck, Bool.and_eq_true, decide_eq_true_eq, List.all_eq_true] at hc
  obtain ⟨⟨⟨⟨hp, hlt⟩, hfs⟩, ha⟩, hd⟩ := hc
  have key : ∀ e < 2 ^ fuel, ((a : ZMod p) ^ e = 1 ↔ powMod p fuel a e 1 = 1) := by
    intro e he
    have : ((a : ZMod p) ^ e = 1 ↔ ((a ^ e : Nat) : ZMod p) = ((1 : Nat) : ZMod p)) := by
      push_cast; rfl
    rw [this, ZMod.natCast_eq_natCast_iff', Nat.mod_eq_of_lt hp, powMod_eq _ _ _ _ _ he, one_mul]
  apply lucas_primality p (a : ZMod p) ((key _ (by omega)).2 ha)
  intro q hq hdvd h
  rw [← hfs] at hdvd
  obtain ⟨x, hx, hqx⟩ := (Prime.dvd_prod_iff hq.prime).1 hdvd
  have : q = x := (Nat.prime_dvd_prime_iff_eq hq (hprime x hx)).1 hqx
  subst this
  exact hd q hx ((key _ (lt_of_le_of_lt (Nat.div_le_self _ _) (by omega))).1 h)

theorem prime_405928799 : Nat.Prime 405928799 := by
  refine prime_of_cert _ 22 29 [2, 11, 3691, 4999] (by decide +kernel) ?_
  simp only [List.forall_mem_cons]
  exact ⟨by norm_num,
    by norm_num,
    by norm_num,
    by norm_num,
    by simp⟩

theorem prime_639533339 : Nat.Prime 639533339 := by
  refine prime_of_cert _ 2 30 [2, 229, 853, 1637] (by decide +kernel) ?_
  simp only [List.forall_mem_cons]
  exact ⟨by norm_num,
    by norm_num,
    by norm_num,
    by norm_num,
    by simp⟩

theorem prime_12048837557 : Nat.Prime 12048837557 := by
  refine prime_of_cert _ 2 34 [2, 2, 7, 7, 661, 93001] (by decide +kernel) ?_
  simp only [List.forall_mem_cons]
  exact ⟨by norm_num,
    by norm_num,
    by norm_num,
    by norm_num,
    by norm_num,
    by norm_num,
    by simp⟩

theorem prime_5156902474397 : Nat.Prime 5156902474397 := by
  refine prime_of_cert _ 2 43 [2, 2, 107, 12048837557] (by decide +kernel) ?_
  simp only [List.forall_mem_cons]
  exact ⟨by norm_num,
    by norm_num,
    by norm_num,
    prime_12048837557,
    by simp⟩

theorem prime_1670836401704629 : Nat.Prime 1670836401704629 := by
  refine prime_of_cert _ 2 51 [2, 2, 3, 3, 3, 3, 5156902474397] (by decide +kernel) ?_
  simp only [List.forall_mem_cons]
  exact ⟨by norm_num,
    by norm_num,
    by norm_num,
    by norm_num,
    by norm_num,
    by norm_num,
    prime_5156902474397,
    by simp⟩

theorem prime_65865678001877903 : Nat.Prime 65865678001877903 := by
  refine prime_of_cert _ 5 56 [2, 83, 379, 1637, 639533339] (by decide +kernel) ?_
  simp only [List.forall_mem_cons]
  exact ⟨by norm_num,
    by norm_num,
    by norm_num,
    by norm_num,
    prime_639533339,
    by simp⟩

theorem prime_13818364434197438864469338081 : Nat.Prime 13818364434197438864469338081 := by
  refine prime_of_cert _ 3 94 [2, 2, 2, 2, 2, 5, 823, 1593227, 65865678001877903] (by decide +kernel) ?_
  simp only [List.forall_mem_cons]
  exact ⟨by norm_num,
    by norm_num,
    by norm_num,
    by norm_num,
    by norm_num,
    by norm_num,
    by norm_num,
    by norm_num,
    prime_65865678001877903,
    by simp⟩

theorem frModulus_prime : Nat.Prime frModulus := by
  refine prime_of_cert _ 5 254 [2, 2, 2, 2, 2, 2, 2, 2, 2, 2, 2, 2, 2, 2, 2, 2, 2, 2, 2, 2, 2, 2, 2, 2, 2, 2, 2, 2, 3, 3, 13, 29, 983, 11003, 237073, 405928799, 1670836401704629, 13818364434197438864469338081]
    (by decide +kernel) ?_
  simp only [List.forall_mem_cons]
  exact ⟨by norm_num,
    by norm_num,
    by norm_num,
    by norm_num,
    by norm_num,
    by norm_num,
    by norm_num,
    by norm_num,
    by norm_num,
    by norm_num,
    by norm_num,
    by norm_num,
    by norm_num,
    by norm_num,
    by norm_num,
    by norm_num,
    by norm_num,
    by norm_num,
    by norm_num,
    by norm_num,
    by norm_num,
    by norm_num,
    by norm_num,
    by norm_num,
    by norm_num,
    by norm_num,
    by norm_num,
    by norm_num,
    by norm_num,
    by norm_num,
    by norm_num,
    by norm_num,
    by norm_num,
    by norm_num,
    by norm_num,
    prime_405928799,
    prime_1670836401704629,
    prime_13818364434197438864469338081,
    by simp⟩

instance : Fact (Nat.Prime frModulus) := ⟨frModulus_prime⟩

/-- `fr.Element`, as the field it implements. -/
abbrev Fr : Type := ZMod frModulus

instance : NeZero frModulus := ⟨frModulus_prime.ne_zero⟩

end GkrMimc
