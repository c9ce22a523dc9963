import Verif.Proofs.Tables

/-! Lemmas on `eq.go`. -/

set_option linter.unusedSectionVars false

namespace GkrMimc

open Finset Spec

section Doubling
variable {V : Type _}

/-- The loop nest shared by `GetFoldedEqTable` and `GetChunkedEqTable`: if step `(i,j)` replaces the entry `A i j` at
`j*2^(n-i)` by `A (i+1) (2j)` and writes `A (i+1) (2j+1)` half a block further, the result is `A n`. -/
theorem doubling (n : Nat) (z : V) (A : Nat → Nat → V) (step : Nat → Nat → List V → Go (List V))
    (hstep : ∀ i < n, ∀ j < 2 ^ i, ∀ f : Nat → V, f (j * 2 ^ (n - i)) = A i j →
      f (j * 2 ^ (n - i) + 2 ^ (n - 1 - i)) = z →
      step i j (tab (2 ^ n) f) = .ok (tab (2 ^ n) (Function.update
        (Function.update f (j * 2 ^ (n - i) + 2 ^ (n - 1 - i)) (A (i + 1) (2 * j + 1)))
        (j * 2 ^ (n - i)) (A (i + 1) (2 * j))))) :
    forN n (tab (2 ^ n) (fun x => if x = 0 then A 0 0 else z))
      (fun i t => forN (1 <<< i) t (step i)) = .ok (tab (2 ^ n) (A n)) := by
  let st : Nat → Nat → V := fun i x => if 2 ^ (n - i) ∣ x then A i (x / 2 ^ (n - i)) else z
  have main := forN_eq (body := fun i t => forN (1 <<< i) t (step i)) (fun i => tab (2 ^ n) (st i)) n (by
    intro i hi
    have hw : 2 ^ (n - i) = 2 * 2 ^ (n - (i + 1)) := by
      rw [← pow_succ']; congr 1; omega
    have hn : 2 ^ n = 2 ^ i * 2 ^ (n - i) := by rw [← pow_add]; congr 1; omega
    have hh : n - 1 - i = n - (i + 1) := by omega
    have hw1 : 0 < 2 ^ (n - (i + 1)) := Nat.two_pow_pos _
    set w := 2 ^ (n - (i + 1)) with hwdef
    have inner := forN_eq (body := step i)
      (fun j => tab (2 ^ n) (fun x => if x < j * (2 * w) then st (i + 1) x else st i x)) (2 ^ i) (by
      intro j hj
      have hs := hstep i hi j hj (fun x => if x < j * (2 * w) then st (i + 1) x else st i x)
      rw [hw, hh, ← hwdef] at hs
      rw [hs]
      · congr 1
        apply tab_congr
        intro x hx
        have e : (j + 1) * (2 * w) = j * (2 * w) + 2 * w := by ring
        simp only [Function.update_apply]
        by_cases h1 : x = j * (2 * w)
        · subst h1
          simp only [if_true, st, ← hwdef]
          have d : w ∣ j * (2 * w) := ⟨j * 2, by ring⟩
          have q : j * (2 * w) / w = 2 * j := by
            rw [show j * (2 * w) = (2 * j) * w by ring, Nat.mul_div_cancel _ hw1]
          rw [if_pos (by omega), if_pos d, q]
        · rw [if_neg h1]
          by_cases h2 : x = j * (2 * w) + w
          · subst h2
            simp only [if_true, st, ← hwdef]
            have d : w ∣ j * (2 * w) + w := ⟨j * 2 + 1, by ring⟩
            have q : (j * (2 * w) + w) / w = 2 * j + 1 := by
              rw [show j * (2 * w) + w = (2 * j + 1) * w by ring, Nat.mul_div_cancel _ hw1]
            rw [if_pos (by omega), if_pos d, q]
          · rw [if_neg h2]
            by_cases h3 : x < j * (2 * w)
            · rw [if_pos h3, if_pos (by omega)]
            · rw [if_neg h3]
              by_cases h4 : x < (j + 1) * (2 * w)
              · rw [if_pos h4]
                have nd : ¬ w ∣ x := by
                  rintro ⟨y, rfl⟩
                  have a1 : 2 * j < y := by
                    by_contra hc
                    have : w * y ≤ w * (2 * j) := Nat.mul_le_mul_left _ (by omega)
                    have : w * (2 * j) = j * (2 * w) := by ring
                    omega
                  have a2 : y < 2 * j + 2 := by
                    by_contra hc
                    have : w * (2 * j + 2) ≤ w * y := Nat.mul_le_mul_left _ (by omega)
                    have : w * (2 * j + 2) = j * (2 * w) + 2 * w := by ring
                    omega
                  have : y = 2 * j + 1 := by omega
                  subst this
                  exact h2 (by ring)
                have nd2 : ¬ 2 * w ∣ x := fun h => nd (dvd_trans ⟨2, by ring⟩ h)
                simp only [st, ← hwdef, hw]
                rw [if_neg nd, if_neg nd2]
              · rw [if_neg h4]
      · simp only [lt_irrefl, if_false, st, hw]
        rw [if_pos ⟨j, by ring⟩, Nat.mul_div_cancel _ (by omega)]
      · rw [if_neg (by omega)]
        simp only [st, hw]
        rw [if_neg]
        rintro ⟨y, hy⟩
        have e1 : w * (2 * j + 1) = w * (2 * y) := by
          calc w * (2 * j + 1) = j * (2 * w) + w := by ring
            _ = 2 * w * y := hy
            _ = w * (2 * y) := by ring
        have := Nat.eq_of_mul_eq_mul_left hw1 e1
        omega)
    have e0 : (fun x => if x < 0 * (2 * w) then st (i + 1) x else st i x) = st i := by
      funext x; simp
    rw [e0] at inner
    simp only [Nat.shiftLeft_eq, one_mul]
    rw [inner]
    congr 1
    apply tab_congr
    intro x hx
    rw [hn, hw] at hx
    simp [hx])
  have e0 : tab (2 ^ n) (st 0) = tab (2 ^ n) (fun x => if x = 0 then A 0 0 else z) := by
    apply tab_congr
    intro x hx
    simp only [st, Nat.sub_zero]
    by_cases h : x = 0
    · subst h; simp
    · have : ¬ 2 ^ n ∣ x := fun hd => by have := Nat.le_of_dvd (by omega) hd; omega
      simp [h, this]
  rw [e0] at main
  rw [main]
  congr 1
  apply tab_congr
  intro x _
  simp [st]

end Doubling

variable {F : Type} [Field F]

theorem chi_snoc0 (x : List F) (r : F) (i : Nat) : chi (x ++ [r]) (2 * i) = chi x i * (1 - r) := by
  have h := chi_append x [r] i (j := 0) (by simp)
  have : chi [r] 0 = 1 - r := by simp [chi_cons]
  rw [this] at h
  simpa [mul_comm] using h

theorem chi_snoc1 (x : List F) (r : F) (i : Nat) : chi (x ++ [r]) (2 * i + 1) = chi x i * r := by
  have h := chi_append x [r] i (j := 1) (by simp)
  have : chi [r] 1 = r := by simp [chi_cons]
  rw [this] at h
  simpa [mul_comm] using h

theorem take_succ_get (x : List F) {i : Nat} (h : i < x.length) : x.take (i + 1) = x.take i ++ [x[i]] := by
  rw [List.take_succ_eq_append_getElem h]

theorem getFoldedEqTable_eq (q : List F) : getFoldedEqTable q = .ok (tab (2 ^ q.length) (chi q)) := by
  unfold getFoldedEqTable
  simp only [Nat.shiftLeft_eq, one_mul]
  rw [replicate_eq_tab, setIdx_tab (Nat.two_pow_pos _)]
  simp only [ok_bind]
  have h := doubling q.length (0 : F) (fun i => chi (q.take i))
    (fun i => foldedEqStep q.length i (q.getD i 0)) (by
      intro i hi j hj f h1 h2
      have hn : 2 ^ q.length = 2 ^ i * 2 ^ (q.length - i) := by rw [← pow_add]; congr 1; omega
      have hw : 2 ^ (q.length - i) = 2 * 2 ^ (q.length - 1 - i) := by
        rw [← pow_succ']; congr 1; omega
      have hp : 0 < 2 ^ (q.length - 1 - i) := Nat.two_pow_pos _
      have hJ : j * 2 ^ (q.length - i) + 2 ^ (q.length - i) ≤ 2 ^ q.length := by
        rw [hn, ← Nat.succ_mul]; exact Nat.mul_le_mul_right _ hj
      unfold foldedEqStep
      simp only [Nat.shiftLeft_eq, one_mul]
      rw [idx_tab (by omega)]
      simp only [ok_bind]
      rw [setIdx_tab (by omega)]
      simp only [ok_bind]
      rw [idx_tab (by omega), idx_tab (by omega)]
      simp only [ok_bind]
      rw [setIdx_tab (by omega)]
      have hne : j * 2 ^ (q.length - i) ≠ j * 2 ^ (q.length - i) + 2 ^ (q.length - 1 - i) := by omega
      simp only [Function.update_self, Function.update_of_ne hne, h1]
      rw [take_succ_get q hi, chi_snoc0, chi_snoc1]
      have hg : q.getD i 0 = q[i] := by simp [hi]
      rw [hg]
      congr 3
      · ring_nf
      · ring)
  have e0 : tab (2 ^ q.length) (Function.update (fun _ => (0 : F)) 0 1) =
      tab (2 ^ q.length) (fun x => if x = 0 then chi (q.take 0) 0 else 0) := by
    apply tab_congr; intro x _; simp [Function.update_apply]
  rw [e0]
  simp only [List.take_length] at h
  rw [← h]
  apply forN_congr
  intro i hi s
  rw [idx_ok hi]
  simp [Nat.shiftLeft_eq, hi]

theorem evalEq_eq (q h : List F) (hl : q.length ≤ h.length) : evalEq q h = .ok (eqPoly q h) := by
  unfold evalEq
  have := forN_eq (body := fun i (res : F) => (do
    let q ← idx q i
    let h ← idx h i
    let nxt := q * h
    let nxt := nxt + nxt
    let nxt := nxt + 1
    let sum := q + h
    let nxt := nxt - sum
    return res * nxt : Go F)) (fun i => eqPoly (q.take i) (h.take i)) q.length (by
      intro i hi
      have hi2 : i < h.length := by omega
      rw [idx_ok hi, idx_ok hi2]
      simp only [ok_bind, go_pure]
      congr 1
      rw [take_succ_get q hi, take_succ_get h hi2]
      unfold eqPoly
      rw [List.zipWith_append (by simp; omega)]
      simp only [List.zipWith_cons_cons, List.zipWith_nil_left, List.prod_append, List.prod_cons, List.prod_nil,
        mul_one]
      congr 1; ring)
  have e0 : eqPoly (q.take 0) (h.take 0) = 1 := by simp [eqPoly]
  rw [e0] at this
  rw [this]
  congr 1
  unfold eqPoly
  rw [List.take_length]
  congr 1
  apply List.ext_getElem
  · simp
  · intro i h1 h2; simp

theorem evalEq_err (q h : List F) (hl : h.length < q.length) : evalEq q h = .error .index := by
  unfold evalEq forN
  obtain ⟨d, hd⟩ : ∃ d, q.length = h.length + (d + 1) := ⟨q.length - h.length - 1, by omega⟩
  rw [hd, forFrom_append]
  have h1 := evalEq_eq (q.take h.length) h (by simp)
  unfold evalEq forN at h1
  have e : (q.take h.length).length = h.length := by simp; omega
  rw [e] at h1
  have e2 : ∀ (n k : Nat) (s : F), k + n ≤ h.length → forFrom (fun i (res : F) => (do
      let q ← idx (q.take h.length) i
      let h ← idx h i
      let nxt := q * h
      let nxt := nxt + nxt
      let nxt := nxt + 1
      let sum := q + h
      let nxt := nxt - sum
      return res * nxt : Go F)) k n s = forFrom (fun i (res : F) => (do
      let q ← idx q i
      let h ← idx h i
      let nxt := q * h
      let nxt := nxt + nxt
      let nxt := nxt + 1
      let sum := q + h
      let nxt := nxt - sum
      return res * nxt : Go F)) k n s := by
    intro n
    induction n with
    | zero => intro k s _; rfl
    | succ n ih =>
      intro k s hk
      have h1 : k < q.length := by omega
      have h2 : k < h.length := by omega
      rw [forFrom, forFrom, idx_ok (xs := q.take h.length) (by simp; omega), idx_ok h1, idx_ok h2]
      simp only [ok_bind, go_pure, List.getElem_take]
      exact ih _ _ (by omega)
  rw [e2 _ _ _ (by omega)] at h1
  rw [h1]
  simp only [ok_bind, forFrom, Nat.zero_add]
  rw [idx_ok (by omega), idx_err le_rfl]
  rfl

/-- The extension of the eq table is the eq polynomial. -/
theorem mleF_chi (q : List F) : ∀ (h : List F), h.length = q.length → mleF (chi q) h = eqPoly q h := by
  induction q with
  | nil => intro h hl; have : h = [] := by simpa using hl
           subst this; simp [eqPoly]
  | cons a q ih =>
    intro h hl
    cases h with
    | nil => simp at hl
    | cons b h =>
      have hl : h.length = q.length := by simpa using hl
      rw [mleF_cons]
      have : mleF (fun i => chi (a :: q) i + (chi (a :: q) (2 ^ h.length + i) - chi (a :: q) i) * b) h
          = mleF (fun i => (a * b + (1 - a) * (1 - b)) * chi q i) h := by
        apply mleF_congr
        intro i hi
        rw [hl] at hi ⊢
        rw [chi_cons_lo a q hi, chi_cons_hi a q hi]; ring
      rw [this]
      have e : mleF (fun i => (a * b + (1 - a) * (1 - b)) * chi q i) h
          = (a * b + (1 - a) * (1 - b)) * mleF (chi q) h := by
        unfold mleF; rw [Finset.mul_sum]; apply Finset.sum_congr rfl; intro i _; ring
      rw [e, ih h hl]
      simp [eqPoly]

/-- `chi q i = eq(q, bits of i)`. -/
theorem chi_eq_eqPoly (q : List F) {i : Nat} (hi : i < 2 ^ q.length) :
    chi q i = eqPoly q (bits q.length i) := by
  rw [← mleF_chi q _ (by simp), mleF_bits q.length _ hi]

theorem eqPoly_comm (q h : List F) : eqPoly q h = eqPoly h q := by
  unfold eqPoly
  rw [List.zipWith_comm]
  congr 2
  funext a b; ring

end GkrMimc
