import Verif.Spec.Snark
import Verif.Proofs.GkrSound
import Verif.Props.GkrSound

/-! Proofs about the gadgets of `snark/`. -/

set_option linter.unusedSectionVars false

namespace GkrMimc

open Spec Finset

namespace Cs

variable {F α β : Type}

theorem pure_eq (a : α) : (pure a : Cs F α) = Except.ok (a, []) := rfl

protected theorem pure_bind (a : α) (f : α → Cs F β) : ((pure a : Cs F α) >>= f) = f a := by
  change Cs.bind (Cs.pure a) f = f a
  unfold Cs.bind Cs.pure
  dsimp only
  split
  · rename_i h; exact h.symm
  · rename_i h; exact h.symm

instance : LawfulMonad (Cs F) := LawfulMonad.mk'
  (id_map := by
    intro α x
    change Cs.bind x (fun a => Cs.pure a) = x
    unfold Cs.bind Cs.pure
    cases x with
    | error e => rfl
    | ok a =>
      obtain ⟨a, as⟩ := a
      dsimp only
      rw [List.append_nil])
  (pure_bind := fun a f => Cs.pure_bind a f)
  (bind_assoc := by
    intro α β γ x f g
    change Cs.bind (Cs.bind x f) g = Cs.bind x (fun a => Cs.bind (f a) g)
    unfold Cs.bind
    cases x with
    | error e => rfl
    | ok a =>
      obtain ⟨a, as⟩ := a
      dsimp only
      cases f a with
      | error e => rfl
      | ok b =>
        obtain ⟨b, bs⟩ := b
        dsimp only
        cases g b with
        | error e => rfl
        | ok c =>
          dsimp only
          rw [List.append_assoc])

@[simp] theorem go_ok (a : α) : (go (.ok a) : Cs F α) = pure a := rfl

@[simp] theorem go_error_bind (e : Abort) (f : α → Cs F β) : ((go (.error e) : Cs F α) >>= f) = go (.error e) := rfl

theorem go_bind (x : Go α) (f : α → Go β) : (go (x >>= f) : Cs F β) = go x >>= fun a => go (f a) := by
  cases x with
  | error e => rfl
  | ok a => rw [GkrMimc.ok_bind, go_ok, pure_bind]

theorem computes_iff (x : Cs F α) (y : Go α) : x.Computes y ↔ x = go y := by
  unfold Computes go
  cases y <;> rfl

theorem foldlM_go {σ ι : Type} (body : ι → σ → Go σ) (l : List ι) : ∀ s : σ,
    l.foldlM (fun s i => (go (body i s) : Cs F σ)) s = go (forEach l s body) := by
  induction l with
  | nil => intro s; rfl
  | cons i l ih =>
    intro s
    rw [List.foldlM_cons, forEach_cons, go_bind]
    congr 1
    funext s'
    exact ih s'

theorem forEach_range' {σ : Type} (body : Nat → σ → Go σ) (n : Nat) : ∀ (k : Nat) (s : σ),
    forEach (List.range' k n) s body = forFrom body k n s := by
  induction n with
  | zero => intro k s; rfl
  | succ n ih =>
    intro k s
    rw [List.range'_succ, forEach_cons, forFrom]
    cases body k s with
    | error e => rfl
    | ok s' => exact ih (k + 1) s'

theorem forN_go {σ : Type} (n : Nat) (s : σ) (body : Nat → σ → Go σ) :
    (Cs.forN n s (fun i s => go (body i s)) : Cs F σ) = go (GkrMimc.forN n s body) := by
  unfold Cs.forN
  rw [foldlM_go, List.range_eq_range', forEach_range']
  rfl

/-- A gadget loop whose body only computes. -/
theorem forN_of {σ : Type} (n : Nat) (s : σ) (body : Nat → σ → Cs F σ) (body' : Nat → σ → Go σ)
    (h : ∀ i s, body i s = go (body' i s)) : Cs.forN n s body = go (GkrMimc.forN n s body') := by
  rw [← forN_go]
  congr 1
  funext i s
  exact h i s

theorem sat_pure (a : α) (Q : α → Prop) : (pure a : Cs F α).Sat Q ↔ Q a := by
  constructor
  · rintro ⟨b, eqs, h, _, hQ⟩
    cases h
    exact hQ
  · intro h
    exact ⟨a, [], rfl, by simp, h⟩

theorem sat_bind (x : Cs F α) (f : α → Cs F β) (Q : β → Prop) : (x >>= f).Sat Q ↔ x.Sat fun a => (f a).Sat Q := by
  constructor
  · rintro ⟨b, eqs, h, he, hQ⟩
    cases hx : x with
    | error e => rw [hx] at h; cases h
    | ok a =>
      obtain ⟨a, as⟩ := a
      rw [hx] at h
      change (Cs.bind _ f) = _ at h
      unfold Cs.bind at h
      dsimp only at h
      cases hf : f a with
      | error e => rw [hf] at h; cases h
      | ok b' =>
        obtain ⟨b', bs⟩ := b'
        rw [hf] at h
        cases h
        exact ⟨a, as, rfl, fun e h => he e (List.mem_append_left _ h), b, bs, hf,
          fun e h => he e (List.mem_append_right _ h), hQ⟩
  · rintro ⟨a, as, rfl, ha, b, bs, hf, hb, hQ⟩
    refine ⟨b, as ++ bs, ?_, ?_, hQ⟩
    · change Cs.bind _ f = _
      unfold Cs.bind
      dsimp only
      rw [hf]
    · intro e h
      rcases List.mem_append.1 h with h | h
      · exact ha e h
      · exact hb e h

theorem sat_go (x : Go α) (Q : α → Prop) : (go x : Cs F α).Sat Q ↔ ∃ a, x = .ok a ∧ Q a := by
  cases x with
  | error e =>
    constructor
    · rintro ⟨b, eqs, h, _, _⟩; cases h
    · rintro ⟨a, h, _⟩; cases h
  | ok a =>
    rw [go_ok, sat_pure]
    constructor
    · intro h; exact ⟨a, rfl, h⟩
    · rintro ⟨b, h, hb⟩; cases h; exact hb

theorem sat_assert (a b : F) (Q : Unit → Prop) : (assertIsEqual a b).Sat Q ↔ a = b ∧ Q () := by
  constructor
  · rintro ⟨u, eqs, h, he, hQ⟩
    cases h
    exact ⟨he (a, b) (by simp), hQ⟩
  · rintro ⟨h, hQ⟩
    exact ⟨(), [(a, b)], rfl, by simpa using h, hQ⟩

theorem sat_congr {x : Cs F α} {P Q : α → Prop} (h : ∀ a, P a ↔ Q a) : x.Sat P ↔ x.Sat Q := by
  rw [show P = Q from funext fun a => propext (h a)]

end Cs

variable {F : Type} [Field F]

theorem csAdd_eq (a b : F) (more : List F) : csAdd a b more = a + b + more.sum := by
  unfold csAdd
  induction more generalizing a b with
  | nil => simp
  | cons c more ih =>
    rw [List.foldl_cons, List.sum_cons, ih (a + b) c]
    ring

/-- The hash gadget computes the native hash. -/
theorem snarkMimcHash_eq (arks stream : List F) : snarkMimcHash arks stream = Cs.go (mimcHashGo arks stream) := by
  unfold snarkMimcHash mimcHashGo
  rw [← Cs.foldlM_go]
  congr 1
  funext state m
  unfold mimcUpdate
  dsimp only
  have h : (Cs.forN mimcRounds state fun i (state : F) => (do
      let ark ← Cs.go (idx arks i)
      let state := csAdd m state [csConst ark]
      let tmp := csMul state state
      let tmp := csMul state tmp
      let tmp := csMul tmp tmp
      return csMul state tmp : Cs F F)) = Cs.go (mimcPermutation arks state m) := by
    unfold mimcPermutation
    apply Cs.forN_of
    intro i st
    rw [Cs.go_bind]
    congr 1
    funext ark
    rw [go_pure, Cs.go_ok]
    congr 1
    rw [csAdd_eq]
    unfold csConst csMul sbox
    simp only [List.sum_cons, List.sum_nil]
    rw [show m + st + (ark + 0) = st + m + ark by ring]
    ring
  rw [Cs.go_bind]
  refine (congrArg (· >>= _) h).trans ?_
  congr 1

theorem univariateEqEval_eq (q h : F) : univariateEqEval q h = q * h + (1 - q) * (1 - h) := by
  unfold univariateEqEval csConst csMul csSub
  rw [csAdd_eq]
  simp only [List.sum_nil]
  ring

theorem eqEvalGadget_eq (q h : List F) : eqEvalGadget q h = Cs.go (evalEq q h) := by
  unfold eqEvalGadget evalEq
  apply Cs.forN_of
  intro i res
  rw [Cs.go_bind]
  congr 1
  funext a
  rw [Cs.go_bind]
  congr 1
  funext b
  dsimp only
  rw [go_pure, Cs.go_ok, univariateEqEval_eq]
  congr 1
  unfold csMul
  ring

theorem fold_tab_half (n : Nat) (f : Nat → F) (r : F) :
    fold (tab n f) r = tab (n / 2) (fun i => f i + (f (i + n / 2) - f i) * r) := by
  unfold fold
  dsimp only
  rw [tab_length, tab_take (by omega), tab_drop]
  apply List.ext_getElem
  · simp; omega
  · intro i h1 h2
    simp [Nat.add_comm]

theorem mlFold_eq (t : List F) (x : F) : mlFold t x = pure (fold t x) := by
  unfold mlFold
  have e := eq_tab t 0
  generalize t.length = n at e
  generalize (fun i => t.getD i 0) = f at e
  subst e
  dsimp only
  rw [Cs.forN_of (body' := fun i table => do
    let top ← idx table (i + n / 2)
    let bot ← idx table i
    setIdx table i (bot + (top - bot) * x))]
  · have h := forN_eq (body := fun i table => (do
      let top ← idx table (i + n / 2)
      let bot ← idx table i
      setIdx table i (bot + (top - bot) * x) : Go (List F)))
      (fun i => tab n (fun j => if j < i then f j + (f (j + n / 2) - f j) * x else f j)) (n / 2) (by
      intro i hi
      rw [idx_tab (by omega), ok_bind, idx_tab (by omega), ok_bind, setIdx_tab (by omega)]
      congr 1
      apply tab_congr
      intro j hj
      rw [Function.update_apply]
      by_cases hji : j = i
      · subst hji
        rw [if_pos rfl, if_neg (by omega), if_neg (by omega), if_pos (by omega)]
      · rw [if_neg hji]
        by_cases h2 : j < i
        · rw [if_pos h2, if_pos (by omega)]
        · rw [if_neg h2, if_neg (by omega)])
    simp only [Nat.not_lt_zero, if_false] at h
    rw [h, Cs.go_ok, pure_bind]
    unfold sliceTo
    rw [if_pos (by simp; omega), Cs.go_ok, fold_tab_half, tab_take (by omega)]
    congr 1
    apply tab_congr
    intro i hi
    rw [if_pos hi]
  · intro i table
    rw [Cs.go_bind]
    congr 1
    funext top
    rw [Cs.go_bind]
    congr 1

theorem foldlM_mlFold (xs : List F) : ∀ t : List F, xs.foldlM mlFold t = pure (xs.foldl fold t) := by
  induction xs with
  | nil => intro t; rfl
  | cons x xs ih =>
    intro t
    rw [List.foldlM_cons, mlFold_eq, pure_bind, ih]
    rfl

theorem mlEval_eq (t xs : List F) : mlEval t xs = Cs.go (evaluate t xs) := by
  unfold mlEval evaluate
  rw [foldlM_mlFold, pure_bind]

theorem forN_append {α : Type} (n : Nat) (g : Nat → α) (body : Nat → List α → Cs F (List α))
    (h : ∀ i < n, ∀ acc, body i acc = pure (acc ++ [g i])) : Cs.forN n [] body = pure (tab n g) := by
  unfold Cs.forN
  induction n with
  | zero => rfl
  | succ n ih =>
    rw [List.range_succ, List.foldlM_append, ih (fun i hi => h i (by omega)), pure_bind, List.foldlM_cons,
      h n (by omega), pure_bind, tab_succ']
    rfl

theorem mlEvalMixed_eq (t qL qR qPrime : List F) (hR : qR.length = qL.length)
    (ht : t.length = 2 ^ (qL.length + qPrime.length)) :
    mlEvalMixed t qL qR qPrime = Cs.go (evaluateLeftAndRight t qPrime qL qR) := by
  have hcs : t.length / 2 ^ qL.length = 2 ^ qPrime.length := by
    rw [ht, pow_add, Nat.mul_div_cancel_left _ (by positivity)]
  unfold mlEvalMixed
  dsimp only
  rw [hcs, forN_append _ (fun i => mleF (fun j => t.getD (i * 2 ^ qPrime.length + j) 0) qPrime)]
  · have lin : ∀ x : List F, x.length = qL.length →
        evaluate (tab (2 ^ qL.length) fun i => mleF (fun j => t.getD (i * 2 ^ qPrime.length + j) 0) qPrime) x =
        evaluate t (x ++ qPrime) := by
      intro x hx
      rw [evaluate_eq t _ (by rw [List.length_append, hx]; exact ht), ← hx, evaluate_tab]
      unfold mle
      rw [mleF_append]
    rw [pure_bind, mlEval_eq, mlEval_eq]
    unfold evaluateLeftAndRight
    rw [Cs.go_bind, lin qL rfl, lin qR hR]
    congr 1
    funext l
    rw [Cs.go_bind]
    rfl
  · intro i hi acc
    have h1 : (i + 1) * 2 ^ qPrime.length ≤ t.length := by
      rw [ht, pow_add]
      exact Nat.mul_le_mul_right _ hi
    have h2 : (i + 1) * 2 ^ qPrime.length = i * 2 ^ qPrime.length + 2 ^ qPrime.length := by ring
    unfold sliceBetween
    rw [if_pos ⟨Nat.mul_le_mul_right _ (Nat.le_succ i), h1⟩, Cs.go_ok, pure_bind, mlEval_eq, evaluate_eq, Cs.go_ok, pure_bind]
    · congr 3
      apply mleF_congr
      intro j hj
      simp only [List.getD_eq_getElem?_getD]
      rw [List.getElem?_drop, List.getElem?_take, if_pos (by omega)]
    · rw [List.length_drop, List.length_take, Nat.min_eq_left h1, h2, Nat.add_sub_cancel_left]

theorem uniEval_eq (c : List F) (x : F) : uniEval c x = pure ((polyOf c).eval x) := by
  classical
  unfold uniEval
  dsimp only
  have e := eq_tab c 0
  generalize hn : c.length = n at e
  generalize hf : (fun i => c.getD i 0) = f at e
  have key : ∃ s : F × F, GkrMimc.forN n ((0, 0) : F × F) (fun j s => do
      let i := n - 1 - j
      let res := if i ≠ n - 1 then s.2 * x else s.1
      let c ← idx c i
      return (res, res + c)) = .ok s ∧ (s.2 = ∑ i ∈ range n, f (n - n + i) * x ^ i ∧ (n = 0 → s.1 = 0)) := by
    apply forN_inv (fun j (s : F × F) => s.2 = ∑ i ∈ range j, f (n - j + i) * x ^ i ∧ (j = 0 → s.1 = 0))
    · simp
    · rintro j hj s ⟨h1, h2⟩
      refine ⟨_, by dsimp only; rw [e, idx_tab (by omega), ok_bind, go_pure], ?_, by omega⟩
      dsimp only
      rw [Finset.sum_range_succ']
      have h3 : n - (j + 1) + 0 = n - 1 - j := by omega
      rw [h3, pow_zero, mul_one]
      congr 1
      by_cases hj0 : j = 0
      · subst hj0
        rw [if_neg (by simp), h2 rfl]
        simp
      · rw [if_pos (by omega), h1, Finset.sum_mul]
        apply Finset.sum_congr rfl
        intro i _
        rw [show n - (j + 1) + (i + 1) = n - j + i by omega, pow_succ]
        ring
  obtain ⟨s, hs, hv, _⟩ := key
  rw [Cs.forN_of (body' := fun j s => do
      let i := n - 1 - j
      let res := if i ≠ n - 1 then s.2 * x else s.1
      let c ← idx c i
      return (res, res + c))]
  · change Cs.go (GkrMimc.forN n ((0, 0) : F × F) _) >>= _ = _
    rw [hs, Cs.go_ok, pure_bind]
    congr 1
    unfold csMul csConst
    rw [mul_one, hv, polyOf_eval, hn]
    apply Finset.sum_congr rfl
    intro i _
    rw [← hf, Nat.sub_self, Nat.zero_add]
  · intro j s
    dsimp only
    rw [Cs.go_bind]
    congr 1

theorem uniZeroAndOne_eq (c : List F) (h : c ≠ []) :
    uniZeroAndOne c = pure ((polyOf c).eval 0 + (polyOf c).eval 1) := by
  classical
  obtain ⟨a, c, rfl⟩ := List.exists_cons_of_ne_nil h
  unfold uniZeroAndOne
  rw [idx_ok (by simp), Cs.go_ok, pure_bind, pure_bind]
  unfold sliceFrom
  rw [if_pos (by simp), Cs.go_ok, pure_bind, csAdd_eq, polyOf_eval, polyOf_eval]
  congr 1
  rw [List.length_cons, Finset.sum_range_succ', Finset.sum_range_succ']
  have h0 : ∀ k : Nat, (0 : F) ^ (k + 1) = 0 := fun k => by simp
  simp only [h0, mul_zero, Finset.sum_const_zero, pow_zero, mul_one, one_pow, List.getD_cons_succ, List.getD_cons_zero,
    List.drop_one, List.tail_cons, List.getElem_cons_zero]
  have hs : c.sum = ∑ i ∈ range c.length, c.getD i 0 := by
    clear h
    induction c with
    | nil => rfl
    | cons b c ih =>
      rw [List.length_cons, Finset.sum_range_succ', List.sum_cons, ih, add_comm]
      rfl
  rw [hs]
  ring

theorem uniZeroAndOne_nil : uniZeroAndOne ([] : List F) = Cs.go (.error .index) := rfl

end GkrMimc
