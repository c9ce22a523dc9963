import Verif.Go
import Mathlib.Algebra.BigOperators.Group.Finset.Basic
import Mathlib.Algebra.BigOperators.Intervals
import Mathlib.Algebra.BigOperators.Pi

/-! Lemmas about the Go fragment of `Verif/Go.lean`. -/

namespace GkrMimc

open Finset

section Basic
variable {α β σ : Type _}

@[simp] theorem ok_bind (a : α) (f : α → Go β) : ((Except.ok a : Go α) >>= f) = f a := rfl
@[simp] theorem error_bind (e : Abort) (f : α → Go β) :
    ((Except.error e : Go α) >>= f) = Except.error e := rfl
@[simp] theorem go_pure (a : α) : (pure a : Go α) = Except.ok a := rfl

theorem bind_eq_ok {x : Go α} {f : α → Go β} {b : β} :
    (x >>= f) = .ok b ↔ ∃ a, x = .ok a ∧ f a = .ok b := by
  cases x with
  | error e => simp
  | ok a => simp

theorem idx_ok {xs : List α} {i : Nat} (h : i < xs.length) : idx xs i = .ok xs[i] := by
  simp [idx, h]

theorem idx_err {xs : List α} {i : Nat} (h : xs.length ≤ i) : idx xs i = .error .index := by
  simp [idx, h]

theorem idx_eq_ok {xs : List α} {i : Nat} {a : α} : idx xs i = .ok a ↔ xs[i]? = some a := by
  unfold idx; split <;> simp_all

theorem setIdx_ok {xs : List α} {i : Nat} {v : α} (h : i < xs.length) :
    setIdx xs i v = .ok (xs.set i v) := by simp [setIdx, h]

theorem modIdx_ok {xs : List α} {i : Nat} {f : α → α} (h : i < xs.length) :
    modIdx xs i f = .ok (xs.set i (f xs[i])) := by simp [modIdx, h]

theorem goDiv_ok {a b : Nat} (h : 0 < b) : goDiv a b = .ok (a / b) := by
  simp [goDiv, Nat.ne_of_gt h]

theorem goSubBound_ok {a b : Nat} (h : b ≤ a) : goSubBound a b = .ok (a - b) := by
  simp [goSubBound, h]

end Basic

/-- The table of a function. -/
def tab {α : Type _} (n : Nat) (f : Nat → α) : List α := (List.range n).map f

section Tab
variable {α β : Type _}

@[simp] theorem tab_length (n : Nat) (f : Nat → α) : (tab n f).length = n := by simp [tab]

@[simp] theorem tab_get (n : Nat) (f : Nat → α) (i : Nat) (h : i < (tab n f).length) :
    (tab n f)[i] = f i := by simp [tab]

theorem tab_getElem? (n : Nat) (f : Nat → α) (i : Nat) :
    (tab n f)[i]? = if i < n then some (f i) else none := by
  by_cases h : i < n <;> simp [tab, h]

theorem tab_congr {n : Nat} {f g : Nat → α} (h : ∀ i < n, f i = g i) : tab n f = tab n g := by
  apply List.ext_getElem
  · simp
  · intro i h1 h2; simp at h1; simp [h i h1]

theorem tab_ext {n : Nat} {f g : Nat → α} : tab n f = tab n g ↔ ∀ i < n, f i = g i := by
  constructor
  · intro h i hi
    have h2 : (tab n f)[i]? = (tab n g)[i]? := by rw [h]
    simpa [tab_getElem?, hi] using h2
  · exact tab_congr

theorem eq_tab (l : List α) (d : α) : l = tab l.length (fun i => l.getD i d) := by
  apply List.ext_getElem
  · simp
  · intro i h1 h2; simp [h1]

theorem tab_eq_of {l : List α} {n : Nat} {f : Nat → α} (hl : l.length = n)
    (h : ∀ i (hi : i < l.length), l[i] = f i) : l = tab n f := by
  apply List.ext_getElem
  · simp [hl]
  · intro i h1 h2; simp [h i h1]

theorem idx_tab {n i : Nat} {f : Nat → α} (h : i < n) : idx (tab n f) i = .ok (f i) := by
  rw [idx_ok (by simpa using h)]; simp

theorem tab_set {n i : Nat} {f : Nat → α} {v : α} :
    (tab n f).set i v = tab n (Function.update f i v) := by
  apply List.ext_getElem
  · simp
  · intro j h1 h2
    simp only [tab_get, List.getElem_set, Function.update_apply]
    by_cases hij : i = j
    · simp [hij]
    · simp [hij, Ne.symm hij]

theorem setIdx_tab {n i : Nat} {f : Nat → α} {v : α} (h : i < n) :
    setIdx (tab n f) i v = .ok (tab n (Function.update f i v)) := by
  rw [setIdx_ok (by simpa using h), tab_set]

theorem modIdx_tab {n i : Nat} {f : Nat → α} {g : α → α} (h : i < n) :
    modIdx (tab n f) i g = .ok (tab n (Function.update f i (g (f i)))) := by
  rw [modIdx_ok (by simpa using h), tab_set]; simp

theorem replicate_eq_tab (n : Nat) (a : α) : List.replicate n a = tab n (fun _ => a) := by
  apply List.ext_getElem <;> simp

@[simp] theorem tab_map (n : Nat) (f : Nat → α) (g : α → β) : (tab n f).map g = tab n (fun i => g (f i)) := by
  simp [tab, Function.comp_def]

@[simp] theorem tab_zero (f : Nat → α) : tab 0 f = [] := rfl

theorem tab_succ (n : Nat) (f : Nat → α) : tab (n + 1) f = f 0 :: tab n (fun i => f (i + 1)) := by
  simp [tab, List.range_succ_eq_map, Function.comp_def]

theorem tab_succ' (n : Nat) (f : Nat → α) : tab (n + 1) f = tab n f ++ [f n] := by
  simp [tab, List.range_succ]

theorem tab_add (a b : Nat) (f : Nat → α) : tab (a + b) f = tab a f ++ tab b (fun i => f (a + i)) := by
  induction b with
  | zero => simp
  | succ b ih => rw [← Nat.add_assoc, tab_succ', ih, tab_succ']; simp

theorem tab_take {n k : Nat} {f : Nat → α} (h : k ≤ n) : (tab n f).take k = tab k f := by
  obtain ⟨d, rfl⟩ := Nat.exists_eq_add_of_le h
  rw [tab_add]; simp

theorem tab_drop {n k : Nat} {f : Nat → α} : (tab n f).drop k = tab (n - k) (fun i => f (k + i)) := by
  apply List.ext_getElem
  · simp
  · intro i h1 h2; simp

theorem zipWith_tab {γ : Type _} (n : Nat) (f : Nat → α) (g : Nat → β) (op : α → β → γ) :
    List.zipWith op (tab n f) (tab n g) = tab n (fun i => op (f i) (g i)) := by
  apply List.ext_getElem <;> simp

end Tab

section Loops
variable {α β σ : Type _}

/-- A loop whose body advances a known sequence of states. -/
theorem forFrom_eq {body : Nat → σ → Go σ} (g : Nat → σ) (n : Nat) :
    ∀ k, (∀ i, k ≤ i → i < k + n → body i (g i) = .ok (g (i + 1))) →
      forFrom body k n (g k) = .ok (g (k + n)) := by
  induction n with
  | zero => intro k _; rfl
  | succ n ih =>
    intro k h
    simp only [forFrom, h k le_rfl (by omega)]
    rw [ih (k + 1) (fun i h1 h2 => h i (by omega) (by omega))]
    congr 2; omega

theorem forN_eq {body : Nat → σ → Go σ} (g : Nat → σ) (n : Nat)
    (h : ∀ i < n, body i (g i) = .ok (g (i + 1))) : forN n (g 0) body = .ok (g n) := by
  have := forFrom_eq (body := body) g n 0 (fun i _ h2 => h i (by omega))
  simpa [forN] using this

theorem forFrom_succ {body : Nat → σ → Go σ} (n : Nat) : ∀ (k : Nat) (s : σ),
    forFrom body k (n + 1) s = (forFrom body k n s >>= fun s' => body (k + n) s') := by
  induction n with
  | zero => intro k s; simp only [forFrom]; cases h : body k s <;> simp [h]
  | succ n ih =>
    intro k s
    rw [forFrom]
    conv_rhs => rw [forFrom]
    cases h : body k s with
    | error e => simp
    | ok s' =>
      simp only
      rw [ih (k + 1) s']
      simp [Nat.add_comm, Nat.add_left_comm]

theorem forN_succ {body : Nat → σ → Go σ} (n : Nat) (s : σ) :
    forN (n + 1) s body = (forN n s body >>= fun s' => body n s') := by
  simp [forN, forFrom_succ]

@[simp] theorem forN_zero {body : Nat → σ → Go σ} (s : σ) : forN 0 s body = .ok s := rfl

/-- An invariant of a terminating loop. -/
theorem forN_inv {body : Nat → σ → Go σ} (P : Nat → σ → Prop) (n : Nat) (s : σ) (h0 : P 0 s)
    (h : ∀ i < n, ∀ s, P i s → ∃ s', body i s = .ok s' ∧ P (i + 1) s') :
    ∃ s', forN n s body = .ok s' ∧ P n s' := by
  induction n with
  | zero => exact ⟨s, rfl, h0⟩
  | succ n ih =>
    obtain ⟨s', h1, h2⟩ := ih (fun i hi => h i (by omega))
    obtain ⟨s'', h3, h4⟩ := h n (by omega) s' h2
    exact ⟨s'', by rw [forN_succ, h1]; simpa using h3, h4⟩

/-- A loop that only accumulates: iteration `i` adds `c i` to an additive state. -/
theorem forN_acc {M : Type _} [AddCommMonoid M] {body : Nat → σ → Go σ} (mk : M → σ) (c : Nat → M)
    (n : Nat) (m : M) (h : ∀ i < n, ∀ m, body i (mk m) = .ok (mk (m + c i))) :
    forN n (mk m) body = .ok (mk (m + ∑ i ∈ range n, c i)) := by
  induction n with
  | zero => simp
  | succ n ih =>
    rw [forN_succ, ih (fun i hi => h i (by omega))]
    simp only [ok_bind]
    rw [h n (by omega), sum_range_succ, add_assoc]

theorem forN_congr {body body' : Nat → σ → Go σ} (n : Nat) (s : σ)
    (h : ∀ i < n, ∀ s, body i s = body' i s) : forN n s body = forN n s body' := by
  induction n with
  | zero => rfl
  | succ n ih =>
    rw [forN_succ, forN_succ, ih (fun i hi => h i (by omega))]
    cases forN n s body' with
    | error e => rfl
    | ok s' => exact h n (by omega) s'

theorem genM_ok {f : Nat → Go β} {g : Nat → β} (n : Nat) : ∀ k,
    (∀ i, k ≤ i → i < k + n → f i = .ok (g i)) → genM f k n = .ok (tab n (fun i => g (k + i))) := by
  induction n with
  | zero => intro k _; rfl
  | succ n ih =>
    intro k h
    simp only [genM, h k le_rfl (by omega), ih (k + 1) (fun i h1 h2 => h i (by omega) (by omega))]
    rw [tab_succ]; simp [Nat.add_comm, Nat.add_left_comm]

theorem gen_ok {f : Nat → Go β} (g : Nat → β) (n : Nat) (h : ∀ i < n, f i = .ok (g i)) :
    gen n f = .ok (tab n g) := by
  have := genM_ok (f := f) (g := g) n 0 (fun i _ h2 => h i (by omega))
  simpa [gen] using this

theorem mapGo_ok {f : α → Go β} (g : α → β) (xs : List α) (h : ∀ x ∈ xs, f x = .ok (g x)) :
    mapGo f xs = .ok (xs.map g) := by
  induction xs with
  | nil => rfl
  | cons x xs ih =>
    simp only [mapGo, h x (by simp), ih (fun y hy => h y (by simp [hy])), List.map_cons]

@[simp] theorem forEach_nil {body : α → σ → Go σ} (s : σ) : forEach [] s body = .ok s := rfl

theorem forEach_cons {body : α → σ → Go σ} (x : α) (xs : List α) (s : σ) :
    forEach (x :: xs) s body = (body x s >>= fun s' => forEach xs s' body) := by
  rw [forEach]; cases body x s <;> rfl

/-- `range` loops that only accumulate. -/
theorem forEach_acc {M : Type _} [AddCommMonoid M] {body : α → σ → Go σ} (mk : M → σ) (c : α → M)
    (xs : List α) : ∀ (m : M), (∀ x ∈ xs, ∀ m, body x (mk m) = .ok (mk (m + c x))) →
    forEach xs (mk m) body = .ok (mk (m + (xs.map c).sum)) := by
  induction xs with
  | nil => intro m _; simp
  | cons x xs ih =>
    intro m h
    rw [forEach_cons, h x (by simp)]
    simp only [ok_bind]
    rw [ih _ (fun y hy => h y (by simp [hy]))]
    simp [add_assoc]

end Loops

end GkrMimc

namespace GkrMimc

section LoopInversion
variable {σ : Type _}

/-- Every iteration of a loop that returns has returned, from a state satisfying the invariant. -/
theorem forN_ok_inv {body : Nat → σ → Go σ} (P : σ → Prop) (n : Nat) :
    ∀ (s s' : σ), P s → (∀ i < n, ∀ a b, P a → body i a = .ok b → P b) → forN n s body = .ok s' →
      P s' ∧ ∀ i < n, ∃ a b, P a ∧ body i a = .ok b ∧ P b := by
  induction n with
  | zero => intro s s' hs _ h; cases h; exact ⟨hs, fun i hi => absurd hi (by omega)⟩
  | succ n ih =>
    intro s s' hs hp h
    rw [forN_succ, bind_eq_ok] at h
    obtain ⟨m, h1, h2⟩ := h
    obtain ⟨hm, hrest⟩ := ih s m hs (fun i hi => hp i (by omega)) h1
    have hs' := hp n (by omega) m s' hm h2
    refine ⟨hs', fun i hi => ?_⟩
    rcases Nat.lt_succ_iff_lt_or_eq.1 hi with h3 | rfl
    · exact hrest i h3
    · exact ⟨m, s', hm, h2, hs'⟩

theorem setIdx_length {α : Type _} {xs ys : List α} {i : Nat} {v : α} (h : setIdx xs i v = .ok ys) :
    ys.length = xs.length := by
  unfold setIdx at h
  split at h
  · cases h; simp
  · cases h

theorem modIdx_length {α : Type _} {xs ys : List α} {i : Nat} {f : α → α} (h : modIdx xs i f = .ok ys) :
    ys.length = xs.length := by
  unfold modIdx at h
  split at h
  · cases h; simp
  · cases h

theorem idx_ok_lt {α : Type _} {xs : List α} {i : Nat} {a : α} (h : idx xs i = .ok a) : i < xs.length := by
  by_contra hc
  rw [idx_err (by omega)] at h; cases h

end LoopInversion

end GkrMimc
