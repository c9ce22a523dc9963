import Verif.Model.Bench
import Verif.Proofs.Seq
import Mathlib.Tactic.IntervalCases

/-! The pattern of the multi-process benchmark under all schedules: `n` goroutines get ready, wait for a signal, write a result
to one variable, and report that they are done. -/

namespace GkrMimc

open Spec

variable {C : Type}

/-! ### Counting -/

/-- How many of `f 0, …, f (n-1)` are at least `a`. -/
def cntGe (n a : Nat) (f : Nat → Nat) : Nat := ((Finset.range n).filter fun j => a ≤ f j).card

theorem cntGe_le (n a : Nat) (f : Nat → Nat) : cntGe n a f ≤ n := by
  simpa [cntGe] using Finset.card_filter_le (Finset.range n) fun j => a ≤ f j

theorem cntGe_zero {n a : Nat} {f : Nat → Nat} (h : ∀ j < n, f j < a) : cntGe n a f = 0 := by
  rw [cntGe, Finset.card_eq_zero, Finset.filter_eq_empty_iff]
  intro j hj
  have := h j (Finset.mem_range.1 hj)
  omega

theorem cntGe_all {n a : Nat} {f : Nat → Nat} : cntGe n a f = n ↔ ∀ j < n, a ≤ f j := by
  constructor
  · intro h j hj
    have : (Finset.range n).filter (fun j => a ≤ f j) = Finset.range n :=
      Finset.eq_of_subset_of_card_le (Finset.filter_subset _ _) (by rw [Finset.card_range]; exact h.ge)
    have hm : j ∈ (Finset.range n).filter (fun j => a ≤ f j) := by rw [this]; simpa using hj
    exact (Finset.mem_filter.1 hm).2
  · intro h
    rw [cntGe, Finset.filter_true_of_mem fun j hj => h j (Finset.mem_range.1 hj), Finset.card_range]

theorem cntGe_up {n a j : Nat} {f : Nat → Nat} (hj : j < n) :
    cntGe n a (Function.update f j (f j + 1)) = cntGe n a f + if f j + 1 = a then 1 else 0 := by
  unfold cntGe
  simp only [Finset.card_filter]
  rw [← Finset.add_sum_erase _ _ (Finset.mem_range.2 hj),
    ← Finset.add_sum_erase (Finset.range n) (fun i => if a ≤ f i then 1 else 0) (Finset.mem_range.2 hj), Function.update_self,
    Finset.sum_congr rfl (g := fun i => if a ≤ f i then 1 else 0)
      (by intro i hi; rw [Function.update_of_ne (Finset.ne_of_mem_erase hi)])]
  split_ifs <;> omega

/-! ### The programs -/

/-- The write of a goroutine. -/
def wrP (v : C) (w : Nat) : Prog (Heap C) Unit :=
  .mem (.write 0 0) (fun h => { h with cells := fun b j => if b = 0 ∧ j = 0 then v else h.cells b j }) fun _ => .wgDone (w + 2) (.ret ())

/-- What a goroutine still has to do, by phase. -/
def wkP (v : C) (w : Nat) : Nat → Prog (Heap C) Unit
  | 0 => .wgDone w (.wgWait (w + 1) (wrP v w))
  | 1 => .wgWait (w + 1) (wrP v w)
  | 2 => wrP v w
  | 3 => .wgDone (w + 2) (.ret ())
  | _ => .ret ()

/-- What the caller still has to do in a round, by stage. -/
def mnP (n w : Nat) (W : Nat → Prog (Heap C) Unit) (K : Prog (Heap C) Unit) (t : Nat) : Prog (Heap C) Unit :=
  if t ≤ n then loopP (fun k _ next => .go (W k) (next ())) (fun _ => .wgWait w <| .wgDone (w + 1) <| .wgWait (w + 2) K) t (n - t) ()
  else if t = n + 1 then .wgDone (w + 1) <| .wgWait (w + 2) K
  else .wgWait (w + 2) K

variable {n w : Nat} {W : Nat → Prog (Heap C) Unit} {K : Prog (Heap C) Unit} {t : Nat}

theorem mnP_lt (h : t < n) : mnP n w W K t = .go (W t) (mnP n w W K (t + 1)) := by
  unfold mnP
  rw [if_pos h.le, if_pos (by omega), show n - t = (n - (t + 1)) + 1 by omega]
  rfl

theorem mnP_n : mnP n w W K n = .wgWait w (mnP n w W K (n + 1)) := by
  simp [mnP, loopP]

theorem mnP_n1 : mnP n w W K (n + 1) = .wgDone (w + 1) (mnP n w W K (n + 2)) := by
  simp [mnP]

theorem mnP_n2 : mnP n w W K (n + 2) = .wgWait (w + 2) K := by
  simp [mnP]

/-! ### A round -/

/-- The configurations of a round that began with `g` goroutines, `w` wait groups and memory `h0`. -/
structure RoundInv (n g w : Nat) (c : Nat → C) (K : Prog (Heap C) Unit) (h0 : Heap C) (t : Nat) (ph : Nat → Nat)
    (s : Conf (Heap C) Unit) : Prop where
  alive : s.crashed = none
  g1 : 1 ≤ g
  t2 : t ≤ n + 2
  main : s.gs 0 = mnP n w (fun k => wkP (c k) w 0) K t
  nG : s.nG = g + min t n
  started : ∀ j < n, j < t → s.gs (g + j) = wkP (c j) w (ph j)
  others : ∀ i, 1 ≤ i → (i < g ∨ g + min t n ≤ i) → ∃ r, s.gs i = .ret r
  ready : s.wgs w = n - cntGe n 1 ph
  signal : s.wgs (w + 1) = if t ≤ n + 1 then 1 else 0
  done : s.wgs (w + 2) = n - cntGe n 4 ph
  unstarted : ∀ j, t ≤ j → ph j = 0
  ph4 : ∀ j < n, ph j ≤ 4
  before : t ≤ n + 1 → ∀ j < n, ph j ≤ 1
  after : n + 1 ≤ t → ∀ j < n, 1 ≤ ph j
  same : ∀ a i, ¬ (a = 0 ∧ i = 0) → s.mem.cells a i = h0.cells a i
  next : s.mem.next = h0.next
  old : (∀ j < n, ph j ≤ 2) → s.mem.cells 0 0 = h0.cells 0 0
  cell : ∀ j < n, 3 ≤ ph j → ∃ k < n, s.mem.cells 0 0 = c k

variable {g : Nat} {c : Nat → C} {h0 : Heap C} {ph : Nat → Nat} {s s' : Conf (Heap C) Unit}

theorem RoundInv.exec0 (h : RoundInv n g w c K h0 t ph s) (hs : exec s 0 = some s') :
    (t ≤ n + 1 ∧ RoundInv n g w c K h0 (t + 1) ph s') ∨ (t = n + 2 ∧ (∀ j < n, ph j = 4) ∧ s' = s.goOn 0 K) := by
  have e := h.main
  have g1 := h.g1
  rcases lt_trichotomy t n with ht | rfl | ht
  · rw [mnP_lt ht] at e
    simp only [exec, e, Option.some.injEq] at hs
    subst hs
    have hng : s.nG = g + t := by rw [h.nG]; omega
    refine .inl ⟨by omega, ⟨h.alive, h.g1, by omega, ?_, ?_, ?_, ?_, h.ready, ?_, h.done, ?_, h.ph4, fun _ => h.before (by omega), fun _ => by omega, h.same,
      h.next, h.old, h.cell⟩⟩
    · simp only
      rw [Function.update_of_ne (by omega), Function.update_self]
    · simp only; omega
    · intro j hj hjt
      simp only
      rw [hng]
      by_cases hjt' : j = t
      · subst hjt'
        rw [Function.update_self, h.unstarted j le_rfl]
      · rw [Function.update_of_ne (by omega), Function.update_of_ne (by omega), h.started j hj (by omega)]
    · intro i hi h2
      simp only
      rw [hng, Function.update_of_ne (by omega), Function.update_of_ne (by omega)]
      exact h.others i hi (by omega)
    · simp only; rw [h.signal, if_pos (by omega), if_pos (by omega)]
    · intro j hj; exact h.unstarted j (by omega)
  · rw [mnP_n] at e
    simp only [exec, e] at hs
    split_ifs at hs with h0'
    cases hs
    rw [h.ready] at h0'
    have hall : ∀ j < t, 1 ≤ ph j := cntGe_all.1 (by have := cntGe_le t 1 ph; omega)
    refine .inl ⟨by omega, ⟨h.alive, h.g1, by omega, by simp [Conf.goOn], ?_, ?_, ?_, h.ready, ?_, h.done, ?_, h.ph4, fun _ => h.before (by omega),
      fun _ => hall, h.same, h.next, h.old, h.cell⟩⟩
    · simp only [Conf.goOn, h.nG]; omega
    · intro j hj hjt
      simp only [Conf.goOn]
      rw [Function.update_of_ne (by omega), h.started j hj (by omega)]
    · intro i hi h2
      simp only [Conf.goOn]
      rw [Function.update_of_ne (by omega)]
      exact h.others i hi (by omega)
    · simp only [Conf.goOn]; rw [h.signal, if_pos (by omega), if_pos (by omega)]
    · intro j hj; exact h.unstarted j (by omega)
  · by_cases h1 : t = n + 1
    · subst h1
      rw [mnP_n1] at e
      have hsig := h.signal
      rw [if_pos (by omega)] at hsig
      simp only [exec, e] at hs
      rw [if_neg (by omega)] at hs
      cases hs
      refine .inl ⟨by omega, ⟨h.alive, h.g1, by omega, by simp, ?_, ?_, ?_, ?_, ?_, ?_, ?_, h.ph4, fun _ => by omega,
        fun _ => h.after (by omega), h.same, h.next, h.old, h.cell⟩⟩
      · simp only [h.nG]; omega
      · intro j hj hjt
        simp only
        rw [Function.update_of_ne (by omega), h.started j hj (by omega)]
      · intro i hi h2
        simp only
        rw [Function.update_of_ne (by omega)]
        exact h.others i hi (by omega)
      · simp only; rw [Function.update_of_ne (by omega), h.ready]
      · simp only; rw [Function.update_self, hsig, if_neg (by omega)]
      · simp only; rw [Function.update_of_ne (by omega), h.done]
      · intro j hj; exact h.unstarted j (by omega)
    · have h2 : t = n + 2 := by have := h.t2; omega
      subst h2
      rw [mnP_n2] at e
      simp only [exec, e] at hs
      split_ifs at hs with h0'
      cases hs
      rw [h.done] at h0'
      have hall : ∀ j < n, 4 ≤ ph j := cntGe_all.1 (by have := cntGe_le n 4 ph; omega)
      exact .inr ⟨rfl, fun j hj => le_antisymm (h.ph4 j hj) (hall j hj), rfl⟩

/-- A goroutine goes from one phase to the next. -/
theorem RoundInv.up (h : RoundInv n g w c K h0 t ph s) {j : Nat} (hj : j < n) (hjt : j < t) (hp : ph j ≤ 3)
    (e1 : s'.gs = Function.update s.gs (g + j) (wkP (c j) w (ph j + 1))) (e2 : s'.nG = s.nG) (e3 : s'.crashed = none)
    (e4 : s'.wgs w = n - cntGe n 1 (Function.update ph j (ph j + 1))) (e5 : s'.wgs (w + 1) = s.wgs (w + 1))
    (e6 : s'.wgs (w + 2) = n - cntGe n 4 (Function.update ph j (ph j + 1))) (e7 : 1 ≤ ph j → n + 2 ≤ t)
    (e8 : s'.mem = if ph j = 2 then { s.mem with cells := fun b i => if b = 0 ∧ i = 0 then c j else s.mem.cells b i } else s.mem) :
    RoundInv n g w c K h0 t (Function.update ph j (ph j + 1)) s' := by
  have g1 := h.g1
  refine ⟨e3, h.g1, h.t2, ?_, by rw [e2, h.nG], ?_, ?_, e4, by rw [e5, h.signal], e6, ?_, ?_, ?_, ?_, ?_, ?_, ?_, ?_⟩
  · rw [e1, Function.update_of_ne (by omega), h.main]
  · intro i hi hit
    rw [e1]
    by_cases hij : i = j
    · subst hij; rw [Function.update_self, Function.update_self]
    · rw [Function.update_of_ne (by omega), Function.update_of_ne hij, h.started i hi hit]
  · intro i hi h2
    rw [e1, Function.update_of_ne (by omega)]
    exact h.others i hi h2
  · intro i hi
    rw [Function.update_of_ne (by omega)]
    exact h.unstarted i hi
  · intro i hi
    by_cases hij : i = j
    · subst hij; rw [Function.update_self]; omega
    · rw [Function.update_of_ne hij]; exact h.ph4 i hi
  · intro ht i hi
    by_cases hij : i = j
    · subst hij
      rw [Function.update_self]
      by_contra hc
      have := e7 (by omega)
      omega
    · rw [Function.update_of_ne hij]; exact h.before ht i hi
  · intro ht i hi
    by_cases hij : i = j
    · subst hij; rw [Function.update_self]; omega
    · rw [Function.update_of_ne hij]; exact h.after ht i hi
  · intro a i hai
    rw [e8]
    split_ifs
    · simp only [if_neg hai]; exact h.same a i hai
    · exact h.same a i hai
  · rw [e8]
    split_ifs <;> exact h.next
  · intro hle
    have := hle j hj
    rw [Function.update_self] at this
    rw [e8, if_neg (by omega)]
    refine h.old fun i hi => ?_
    by_cases hij : i = j
    · subst hij; omega
    · have := hle i hi
      rwa [Function.update_of_ne hij] at this
  · intro i hi h3
    rw [e8]
    by_cases h2 : ph j = 2
    · rw [if_pos h2]; exact ⟨j, hj, by simp⟩
    · rw [if_neg h2]
      by_cases hij : i = j
      · subst hij
        rw [Function.update_self] at h3
        exact h.cell i hi (by omega)
      · rw [Function.update_of_ne hij] at h3
        exact h.cell i hi h3

theorem RoundInv.execW (h : RoundInv n g w c K h0 t ph s) {j : Nat} (hj : j < n) (hjt : j < t) (hs : exec s (g + j) = some s') :
    ph j ≤ 3 ∧ (1 ≤ ph j → n + 2 ≤ t) ∧ RoundInv n g w c K h0 t (Function.update ph j (ph j + 1)) s' := by
  have e := h.started j hj hjt
  have h4 := h.ph4 j hj
  obtain hp | hp | hp | hp | hp : ph j = 0 ∨ ph j = 1 ∨ ph j = 2 ∨ ph j = 3 ∨ ph j = 4 := by omega
  · have c1 := cntGe_up (a := 1) (f := ph) hj
    have c4 := cntGe_up (a := 4) (f := ph) hj
    rw [hp] at c1 c4
    simp only [hp, if_pos, if_neg, zero_add, Nat.reduceEqDiff] at c1 c4
    have l1 := cntGe_le n 1 (Function.update ph j 1)
    rw [hp] at e
    simp only [wkP] at e
    have hr := h.ready
    simp only [exec, e] at hs
    rw [if_neg (by omega)] at hs
    cases hs
    refine ⟨by omega, by omega, h.up hj hjt (by omega) (by simp [hp, wkP]) rfl h.alive ?_ ?_ ?_ (by omega) (by simp [hp])⟩
    · simp only [hp, Function.update_self, zero_add]; omega
    · simp only [Function.update_of_ne (show w + 1 ≠ w by omega)]
    · have := h.done
      simp only [hp, zero_add, Function.update_of_ne (show w + 2 ≠ w by omega)]
      simp at c4
      omega
  · rw [hp] at e
    simp only [wkP] at e
    simp only [exec, e] at hs
    split_ifs at hs with h0'
    cases hs
    have c1 := cntGe_up (a := 1) (f := ph) hj
    have c4 := cntGe_up (a := 4) (f := ph) hj
    rw [hp] at c1 c4
    have hsg : n + 2 ≤ t := by
      have := h.signal
      rw [h0'] at this
      by_contra hc
      rw [if_pos (by omega)] at this
      omega
    refine ⟨by omega, fun _ => hsg, h.up hj hjt (by omega) (by simp [hp, wkP, Conf.goOn]) rfl h.alive ?_ rfl ?_ (fun _ => hsg)
      (by simp [hp, Conf.goOn])⟩
    · have := h.ready; simp only [Conf.goOn, hp]; simp at c1; simp; omega
    · have := h.done; simp only [Conf.goOn, hp]; simp at c4; simp; omega
  · have ht : n + 2 ≤ t := by
      by_contra hc
      have := h.before (by omega) j hj
      omega
    rw [hp] at e
    simp only [wkP, wrP] at e
    simp only [exec, e] at hs
    cases hs
    have c1 := cntGe_up (a := 1) (f := ph) hj
    have c4 := cntGe_up (a := 4) (f := ph) hj
    rw [hp] at c1 c4
    refine ⟨by omega, fun _ => ht, h.up hj hjt (by omega) (by simp [hp, wkP]) rfl h.alive ?_ rfl ?_ (fun _ => ht) (by simp [hp])⟩
    · have := h.ready; simp only [hp]; simp at c1; simp; omega
    · have := h.done; simp only [hp]; simp at c4; simp; omega
  · have ht : n + 2 ≤ t := by
      by_contra hc
      have := h.before (by omega) j hj
      omega
    have c1 := cntGe_up (a := 1) (f := ph) hj
    have c4 := cntGe_up (a := 4) (f := ph) hj
    rw [hp] at c1 c4
    simp at c1 c4
    have l4 := cntGe_le n 4 (Function.update ph j 4)
    rw [hp] at e
    simp only [wkP] at e
    have hd := h.done
    simp only [exec, e] at hs
    rw [if_neg (by omega)] at hs
    cases hs
    refine ⟨by omega, fun _ => ht, h.up hj hjt (by omega) (by simp [hp, wkP]) rfl h.alive ?_ ?_ ?_ (fun _ => ht) (by simp [hp])⟩
    · have := h.ready
      simp only [hp, Function.update_of_ne (show w ≠ w + 2 by omega)]
      simp; omega
    · simp only [Function.update_of_ne (show w + 1 ≠ w + 2 by omega)]
    · simp only [hp, Function.update_self]; simp; omega
  · rw [hp] at e
    simp only [wkP] at e
    simp [exec, e] at hs

theorem RoundInv.canW (h : RoundInv n g w c K h0 t ph s) {j : Nat} (hj : j < n) (hjt : j < t) (hp : ph j ≤ 3)
    (ht : 1 ≤ ph j → n + 2 ≤ t) : ∃ s', exec s (g + j) = some s' := by
  have e := h.started j hj hjt
  obtain hp | hp | hp | hp : ph j = 0 ∨ ph j = 1 ∨ ph j = 2 ∨ ph j = 3 := by omega
  all_goals rw [hp] at e; simp only [wkP, wrP] at e; simp only [exec, e]
  · split_ifs <;> exact ⟨_, rfl⟩
  · have := h.signal
    rw [if_neg (by have := ht (by omega); omega)] at this
    rw [if_pos this]; exact ⟨_, rfl⟩
  · exact ⟨_, rfl⟩
  · split_ifs <;> exact ⟨_, rfl⟩

theorem RoundInv.can0 (h : RoundInv n g w c K h0 t ph s)
    (ht : (t = n → ∀ j < n, 1 ≤ ph j) ∧ (t = n + 2 → ∀ j < n, 4 ≤ ph j)) : ∃ s', exec s 0 = some s' := by
  have e := h.main
  have := h.t2
  obtain h1 | rfl | rfl | rfl : t < n ∨ t = n ∨ t = n + 1 ∨ t = n + 2 := by omega
  · rw [mnP_lt h1] at e; simp only [exec, e]; exact ⟨_, rfl⟩
  · rw [mnP_n] at e; simp only [exec, e]
    rw [if_pos (by rw [h.ready, cntGe_all.2 (ht.1 rfl)]; omega)]; exact ⟨_, rfl⟩
  · rw [mnP_n1] at e; simp only [exec, e]; split_ifs <;> exact ⟨_, rfl⟩
  · rw [mnP_n2] at e; simp only [exec, e]
    rw [if_pos (by rw [h.done, cntGe_all.2 (ht.2 rfl)]; omega)]; exact ⟨_, rfl⟩

theorem wkP_send (v : C) (w p : Nat) {c' : Nat} {x : Unit} {k : Prog (Heap C) Unit} : wkP v w p ≠ .send c' x k := by
  unfold wkP wrP
  split <;> simp

theorem mnP_cases (h : t ≤ n + 2) : (∃ p k, mnP n w W K t = .go p k) ∨ (∃ a k, mnP n w W K t = .wgWait a k) ∨
    ∃ a k, mnP n w W K t = .wgDone a k := by
  obtain h1 | rfl | rfl | rfl : t < n ∨ t = n ∨ t = n + 1 ∨ t = n + 2 := by omega
  · exact .inl ⟨_, _, mnP_lt h1⟩
  · exact .inr (.inl ⟨_, _, mnP_n⟩)
  · exact .inr (.inr ⟨_, _, mnP_n1⟩)
  · exact .inr (.inl ⟨_, _, mnP_n2⟩)

/-- A goroutine is the caller, has been started in this round, or has returned. -/
theorem RoundInv.who (h : RoundInv n g w c K h0 t ph s) (i : Nat) :
    i = 0 ∨ (∃ j < n, j < t ∧ i = g + j) ∨ (∃ r, s.gs i = .ret r) := by
  by_cases h0 : i = 0
  · exact .inl h0
  by_cases h1 : i < g ∨ g + min t n ≤ i
  · exact .inr (.inr (h.others i (by omega) h1))
  · exact .inr (.inl ⟨i - g, by omega, by omega, by omega⟩)

theorem RoundInv.step (h : RoundInv n g w c K h0 t ph s) (hs : Step s s') :
    (t ≤ n + 1 ∧ RoundInv n g w c K h0 (t + 1) ph s') ∨
    (∃ j < n, ph j ≤ 3 ∧ RoundInv n g w c K h0 t (Function.update ph j (ph j + 1)) s') ∨
    (t = n + 2 ∧ (∀ j < n, ph j = 4) ∧ s' = s.goOn 0 K) := by
  obtain ⟨_, ⟨i, hi⟩ | ⟨i, j, ch, v, k, k', hij, hi, hj, _⟩⟩ := hs
  · rcases h.who i with rfl | ⟨j, hj, hjt, rfl⟩ | ⟨r, hr⟩
    · rcases h.exec0 hi with h1 | h1
      · exact .inl h1
      · exact .inr (.inr h1)
    · obtain ⟨h1, _, h2⟩ := h.execW hj hjt hi
      exact .inr (.inl ⟨j, hj, h1, h2⟩)
    · simp [exec, hr] at hi
  · exfalso
    rcases h.who i with rfl | ⟨j, hj, hjt, rfl⟩ | ⟨r, hr⟩
    · rw [h.main] at hi
      rcases mnP_cases (n := n) (w := w) (W := fun k => wkP (c k) w 0) (K := K) h.t2 with ⟨_, _, e⟩ | ⟨_, _, e⟩ | ⟨_, _, e⟩ <;>
        rw [e] at hi <;> cases hi
    · rw [h.started j hj hjt] at hi
      exact wkP_send _ _ _ hi
    · rw [hr] at hi; cases hi

theorem RoundInv.live (h : RoundInv n g w c K h0 t ph s) : ∃ s', Step s s' := by
  by_cases hm : (t = n → ∀ j < n, 1 ≤ ph j) ∧ (t = n + 2 → ∀ j < n, 4 ≤ ph j)
  · obtain ⟨s', e⟩ := h.can0 hm
    exact ⟨s', h.alive, .inl ⟨0, e⟩⟩
  · have : ∃ j < n, j < t ∧ ph j ≤ 3 ∧ (1 ≤ ph j → n + 2 ≤ t) := by
      rw [not_and_or] at hm
      push Not at hm
      rcases hm with ⟨rfl, j, hj, hp⟩ | ⟨rfl, j, hj, hp⟩
      · exact ⟨j, hj, hj, by omega, by omega⟩
      · exact ⟨j, hj, by omega, by omega, by omega⟩
    obtain ⟨j, hj, hjt, h1, h2⟩ := this
    obtain ⟨s', e⟩ := h.canW hj hjt h1 h2
    exact ⟨s', h.alive, .inl ⟨_, e⟩⟩

theorem RoundInv.mem (h : RoundInv n g w c K h0 t ph s) {i : Nat} {a : Access} {f : Heap C → Heap C} {k : Heap C → Prog (Heap C) Unit}
    (e : s.gs i = .mem a f k) : a = .write 0 0 ∧ ∃ j < n, i = g + j := by
  rcases h.who i with rfl | ⟨j, hj, hjt, rfl⟩ | ⟨r, hr⟩
  · rw [h.main] at e
    rcases mnP_cases (n := n) (w := w) (W := fun k => wkP (c k) w 0) (K := K) h.t2 with ⟨_, _, e'⟩ | ⟨_, _, e'⟩ | ⟨_, _, e'⟩ <;>
      rw [e'] at e <;> cases e
  · rw [h.started j hj hjt] at e
    refine ⟨?_, j, hj, rfl⟩
    unfold wkP wrP at e
    split at e <;> cases e
    rfl
  · rw [hr] at e; cases e

theorem RoundInv.notRet (h : RoundInv n g w c K h0 t ph s) : ¬ Returned s 0 := by
  rintro ⟨r, e⟩
  rw [h.main] at e
  rcases mnP_cases (n := n) (w := w) (W := fun k => wkP (c k) w 0) (K := K) h.t2 with ⟨_, _, e'⟩ | ⟨_, _, e'⟩ | ⟨_, _, e'⟩ <;>
    rw [e'] at e <;> cases e

end GkrMimc
