import Verif.Model.RepairedBench
import Verif.Proofs.BenchRounds
import Verif.Spec.BenchSlots

/-! The repaired multi-process benchmark under all schedules: as Proofs/Bench.lean and Proofs/BenchRounds.lean, but each goroutine
writes to a cell of its own. -/

namespace GkrMimc.Slots

open GkrMimc Spec

variable {C σ : Type}

/-! ### The programs -/

/-- The write of a goroutine. -/
def wrP (j : Nat) (v : C) (w : Nat) : Prog (Heap C) Unit :=
  .mem (.write 0 j) (fun h => { h with cells := fun b i => if b = 0 ∧ i = j then v else h.cells b i }) fun _ => .wgDone (w + 2) (.ret ())

/-- What a goroutine still has to do, by phase. -/
def wkP (j : Nat) (v : C) (w : Nat) : Nat → Prog (Heap C) Unit
  | 0 => .wgDone w (.wgWait (w + 1) (wrP j v w))
  | 1 => .wgWait (w + 1) (wrP j v w)
  | 2 => wrP j v w
  | 3 => .wgDone (w + 2) (.ret ())
  | _ => .ret ()

/-! ### A round -/

/-- The configurations of a round that began with `g` goroutines, `w` wait groups and memory `h0`. -/
structure RoundInv (n g w : Nat) (c : Nat → C) (K : Prog (Heap C) Unit) (h0 : Heap C) (t : Nat) (ph : Nat → Nat)
    (s : Conf (Heap C) Unit) : Prop where
  alive : s.crashed = none
  g1 : 1 ≤ g
  t2 : t ≤ n + 2
  main : s.gs 0 = mnP n w (fun k => wkP k (c k) w 0) K t
  nG : s.nG = g + min t n
  started : ∀ j < n, j < t → s.gs (g + j) = wkP j (c j) w (ph j)
  others : ∀ i, 1 ≤ i → (i < g ∨ g + min t n ≤ i) → ∃ r, s.gs i = .ret r
  ready : s.wgs w = n - cntGe n 1 ph
  signal : s.wgs (w + 1) = if t ≤ n + 1 then 1 else 0
  done : s.wgs (w + 2) = n - cntGe n 4 ph
  unstarted : ∀ j, t ≤ j → ph j = 0
  ph4 : ∀ j < n, ph j ≤ 4
  before : t ≤ n + 1 → ∀ j < n, ph j ≤ 1
  after : n + 1 ≤ t → ∀ j < n, 1 ≤ ph j
  same : ∀ a i, ¬ (a = 0 ∧ i < n) → s.mem.cells a i = h0.cells a i
  next : s.mem.next = h0.next
  cell : ∀ j < n, s.mem.cells 0 j = if 3 ≤ ph j then c j else h0.cells 0 j

variable {n w : Nat} {K : Prog (Heap C) Unit} {t g : Nat} {c : Nat → C} {h0 : Heap C} {ph : Nat → Nat} {s s' : Conf (Heap C) Unit}

theorem RoundInv.exec0 (h : RoundInv n g w c K h0 t ph s) (hs : exec s 0 = some s') :
    (t ≤ n + 1 ∧ RoundInv n g w c K h0 (t + 1) ph s') ∨ (t = n + 2 ∧ (∀ j < n, ph j = 4) ∧ s' = s.goOn 0 K) := by
  have e := h.main
  have g1 := h.g1
  rcases lt_trichotomy t n with ht | rfl | ht
  · rw [mnP_lt ht] at e
    simp only [exec, e, Option.some.injEq] at hs
    subst hs
    have hng : s.nG = g + t := by rw [h.nG]; omega
    refine .inl ⟨by omega, ⟨h.alive, h.g1, by omega, ?_, ?_, ?_, ?_, h.ready, ?_, h.done, ?_, h.ph4, fun _ => h.before (by omega), fun _ => by omega, h.same,
      h.next, h.cell⟩⟩
    · simp only
      rw [Function.update_of_ne (by omega), Function.update_self]
    · simp only; omega
    · intro j hj hjt
      simp only
      rw [hng]
      by_cases hjt' : j = t
      · subst hjt'
        rw [Function.update_self, h.unstarted j le_rfl]
      · rw [Function.update_of_ne (by omega), Function.update_of_ne (by omega), h.started j hj (by omega)]
    · intro i hi h2
      simp only
      rw [hng, Function.update_of_ne (by omega), Function.update_of_ne (by omega)]
      exact h.others i hi (by omega)
    · simp only; rw [h.signal, if_pos (by omega), if_pos (by omega)]
    · intro j hj; exact h.unstarted j (by omega)
  · rw [mnP_n] at e
    simp only [exec, e] at hs
    split_ifs at hs with h0'
    cases hs
    rw [h.ready] at h0'
    have hall : ∀ j < t, 1 ≤ ph j := cntGe_all.1 (by have := cntGe_le t 1 ph; omega)
    refine .inl ⟨by omega, ⟨h.alive, h.g1, by omega, by simp [Conf.goOn], ?_, ?_, ?_, h.ready, ?_, h.done, ?_, h.ph4, fun _ => h.before (by omega),
      fun _ => hall, h.same, h.next, h.cell⟩⟩
    · simp only [Conf.goOn, h.nG]; omega
    · intro j hj hjt
      simp only [Conf.goOn]
      rw [Function.update_of_ne (by omega), h.started j hj (by omega)]
    · intro i hi h2
      simp only [Conf.goOn]
      rw [Function.update_of_ne (by omega)]
      exact h.others i hi (by omega)
    · simp only [Conf.goOn]; rw [h.signal, if_pos (by omega), if_pos (by omega)]
    · intro j hj; exact h.unstarted j (by omega)
  · by_cases h1 : t = n + 1
    · subst h1
      rw [mnP_n1] at e
      have hsig := h.signal
      rw [if_pos (by omega)] at hsig
      simp only [exec, e] at hs
      rw [if_neg (by omega)] at hs
      cases hs
      refine .inl ⟨by omega, ⟨h.alive, h.g1, by omega, by simp, ?_, ?_, ?_, ?_, ?_, ?_, ?_, h.ph4, fun _ => by omega,
        fun _ => h.after (by omega), h.same, h.next, h.cell⟩⟩
      · simp only [h.nG]; omega
      · intro j hj hjt
        simp only
        rw [Function.update_of_ne (by omega), h.started j hj (by omega)]
      · intro i hi h2
        simp only
        rw [Function.update_of_ne (by omega)]
        exact h.others i hi (by omega)
      · simp only; rw [Function.update_of_ne (by omega), h.ready]
      · simp only; rw [Function.update_self, hsig, if_neg (by omega)]
      · simp only; rw [Function.update_of_ne (by omega), h.done]
      · intro j hj; exact h.unstarted j (by omega)
    · have h2 : t = n + 2 := by have := h.t2; omega
      subst h2
      rw [mnP_n2] at e
      simp only [exec, e] at hs
      split_ifs at hs with h0'
      cases hs
      rw [h.done] at h0'
      have hall : ∀ j < n, 4 ≤ ph j := cntGe_all.1 (by have := cntGe_le n 4 ph; omega)
      exact .inr ⟨rfl, fun j hj => le_antisymm (h.ph4 j hj) (hall j hj), rfl⟩

/-- A goroutine goes from one phase to the next. -/
theorem RoundInv.up (h : RoundInv n g w c K h0 t ph s) {j : Nat} (hj : j < n) (hjt : j < t) (hp : ph j ≤ 3)
    (e1 : s'.gs = Function.update s.gs (g + j) (wkP j (c j) w (ph j + 1))) (e2 : s'.nG = s.nG) (e3 : s'.crashed = none)
    (e4 : s'.wgs w = n - cntGe n 1 (Function.update ph j (ph j + 1))) (e5 : s'.wgs (w + 1) = s.wgs (w + 1))
    (e6 : s'.wgs (w + 2) = n - cntGe n 4 (Function.update ph j (ph j + 1))) (e7 : 1 ≤ ph j → n + 2 ≤ t)
    (e8 : s'.mem = if ph j = 2 then { s.mem with cells := fun b i => if b = 0 ∧ i = j then c j else s.mem.cells b i } else s.mem) :
    RoundInv n g w c K h0 t (Function.update ph j (ph j + 1)) s' := by
  have g1 := h.g1
  refine ⟨e3, h.g1, h.t2, ?_, by rw [e2, h.nG], ?_, ?_, e4, by rw [e5, h.signal], e6, ?_, ?_, ?_, ?_, ?_, ?_, ?_⟩
  · rw [e1, Function.update_of_ne (by omega), h.main]
  · intro i hi hit
    rw [e1]
    by_cases hij : i = j
    · subst hij; rw [Function.update_self, Function.update_self]
    · rw [Function.update_of_ne (by omega), Function.update_of_ne hij, h.started i hi hit]
  · intro i hi h2
    rw [e1, Function.update_of_ne (by omega)]
    exact h.others i hi h2
  · intro i hi
    rw [Function.update_of_ne (by omega)]
    exact h.unstarted i hi
  · intro i hi
    by_cases hij : i = j
    · subst hij; rw [Function.update_self]; omega
    · rw [Function.update_of_ne hij]; exact h.ph4 i hi
  · intro ht i hi
    by_cases hij : i = j
    · subst hij
      rw [Function.update_self]
      by_contra hc
      have := e7 (by omega)
      omega
    · rw [Function.update_of_ne hij]; exact h.before ht i hi
  · intro ht i hi
    by_cases hij : i = j
    · subst hij; rw [Function.update_self]; omega
    · rw [Function.update_of_ne hij]; exact h.after ht i hi
  · intro a i hai
    rw [e8]
    split_ifs
    · simp only
      rw [if_neg (by rintro ⟨h1, h2⟩; exact hai ⟨h1, by omega⟩)]
      exact h.same a i hai
    · exact h.same a i hai
  · rw [e8]
    split_ifs <;> exact h.next
  · intro i hi
    rw [e8]
    by_cases hij : i = j
    · subst hij
      rw [Function.update_self]
      by_cases h2 : ph i = 2
      · rw [if_pos h2, if_pos (by omega)]; simp
      · rw [if_neg h2, h.cell i hi]
        have : (3 ≤ ph i + 1) = (3 ≤ ph i) := by apply propext; omega
        simp only [this]
    · rw [Function.update_of_ne hij]
      by_cases h2 : ph j = 2
      · rw [if_pos h2]
        simp only
        rw [if_neg (by rintro ⟨-, h2⟩; exact hij h2)]
        exact h.cell i hi
      · rw [if_neg h2]; exact h.cell i hi

theorem RoundInv.execW (h : RoundInv n g w c K h0 t ph s) {j : Nat} (hj : j < n) (hjt : j < t) (hs : exec s (g + j) = some s') :
    ph j ≤ 3 ∧ (1 ≤ ph j → n + 2 ≤ t) ∧ RoundInv n g w c K h0 t (Function.update ph j (ph j + 1)) s' := by
  have e := h.started j hj hjt
  have h4 := h.ph4 j hj
  obtain hp | hp | hp | hp | hp : ph j = 0 ∨ ph j = 1 ∨ ph j = 2 ∨ ph j = 3 ∨ ph j = 4 := by omega
  · have c1 := cntGe_up (a := 1) (f := ph) hj
    have c4 := cntGe_up (a := 4) (f := ph) hj
    rw [hp] at c1 c4
    simp only [hp, if_pos, if_neg, zero_add, Nat.reduceEqDiff] at c1 c4
    have l1 := cntGe_le n 1 (Function.update ph j 1)
    rw [hp] at e
    simp only [wkP] at e
    have hr := h.ready
    simp only [exec, e] at hs
    rw [if_neg (by omega)] at hs
    cases hs
    refine ⟨by omega, by omega, h.up hj hjt (by omega) (by simp [hp, wkP]) rfl h.alive ?_ ?_ ?_ (by omega) (by simp [hp])⟩
    · simp only [hp, Function.update_self, zero_add]; omega
    · simp only [Function.update_of_ne (show w + 1 ≠ w by omega)]
    · have := h.done
      simp only [hp, zero_add, Function.update_of_ne (show w + 2 ≠ w by omega)]
      simp at c4
      omega
  · rw [hp] at e
    simp only [wkP] at e
    simp only [exec, e] at hs
    split_ifs at hs with h0'
    cases hs
    have c1 := cntGe_up (a := 1) (f := ph) hj
    have c4 := cntGe_up (a := 4) (f := ph) hj
    rw [hp] at c1 c4
    have hsg : n + 2 ≤ t := by
      have := h.signal
      rw [h0'] at this
      by_contra hc
      rw [if_pos (by omega)] at this
      omega
    refine ⟨by omega, fun _ => hsg, h.up hj hjt (by omega) (by simp [hp, wkP, Conf.goOn]) rfl h.alive ?_ rfl ?_ (fun _ => hsg)
      (by simp [hp, Conf.goOn])⟩
    · have := h.ready; simp only [Conf.goOn, hp]; simp at c1; simp; omega
    · have := h.done; simp only [Conf.goOn, hp]; simp at c4; simp; omega
  · have ht : n + 2 ≤ t := by
      by_contra hc
      have := h.before (by omega) j hj
      omega
    rw [hp] at e
    simp only [wkP, wrP] at e
    simp only [exec, e] at hs
    cases hs
    have c1 := cntGe_up (a := 1) (f := ph) hj
    have c4 := cntGe_up (a := 4) (f := ph) hj
    rw [hp] at c1 c4
    refine ⟨by omega, fun _ => ht, h.up hj hjt (by omega) (by simp [hp, wkP]) rfl h.alive ?_ rfl ?_ (fun _ => ht) (by simp [hp])⟩
    · have := h.ready; simp only [hp]; simp at c1; simp; omega
    · have := h.done; simp only [hp]; simp at c4; simp; omega
  · have ht : n + 2 ≤ t := by
      by_contra hc
      have := h.before (by omega) j hj
      omega
    have c1 := cntGe_up (a := 1) (f := ph) hj
    have c4 := cntGe_up (a := 4) (f := ph) hj
    rw [hp] at c1 c4
    simp at c1 c4
    have l4 := cntGe_le n 4 (Function.update ph j 4)
    rw [hp] at e
    simp only [wkP] at e
    have hd := h.done
    simp only [exec, e] at hs
    rw [if_neg (by omega)] at hs
    cases hs
    refine ⟨by omega, fun _ => ht, h.up hj hjt (by omega) (by simp [hp, wkP]) rfl h.alive ?_ ?_ ?_ (fun _ => ht) (by simp [hp])⟩
    · have := h.ready
      simp only [hp, Function.update_of_ne (show w ≠ w + 2 by omega)]
      simp; omega
    · simp only [Function.update_of_ne (show w + 1 ≠ w + 2 by omega)]
    · simp only [hp, Function.update_self]; simp; omega
  · rw [hp] at e
    simp only [wkP] at e
    simp [exec, e] at hs

theorem RoundInv.canW (h : RoundInv n g w c K h0 t ph s) {j : Nat} (hj : j < n) (hjt : j < t) (hp : ph j ≤ 3)
    (ht : 1 ≤ ph j → n + 2 ≤ t) : ∃ s', exec s (g + j) = some s' := by
  have e := h.started j hj hjt
  obtain hp | hp | hp | hp : ph j = 0 ∨ ph j = 1 ∨ ph j = 2 ∨ ph j = 3 := by omega
  all_goals rw [hp] at e; simp only [wkP, wrP] at e; simp only [exec, e]
  · split_ifs <;> exact ⟨_, rfl⟩
  · have := h.signal
    rw [if_neg (by have := ht (by omega); omega)] at this
    rw [if_pos this]; exact ⟨_, rfl⟩
  · exact ⟨_, rfl⟩
  · split_ifs <;> exact ⟨_, rfl⟩

theorem RoundInv.can0 (h : RoundInv n g w c K h0 t ph s)
    (ht : (t = n → ∀ j < n, 1 ≤ ph j) ∧ (t = n + 2 → ∀ j < n, 4 ≤ ph j)) : ∃ s', exec s 0 = some s' := by
  have e := h.main
  have := h.t2
  obtain h1 | rfl | rfl | rfl : t < n ∨ t = n ∨ t = n + 1 ∨ t = n + 2 := by omega
  · rw [mnP_lt h1] at e; simp only [exec, e]; exact ⟨_, rfl⟩
  · rw [mnP_n] at e; simp only [exec, e]
    rw [if_pos (by rw [h.ready, cntGe_all.2 (ht.1 rfl)]; omega)]; exact ⟨_, rfl⟩
  · rw [mnP_n1] at e; simp only [exec, e]; split_ifs <;> exact ⟨_, rfl⟩
  · rw [mnP_n2] at e; simp only [exec, e]
    rw [if_pos (by rw [h.done, cntGe_all.2 (ht.2 rfl)]; omega)]; exact ⟨_, rfl⟩

theorem wkP_send (j : Nat) (v : C) (w p : Nat) {c' : Nat} {x : Unit} {k : Prog (Heap C) Unit} : wkP j v w p ≠ .send c' x k := by
  unfold wkP wrP
  split <;> simp

/-- A goroutine is the caller, has been started in this round, or has returned. -/
theorem RoundInv.who (h : RoundInv n g w c K h0 t ph s) (i : Nat) :
    i = 0 ∨ (∃ j < n, j < t ∧ i = g + j) ∨ (∃ r, s.gs i = .ret r) := by
  by_cases h0 : i = 0
  · exact .inl h0
  by_cases h1 : i < g ∨ g + min t n ≤ i
  · exact .inr (.inr (h.others i (by omega) h1))
  · exact .inr (.inl ⟨i - g, by omega, by omega, by omega⟩)

theorem RoundInv.step (h : RoundInv n g w c K h0 t ph s) (hs : Step s s') :
    (t ≤ n + 1 ∧ RoundInv n g w c K h0 (t + 1) ph s') ∨
    (∃ j < n, ph j ≤ 3 ∧ RoundInv n g w c K h0 t (Function.update ph j (ph j + 1)) s') ∨
    (t = n + 2 ∧ (∀ j < n, ph j = 4) ∧ s' = s.goOn 0 K) := by
  obtain ⟨_, ⟨i, hi⟩ | ⟨i, j, ch, v, k, k', hij, hi, hj, _⟩⟩ := hs
  · rcases h.who i with rfl | ⟨j, hj, hjt, rfl⟩ | ⟨r, hr⟩
    · rcases h.exec0 hi with h1 | h1
      · exact .inl h1
      · exact .inr (.inr h1)
    · obtain ⟨h1, _, h2⟩ := h.execW hj hjt hi
      exact .inr (.inl ⟨j, hj, h1, h2⟩)
    · simp [exec, hr] at hi
  · exfalso
    rcases h.who i with rfl | ⟨j, hj, hjt, rfl⟩ | ⟨r, hr⟩
    · rw [h.main] at hi
      rcases mnP_cases (n := n) (w := w) (W := fun k => wkP k (c k) w 0) (K := K) h.t2 with ⟨_, _, e⟩ | ⟨_, _, e⟩ | ⟨_, _, e⟩ <;>
        rw [e] at hi <;> cases hi
    · rw [h.started j hj hjt] at hi
      exact wkP_send _ _ _ _ hi
    · rw [hr] at hi; cases hi

theorem RoundInv.live (h : RoundInv n g w c K h0 t ph s) : ∃ s', Step s s' := by
  by_cases hm : (t = n → ∀ j < n, 1 ≤ ph j) ∧ (t = n + 2 → ∀ j < n, 4 ≤ ph j)
  · obtain ⟨s', e⟩ := h.can0 hm
    exact ⟨s', h.alive, .inl ⟨0, e⟩⟩
  · have : ∃ j < n, j < t ∧ ph j ≤ 3 ∧ (1 ≤ ph j → n + 2 ≤ t) := by
      rw [not_and_or] at hm
      push Not at hm
      rcases hm with ⟨rfl, j, hj, hp⟩ | ⟨rfl, j, hj, hp⟩
      · exact ⟨j, hj, hj, by omega, by omega⟩
      · exact ⟨j, hj, by omega, by omega, by omega⟩
    obtain ⟨j, hj, hjt, h1, h2⟩ := this
    obtain ⟨s', e⟩ := h.canW hj hjt h1 h2
    exact ⟨s', h.alive, .inl ⟨_, e⟩⟩

theorem RoundInv.mem (h : RoundInv n g w c K h0 t ph s) {i : Nat} {a : Access} {f : Heap C → Heap C} {k : Heap C → Prog (Heap C) Unit}
    (e : s.gs i = .mem a f k) : ∃ j < n, a = .write 0 j ∧ i = g + j := by
  rcases h.who i with rfl | ⟨j, hj, hjt, rfl⟩ | ⟨r, hr⟩
  · rw [h.main] at e
    rcases mnP_cases (n := n) (w := w) (W := fun k => wkP k (c k) w 0) (K := K) h.t2 with ⟨_, _, e'⟩ | ⟨_, _, e'⟩ | ⟨_, _, e'⟩ <;>
      rw [e'] at e <;> cases e
  · rw [h.started j hj hjt] at e
    refine ⟨j, hj, ?_, rfl⟩
    unfold wkP wrP at e
    split at e <;> cases e
    rfl
  · rw [hr] at e; cases e

theorem RoundInv.notRet (h : RoundInv n g w c K h0 t ph s) : ¬ Returned s 0 := by
  rintro ⟨r, e⟩
  rw [h.main] at e
  rcases mnP_cases (n := n) (w := w) (W := fun k => wkP k (c k) w 0) (K := K) h.t2 with ⟨_, _, e'⟩ | ⟨_, _, e'⟩ | ⟨_, _, e'⟩ <;>
    rw [e'] at e <;> cases e


/-- If what follows the round is good then so is the round. -/
theorem RoundInv.good {G : Conf (Heap C) Unit → Prop} (hG : ∀ t ph s, RoundInv n g w c K h0 t ph s → G s)
    (hK : ∀ ph s, RoundInv n g w c K h0 (n + 2) ph s → (∀ j < n, ph j = 4) → Good G (s.goOn 0 K)) :
    ∀ (m t : Nat) (ph : Nat → Nat) (s : Conf (Heap C) Unit), todo n 4 t ph = m → RoundInv n g w c K h0 t ph s → Good G s := by
  intro m
  induction m using Nat.strong_induction_on with
  | _ m ih =>
    intro t ph s hm h
    refine .mk (hG _ _ _ h) fun s' hs => ?_
    rcases h.step hs with ⟨h1, h2⟩ | ⟨j, hj, h1, h2⟩ | ⟨rfl, h1, rfl⟩
    · exact ih _ (hm ▸ todo_main h1) _ _ _ rfl h2
    · exact ih _ (hm ▸ todo_up hj (by omega)) _ _ _ rfl h2
    · exact hK ph s h h1

variable {setup : Nat → Nat → Go σ} {run : σ → Go C} {p : Nat → Nat → σ} {cc : Nat → Nat → C}

theorem worker_ok {x : Go σ} {q : σ} {v : C} (h1 : x = .ok q) (h2 : run q = .ok v) (j w : Nat) :
    benchWorkerR j x run w (w + 1) (w + 2) = wkP j v w 0 := by
  simp [benchWorkerR, h1, h2, liftBlock, wkP, wrP]

/-- The start of a round: three steps, which nobody else can take part in. -/
theorem round_start {K : Prog (Heap C) Unit} {i : Nat} (hs : ∀ k, setup i k = .ok (p i k)) (hr : ∀ k, run (p i k) = .ok (cc i k))
    (h : Solo s) (h1 : 1 ≤ s.nG) (e : s.gs 0 = benchRoundR (setup i) run n K) :
    ∃ s1 s2 s3, exec s 0 = some s1 ∧ exec s1 0 = some s2 ∧ exec s2 0 = some s3 ∧ Solo s1 ∧ Solo s2 ∧ s1.mem = s.mem ∧ s2.mem = s.mem ∧
      (∃ k, s1.gs 0 = .wgNew 1 k) ∧ (∃ k, s2.gs 0 = .wgNew n k) ∧
      RoundInv n s.nG s.nW (cc i) K s.mem 0 (fun _ => 0) s3 := by
  have solo : ∀ (x : Conf (Heap C) Unit) (P : Prog (Heap C) Unit), Solo x → ∀ y : Conf (Heap C) Unit, y.crashed = x.crashed →
      y.gs = Function.update x.gs 0 P → Solo y := by
    intro x P hx y e1 e2
    refine ⟨by rw [e1]; exact hx.1, fun j hj => ?_⟩
    obtain ⟨r, hr⟩ := hx.2 j hj
    exact ⟨r, by rw [e2, Function.update_of_ne hj]; exact hr⟩
  obtain ⟨s1, e1⟩ : ∃ s1, exec s 0 = some s1 := by simp only [exec, e, benchRoundR]; exact ⟨_, rfl⟩
  have e1' := e1
  simp only [exec, e, benchRoundR, Option.some.injEq] at e1'
  obtain ⟨s2, e2⟩ : ∃ s2, exec s1 0 = some s2 := by subst e1'; simp only [exec, Function.update_self]; exact ⟨_, rfl⟩
  have e2' := e2
  rw [← e1'] at e2'
  simp only [exec, Function.update_self, Option.some.injEq, Function.update_idem] at e2'
  obtain ⟨s3, e3⟩ : ∃ s3, exec s2 0 = some s3 := by subst e2'; simp only [exec, Function.update_self]; exact ⟨_, rfl⟩
  have e3' := e3
  rw [← e2'] at e3'
  simp only [exec, Function.update_self, Option.some.injEq, Function.update_idem] at e3'
  refine ⟨s1, s2, s3, e1, e2, e3, ?_, ?_, by rw [← e1'], by rw [← e2'], ?_, ?_, ?_⟩
  · exact solo s _ h _ (by rw [← e1']) (by rw [← e1'])
  · exact solo s _ h _ (by rw [← e2']) (by rw [← e2'])
  · rw [← e1']; simp only [Function.update_self]; exact ⟨_, rfl⟩
  · rw [← e2']; simp only [Function.update_self]; exact ⟨_, rfl⟩
  · rw [← e3']
    refine ⟨h.1, h1, by omega, ?_, by simp, fun _ _ h => absurd h (by omega), ?_, ?_, ?_, ?_, fun _ _ => rfl, fun _ _ => by omega,
      fun _ _ _ => by omega, fun h => by omega, fun _ _ _ => rfl, rfl, fun _ _ => rfl⟩
    · simp only [Function.update_self, mnP, if_pos (Nat.zero_le n), Nat.sub_zero]
      congr 1
      funext k _ next
      rw [worker_ok (hs k) (hr k)]
    · intro j hj _
      obtain ⟨r, hr⟩ := h.2 j (by omega)
      exact ⟨r, by simp only [Function.update_of_ne (show j ≠ 0 by omega)]; exact hr⟩
    · rw [cntGe_zero fun j _ => by omega]
      simp [Function.update]
    · simp
    · rw [cntGe_zero fun j _ => by omega]
      simp [Function.update]

/-- The memory before round `i`. -/
structure MemAt (n : Nat) (cc : Nat → Nat → C) (h0 : Heap C) (i : Nat) (h : Heap C) : Prop where
  frame : h.next = h0.next ∧ ∀ a j, ¬ (a = 0 ∧ j < n) → h.cells a j = h0.cells a j
  slots : ∀ j < n, h.cells 0 j = if i = 0 then h0.cells 0 j else cc (i - 1) j

theorem rounds_good (hs : ∀ i k, setup i k = .ok (p i k)) (hr : ∀ i k, run (p i k) = .ok (cc i k)) (n T : Nat) (h0 : Heap C)
    (post : (Nat → C) → Prop) (hp : ∀ h, MemAt n cc h0 T h → post (h.cells 0)) :
    ∀ (N i : Nat) (s : Conf (Heap C) Unit), i + N = T → Solo s → 1 ≤ s.nG → s.gs 0 = benchRoundsR setup run n i N → MemAt n cc h0 i s.mem →
      Good (GoodSlots n h0 post) s := by
  intro N
  induction N with
  | zero =>
    intro i s hi h h1 e hm
    have hret : ∀ j, Returned s j := by
      intro j
      by_cases hj : j = 0
      · subst hj; exact ⟨_, e⟩
      · exact h.2 j hj
    have nomem : ∀ j a f k, s.gs j ≠ .mem a f k := by
      intro j a f k hj
      obtain ⟨r, hr⟩ := hret j
      rw [hj] at hr; cases hr
    refine .mk ⟨h.1, fun _ => hret, fun _ => ⟨hret, hp _ (by rw [← hi]; exact hm)⟩, fun j a f k hj => absurd hj (nomem j a f k), ?_,
      hm.frame⟩ ?_
    · rintro ⟨j, _, a, f, k, _, _, _, _, hj, _⟩
      exact nomem j a f k hj
    · rintro s' ⟨_, ⟨j, hj⟩ | ⟨j, _, _, _, _, _, _, hj, _⟩⟩
      · obtain ⟨r, hr⟩ := hret j
        simp [exec, hr] at hj
      · obtain ⟨r, hr⟩ := hret j
        rw [hj] at hr; cases hr
  | succ N ih =>
    intro i s hi h h1 e hm
    obtain ⟨s1, s2, s3, e1, e2, e3, w1, w2, m1, m2, ⟨k1, g1⟩, ⟨k2, g2⟩, inv⟩ :=
      round_start (n := n) (p := p) (cc := cc) (K := benchRoundsR setup run n (i + 1) N) (hs i) (hr i) h h1 e
    have soloG : ∀ x y : Conf (Heap C) Unit, Solo x → x.mem = s.mem → exec x 0 = some y → (∃ m k, x.gs 0 = .wgNew m k) →
        GoodSlots n h0 post x := by
      rintro x y hx hxm ex ⟨m, k, hx0⟩
      have nomem : ∀ j a f k, x.gs j ≠ .mem a f k := by
        intro j a f k hj
        by_cases h0 : j = 0
        · subst h0; rw [hj] at hx0; cases hx0
        · obtain ⟨r, hr⟩ := hx.2 j h0
          rw [hj] at hr; cases hr
      refine ⟨hx.1, fun hst => absurd ⟨hx.1, .inl ⟨0, ex⟩⟩ (hst y), ?_, fun j a f k hj => absurd hj (nomem j a f k), ?_, ?_⟩
      · rintro ⟨r, hr⟩
        rw [hr] at hx0; cases hx0
      · rintro ⟨j, _, a, f, k, _, _, _, _, hj, _⟩
        exact nomem j a f k hj
      · rw [hxm]; exact hm.frame
    refine solo_good h (soloG s s1 h rfl e1 ⟨_, _, e⟩) e1 (solo_good w1 (soloG s1 s2 w1 m1 e2 ⟨_, _, g1⟩) e2
      (solo_good w2 (soloG s2 s3 w2 m2 e3 ⟨_, _, g2⟩) e3 ?_))
    refine RoundInv.good ?_ ?_ _ _ _ _ rfl inv
    · intro t ph x hx
      refine ⟨hx.alive, fun hst => ?_, fun hret => absurd hret hx.notRet, fun j a f k hj => ?_, ?_, ?_, ?_⟩
      · obtain ⟨s', h'⟩ := hx.live
        exact absurd h' (hst s')
      · obtain ⟨x1, hx1, rfl, -⟩ := hx.mem hj
        exact ⟨x1, hx1, rfl⟩
      · rintro ⟨j, j', a, f, k, b, f', k', hjj, hj, hj', hc⟩
        obtain ⟨x1, hx1, rfl, rfl⟩ := hx.mem hj
        obtain ⟨x2, hx2, rfl, rfl⟩ := hx.mem hj'
        have : x1 = x2 := hc.2
        omega
      · rw [hx.next]; exact hm.frame.1
      · intro a j haj
        rw [hx.same a j haj]; exact hm.frame.2 a j haj
    · intro ph x hx hall
      refine ih (i + 1) (x.goOn 0 _) (by omega) ⟨hx.alive, fun j hj => ?_⟩ ?_ (by simp [Conf.goOn]) ⟨⟨?_, ?_⟩, ?_⟩
      · simp only [Conf.goOn, Returned, Function.update_of_ne hj]
        rcases hx.who j with rfl | ⟨j', hj', hjt, rfl⟩ | hr
        · exact absurd rfl hj
        · exact ⟨(), by rw [hx.started j' hj' hjt, hall j' hj']; rfl⟩
        · exact hr
      · simp only [Conf.goOn, hx.nG]; omega
      · simp only [Conf.goOn]; rw [hx.next]; exact hm.frame.1
      · intro a j haj
        simp only [Conf.goOn]; rw [hx.same a j haj]; exact hm.frame.2 a j haj
      · intro j hj
        simp only [Conf.goOn]
        rw [hx.cell j hj, hall j hj, if_pos (by omega), if_neg (by omega), Nat.add_sub_cancel]

theorem benchRounds_run (hs : ∀ i k, setup i k = .ok (p i k)) (hr : ∀ i k, run (p i k) = .ok (cc i k)) (n N : Nat) (h0 : Heap C) :
    ∃ bound, GoodSlotsRun n (fun r => ∀ j < n, r j = if N = 0 then h0.cells 0 j else cc (N - 1) j) bound
      (startOf (benchRoundsR setup run n 0 N) h0 ()) := by
  have := rounds_good hs hr n N h0 (fun r => ∀ j < n, r j = if N = 0 then h0.cells 0 j else cc (N - 1) j) (fun h hm => hm.slots) N 0
    (startOf (benchRoundsR setup run n 0 N) h0 ()) (by omega) (solo_startOf _ _) le_rfl rfl ⟨⟨rfl, fun _ _ _ => rfl⟩, fun _ _ => rfl⟩
  exact this.bound (Solo.rest (solo_startOf _ _) le_rfl)

end GkrMimc.Slots
