import Verif.Proofs.Bench
import Verif.Spec.Bench

/-! The rounds of the multi-process benchmark. -/

namespace GkrMimc

open Spec

variable {C σ : Type} {n g w t : Nat} {c : Nat → C} {K : Prog (Heap C) Unit} {h0 : Heap C} {ph : Nat → Nat}
  {s s' : Conf (Heap C) Unit}

/-- What is left to do. -/
def todo (n a t : Nat) (ph : Nat → Nat) : Nat := (n + 2 - t) + ∑ j ∈ Finset.range n, (a - ph j)

theorem todo_up {a j : Nat} (hj : j < n) (h : ph j < a) : todo n a t (Function.update ph j (ph j + 1)) < todo n a t ph := by
  unfold todo
  refine Nat.add_lt_add_left (Finset.sum_lt_sum ?_ ⟨j, Finset.mem_range.2 hj, by rw [Function.update_self]; omega⟩) _
  intro i _
  by_cases hij : i = j
  · subst hij; rw [Function.update_self]; omega
  · rw [Function.update_of_ne hij]

theorem todo_main {a : Nat} (h : t ≤ n + 1) : todo n a (t + 1) ph < todo n a t ph := by
  unfold todo; omega

/-- If what follows the round is good then so is the round. -/
theorem RoundInv.good {G : Conf (Heap C) Unit → Prop} (hG : ∀ t ph s, RoundInv n g w c K h0 t ph s → G s)
    (hK : ∀ ph s, RoundInv n g w c K h0 (n + 2) ph s → (∀ j < n, ph j = 4) → Good G (s.goOn 0 K)) :
    ∀ (m t : Nat) (ph : Nat → Nat) (s : Conf (Heap C) Unit), todo n 4 t ph = m → RoundInv n g w c K h0 t ph s → Good G s := by
  intro m
  induction m using Nat.strong_induction_on with
  | _ m ih =>
    intro t ph s hm h
    refine .mk (hG _ _ _ h) fun s' hs => ?_
    rcases h.step hs with ⟨h1, h2⟩ | ⟨j, hj, h1, h2⟩ | ⟨rfl, h1, rfl⟩
    · exact ih _ (hm ▸ todo_main h1) _ _ _ rfl h2
    · exact ih _ (hm ▸ todo_up hj (by omega)) _ _ _ rfl h2
    · exact hK ph s h h1

/-- Some schedule lets all the goroutines wait before their writes. -/
theorem RoundInv.toRace : ∀ (m t : Nat) (ph : Nat → Nat) (s : Conf (Heap C) Unit), todo n 2 t ph = m →
    RoundInv n g w c K h0 t ph s → (∀ j < n, ph j ≤ 2) →
    ∃ k s' ph', ReachIn s k s' ∧ RoundInv n g w c K h0 (n + 2) ph' s' ∧ ∀ j < n, ph' j = 2 := by
  intro m
  induction m using Nat.strong_induction_on with
  | _ m ih =>
    intro t ph s hm h h2
    by_cases hex : ∃ j < n, j < t ∧ ph j ≤ 1 ∧ (1 ≤ ph j → n + 2 ≤ t)
    · obtain ⟨j, hj, hjt, h3, h4⟩ := hex
      obtain ⟨s1, e⟩ := h.canW hj hjt (by omega) h4
      obtain ⟨_, _, h5⟩ := h.execW hj hjt e
      obtain ⟨k, s', ph', h6, h7⟩ := ih _ (hm ▸ todo_up hj (by omega)) _ _ _ rfl h5 (by
        intro i hi
        by_cases hij : i = j
        · subst hij; rw [Function.update_self]; omega
        · rw [Function.update_of_ne hij]; exact h2 i hi)
      exact ⟨k + 1, s', ph', ReachIn.head ⟨h.alive, .inl ⟨_, e⟩⟩ h6, h7⟩
    · push Not at hex
      have ht2 := h.t2
      by_cases ht : t = n + 2
      · subst ht
        refine ⟨0, s, ph, .zero, h, fun j hj => ?_⟩
        by_contra hc
        have := h2 j hj
        have := hex j hj (by omega) (by omega)
        omega
      · obtain ⟨s1, e⟩ := h.can0 ⟨by
          rintro rfl j hj
          by_contra hc
          have := hex j hj hj (by omega)
          omega, fun e => absurd e ht⟩
        rcases h.exec0 e with ⟨h3, h4⟩ | ⟨h3, _⟩
        · obtain ⟨k, s', ph', h6, h7⟩ := ih _ (hm ▸ todo_main h3) _ _ _ rfl h4 h2
          exact ⟨k + 1, s', ph', ReachIn.head ⟨h.alive, .inl ⟨_, e⟩⟩ h6, h7⟩
        · exact absurd h3 ht

theorem RoundInv.race (h : RoundInv n g w c K h0 (n + 2) ph s) (h2 : ∀ j < n, ph j = 2) (hn : 2 ≤ n) : Race s := by
  have e0 := h.started 0 (by omega) (by omega)
  have e1 := h.started 1 (by omega) (by omega)
  rw [h2 0 (by omega)] at e0
  rw [h2 1 (by omega)] at e1
  exact ⟨g + 0, g + 1, _, _, _, _, _, _, by omega, e0, e1, ⟨rfl, rfl⟩⟩

variable {setup : Nat → Nat → Go σ} {run : σ → Go C} {p : Nat → Nat → σ} {cc : Nat → Nat → C}

theorem worker_ok {x : Go σ} {q : σ} {v : C} (h1 : x = .ok q) (h2 : run q = .ok v) (w : Nat) :
    benchWorker x run w (w + 1) (w + 2) = wkP v w 0 := by
  simp [benchWorker, h1, h2, liftBlock, wkP, wrP]

/-- The start of a round: three steps, which nobody else can take part in. -/
theorem round_start {K : Prog (Heap C) Unit} {i : Nat} (hs : ∀ k, setup i k = .ok (p i k)) (hr : ∀ k, run (p i k) = .ok (cc i k))
    (h : Solo s) (h1 : 1 ≤ s.nG) (e : s.gs 0 = benchRound (setup i) run n K) :
    ∃ s1 s2 s3, exec s 0 = some s1 ∧ exec s1 0 = some s2 ∧ exec s2 0 = some s3 ∧ Solo s1 ∧ Solo s2 ∧ s1.mem = s.mem ∧ s2.mem = s.mem ∧
      (∃ k, s1.gs 0 = .wgNew 1 k) ∧ (∃ k, s2.gs 0 = .wgNew n k) ∧
      RoundInv n s.nG s.nW (cc i) K s.mem 0 (fun _ => 0) s3 := by
  have solo : ∀ (x : Conf (Heap C) Unit) (P : Prog (Heap C) Unit), Solo x → ∀ y : Conf (Heap C) Unit, y.crashed = x.crashed →
      y.gs = Function.update x.gs 0 P → Solo y := by
    intro x P hx y e1 e2
    refine ⟨by rw [e1]; exact hx.1, fun j hj => ?_⟩
    obtain ⟨r, hr⟩ := hx.2 j hj
    exact ⟨r, by rw [e2, Function.update_of_ne hj]; exact hr⟩
  obtain ⟨s1, e1⟩ : ∃ s1, exec s 0 = some s1 := by simp only [exec, e, benchRound]; exact ⟨_, rfl⟩
  have e1' := e1
  simp only [exec, e, benchRound, Option.some.injEq] at e1'
  obtain ⟨s2, e2⟩ : ∃ s2, exec s1 0 = some s2 := by subst e1'; simp only [exec, Function.update_self]; exact ⟨_, rfl⟩
  have e2' := e2
  rw [← e1'] at e2'
  simp only [exec, Function.update_self, Option.some.injEq, Function.update_idem] at e2'
  obtain ⟨s3, e3⟩ : ∃ s3, exec s2 0 = some s3 := by subst e2'; simp only [exec, Function.update_self]; exact ⟨_, rfl⟩
  have e3' := e3
  rw [← e2'] at e3'
  simp only [exec, Function.update_self, Option.some.injEq, Function.update_idem] at e3'
  refine ⟨s1, s2, s3, e1, e2, e3, ?_, ?_, by rw [← e1'], by rw [← e2'], ?_, ?_, ?_⟩
  · exact solo s _ h _ (by rw [← e1']) (by rw [← e1'])
  · exact solo s _ h _ (by rw [← e2']) (by rw [← e2'])
  · rw [← e1']; simp only [Function.update_self]; exact ⟨_, rfl⟩
  · rw [← e2']; simp only [Function.update_self]; exact ⟨_, rfl⟩
  · rw [← e3']
    refine ⟨h.1, h1, by omega, ?_, by simp, fun _ _ h => absurd h (by omega), ?_, ?_, ?_, ?_, fun _ _ => rfl, fun _ _ => by omega,
      fun _ _ _ => by omega, fun h => by omega, fun _ _ _ => rfl, rfl, fun _ => rfl, fun _ _ h => by omega⟩
    · simp only [Function.update_self, mnP, if_pos (Nat.zero_le n), Nat.sub_zero]
      congr 1
      funext k _ next
      rw [worker_ok (hs k) (hr k)]
    · intro j hj _
      obtain ⟨r, hr⟩ := h.2 j (by omega)
      exact ⟨r, by simp only [Function.update_of_ne (show j ≠ 0 by omega)]; exact hr⟩
    · rw [cntGe_zero fun j _ => by omega]
      simp [Function.update]
    · simp
    · rw [cntGe_zero fun j _ => by omega]
      simp [Function.update]

theorem solo_good {G : Conf (Heap C) Unit → Prop} {s1 : Conf (Heap C) Unit} (h : Solo s) (hG : G s) (e : exec s 0 = some s1)
    (h1 : Good G s1) : Good G s := .mk hG fun s' hs => by rw [solo_step h e hs]; exact h1

/-- The memory before round `i`. -/
structure MemAt (n : Nat) (cc : Nat → Nat → C) (h0 : Heap C) (i : Nat) (h : Heap C) : Prop where
  frame : h.next = h0.next ∧ ∀ a j, ¬ (a = 0 ∧ j = 0) → h.cells a j = h0.cells a j
  none : i = 0 ∨ n = 0 → h.cells 0 0 = h0.cells 0 0
  some : 1 ≤ i → 1 ≤ n → ∃ k < n, h.cells 0 0 = cc (i - 1) k

theorem rounds_good (hs : ∀ i k, setup i k = .ok (p i k)) (hr : ∀ i k, run (p i k) = .ok (cc i k)) (n T : Nat) (h0 : Heap C)
    (post : C → Prop) (hp : ∀ h, MemAt n cc h0 T h → post (h.cells 0 0)) :
    ∀ (N i : Nat) (s : Conf (Heap C) Unit), i + N = T → Solo s → 1 ≤ s.nG → s.gs 0 = benchRounds setup run n i N → MemAt n cc h0 i s.mem →
      Good (GoodBench n h0 post) s := by
  intro N
  induction N with
  | zero =>
    intro i s hi h h1 e hm
    have hret : ∀ j, Returned s j := by
      intro j
      by_cases hj : j = 0
      · subst hj; exact ⟨_, e⟩
      · exact h.2 j hj
    have nomem : ∀ j a f k, s.gs j ≠ .mem a f k := by
      intro j a f k hj
      obtain ⟨r, hr⟩ := hret j
      rw [hj] at hr; cases hr
    refine .mk ⟨h.1, fun _ => hret, fun _ => ⟨hret, hp _ (by rw [← hi]; exact hm)⟩, fun j a f k hj => absurd hj (nomem j a f k), ?_,
      hm.frame⟩ ?_
    · rintro _ ⟨j, _, a, f, k, _, _, _, _, hj, _⟩
      exact nomem j a f k hj
    · rintro s' ⟨_, ⟨j, hj⟩ | ⟨j, _, _, _, _, _, _, hj, _⟩⟩
      · obtain ⟨r, hr⟩ := hret j
        simp [exec, hr] at hj
      · obtain ⟨r, hr⟩ := hret j
        rw [hj] at hr; cases hr
  | succ N ih =>
    intro i s hi h h1 e hm
    obtain ⟨s1, s2, s3, e1, e2, e3, w1, w2, m1, m2, ⟨k1, g1⟩, ⟨k2, g2⟩, inv⟩ :=
      round_start (n := n) (p := p) (cc := cc) (K := benchRounds setup run n (i + 1) N) (hs i) (hr i) h h1 e
    have soloG : ∀ x y : Conf (Heap C) Unit, Solo x → x.mem = s.mem → exec x 0 = some y → (∃ m k, x.gs 0 = .wgNew m k) →
        GoodBench n h0 post x := by
      rintro x y hx hxm ex ⟨m, k, hx0⟩
      have nomem : ∀ j a f k, x.gs j ≠ .mem a f k := by
        intro j a f k hj
        by_cases h0 : j = 0
        · subst h0; rw [hj] at hx0; cases hx0
        · obtain ⟨r, hr⟩ := hx.2 j h0
          rw [hj] at hr; cases hr
      refine ⟨hx.1, fun hst => absurd ⟨hx.1, .inl ⟨0, ex⟩⟩ (hst y), ?_, fun j a f k hj => absurd hj (nomem j a f k), ?_, ?_⟩
      · rintro ⟨r, hr⟩
        rw [hr] at hx0; cases hx0
      · rintro _ ⟨j, _, a, f, k, _, _, _, _, hj, _⟩
        exact nomem j a f k hj
      · rw [hxm]; exact hm.frame
    refine solo_good h (soloG s s1 h rfl e1 ⟨_, _, e⟩) e1 (solo_good w1 (soloG s1 s2 w1 m1 e2 ⟨_, _, g1⟩) e2
      (solo_good w2 (soloG s2 s3 w2 m2 e3 ⟨_, _, g2⟩) e3 ?_))
    refine RoundInv.good ?_ ?_ _ _ _ _ rfl inv
    · intro t ph x hx
      refine ⟨hx.alive, fun hst => ?_, fun hret => absurd hret hx.notRet, fun j a f k hj => (hx.mem hj).1, ?_, ?_, ?_⟩
      · obtain ⟨s', h'⟩ := hx.live
        exact absurd h' (hst s')
      · rintro hn ⟨j, j', a, f, k, b, f', k', hjj, hj, hj', _⟩
        obtain ⟨_, x1, hx1, rfl⟩ := hx.mem hj
        obtain ⟨_, x2, hx2, rfl⟩ := hx.mem hj'
        omega
      · rw [hx.next]; exact hm.frame.1
      · intro a j haj
        rw [hx.same a j haj]; exact hm.frame.2 a j haj
    · intro ph x hx hall
      refine ih (i + 1) (x.goOn 0 _) (by omega) ⟨hx.alive, fun j hj => ?_⟩ ?_ (by simp [Conf.goOn]) ⟨⟨?_, ?_⟩, ?_, ?_⟩
      · simp only [Conf.goOn, Returned, Function.update_of_ne hj]
        rcases hx.who j with rfl | ⟨j', hj', hjt, rfl⟩ | hr
        · exact absurd rfl hj
        · exact ⟨(), by rw [hx.started j' hj' hjt, hall j' hj']; rfl⟩
        · exact hr
      · simp only [Conf.goOn, hx.nG]; omega
      · simp only [Conf.goOn]; rw [hx.next]; exact hm.frame.1
      · intro a j haj
        simp only [Conf.goOn]; rw [hx.same a j haj]; exact hm.frame.2 a j haj
      · rintro (hc | hc)
        · omega
        · subst hc
          simp only [Conf.goOn]
          rw [hx.old fun j hj => by omega]
          exact hm.none (.inr rfl)
      · intro _ hn
        simp only [Conf.goOn, Nat.add_sub_cancel]
        exact hx.cell 0 (by omega) (by rw [hall 0 (by omega)]; omega)

theorem solo_startOf {M : Type} (P : Prog M Unit) (m : M) : Solo (startOf P m ()) :=
  ⟨rfl, fun i hi => ⟨(), by simp [startOf, hi]⟩⟩

theorem benchRounds_run (hs : ∀ i k, setup i k = .ok (p i k)) (hr : ∀ i k, run (p i k) = .ok (cc i k)) (n N : Nat) (h0 : Heap C) :
    ∃ bound, GoodBenchRun n (fun v => ((N = 0 ∨ n = 0) ∧ v = h0.cells 0 0) ∨ (1 ≤ N ∧ 1 ≤ n ∧ ∃ k < n, v = cc (N - 1) k)) bound
      (startOf (benchRounds setup run n 0 N) h0 ()) := by
  have := rounds_good hs hr n N h0 (fun v => ((N = 0 ∨ n = 0) ∧ v = h0.cells 0 0) ∨ (1 ≤ N ∧ 1 ≤ n ∧ ∃ k < n, v = cc (N - 1) k)) (by
    intro h hm
    by_cases h0 : N = 0 ∨ n = 0
    · exact .inl ⟨h0, hm.none h0⟩
    · exact .inr ⟨by omega, by omega, hm.some (by omega) (by omega)⟩) N 0 (startOf (benchRounds setup run n 0 N) h0 ()) (by omega) (solo_startOf _ _) le_rfl rfl
    ⟨⟨rfl, fun _ _ _ => rfl⟩, fun _ => rfl, fun h => by omega⟩
  exact this.bound (Solo.rest (solo_startOf _ _) le_rfl)

theorem benchRounds_race (hs : ∀ i k, setup i k = .ok (p i k)) (hr : ∀ i k, run (p i k) = .ok (cc i k)) {n N : Nat} (hn : 2 ≤ n)
    (hN : 1 ≤ N) (h0 : Heap C) : ∃ s, Reach (startOf (benchRounds setup run n 0 N) h0 ()) s ∧ Race s := by
  obtain ⟨N, rfl⟩ : ∃ M, N = M + 1 := ⟨N - 1, by omega⟩
  obtain ⟨s1, s2, s3, e1, e2, e3, w1, w2, m1, m2, _, _, inv⟩ :=
    round_start (n := n) (p := p) (cc := cc) (i := 0) (K := benchRounds setup run n 1 N) (hs 0) (hr 0) (solo_startOf (benchRounds setup run n 0 (N + 1)) h0) le_rfl rfl
  obtain ⟨k, s', ph', h1, h2, h3⟩ := RoundInv.toRace _ _ _ _ rfl inv fun _ _ => by omega
  exact ⟨s', ⟨_, ReachIn.head ⟨rfl, .inl ⟨0, e1⟩⟩ (ReachIn.head ⟨w1.1, .inl ⟨0, e2⟩⟩ (ReachIn.head ⟨w2.1, .inl ⟨0, e3⟩⟩ h1))⟩, h2.race h3 hn⟩

end GkrMimc
