import Verif.Proofs.BenchRounds

/-! The multi-process benchmark when the set-up of the provers fails. -/

namespace GkrMimc

open Spec

variable {C σ : Type} {n w t : Nat} {K : Prog (Heap C) Unit} {ph : Nat → Nat} {s s' : Conf (Heap C) Unit}

/-- A goroutine that waits for ever. -/
def blockP : Prog (Heap C) Unit := .make 0 fun c => .recv c fun _ => .ret ()

/-- The configurations of the first round when all the goroutines are `X`. -/
structure FailInv (n w : Nat) (X K : Prog (Heap C) Unit) (t : Nat) (ph : Nat → Nat) (s : Conf (Heap C) Unit) : Prop where
  alive : s.crashed = none
  tn : t ≤ n
  main : s.gs 0 = mnP n w (fun _ => X) K t
  nG : s.nG = 1 + t
  fresh : ∀ j < t, ph j = 0 → s.gs (1 + j) = X
  blocked : ∀ j < t, ph j ≠ 0 → ∃ c, s.gs (1 + j) = .recv c fun _ => .ret ()
  others : ∀ i, 1 + t ≤ i → ∃ r, s.gs i = .ret r
  unstarted : ∀ j, t ≤ j → ph j = 0
  ready : s.wgs w = n
  chans : ∀ c, (s.chans c).buf = [] ∧ (s.chans c).closed = false

variable {X : Prog (Heap C) Unit}

theorem FailInv.who (h : FailInv n w X K t ph s) (i : Nat) : i = 0 ∨ (∃ j < t, i = 1 + j) ∨ (∃ r, s.gs i = .ret r) := by
  by_cases h0 : i = 0
  · exact .inl h0
  by_cases h1 : 1 + t ≤ i
  · exact .inr (.inr (h.others i h1))
  · exact .inr (.inl ⟨i - 1, by omega, by omega⟩)

theorem FailInv.step (hX : X = blockP ∨ ∃ e, X = .crash e) (hn : 1 ≤ n) (h : FailInv n w X K t ph s) (hs : Step s s') :
    (t < n ∧ FailInv n w X K (t + 1) ph s') ∨
    (X = blockP ∧ ∃ j < n, ph j = 0 ∧ FailInv n w X K t (Function.update ph j (ph j + 1)) s') ∨
    (∃ e, X = .crash e ∧ s' = s.panic e) := by
  have em := h.main
  have tn := h.tn
  obtain ⟨_, ⟨i, hi⟩ | ⟨i, i', ch, v, k, k', hij, hi, hj, _⟩⟩ := hs
  · rcases h.who i with rfl | ⟨j, hjt, rfl⟩ | ⟨r, hr⟩
    · rcases tn.lt_or_eq with ht | rfl
      · rw [mnP_lt ht] at em
        simp only [exec, em, Option.some.injEq] at hi
        subst hi
        have hng := h.nG
        refine .inl ⟨ht, h.alive, ht, ?_, by simp only; omega, ?_, ?_, ?_, fun j hj => h.unstarted j (by omega), h.ready, h.chans⟩
        · simp only
          rw [Function.update_of_ne (by omega), Function.update_self]
        · intro j hj hp
          simp only
          by_cases hjt : j = t
          · subst hjt; rw [← hng, Function.update_self]
          · rw [Function.update_of_ne (by omega), Function.update_of_ne (by omega)]
            exact h.fresh j (by omega) hp
        · intro j hj hp
          simp only
          by_cases hjt : j = t
          · exact absurd (h.unstarted j (by omega)) hp
          · rw [Function.update_of_ne (by omega), Function.update_of_ne (by omega)]
            exact h.blocked j (by omega) hp
        · intro i hi
          simp only
          rw [Function.update_of_ne (by omega), Function.update_of_ne (by omega)]
          exact h.others i (by omega)
      · rw [mnP_n] at em
        simp only [exec, em, h.ready] at hi
        rw [if_neg (by omega)] at hi
        cases hi
    · by_cases hp : ph j = 0
      · have e := h.fresh j hjt hp
        rcases hX with rfl | ⟨er, rfl⟩
        · simp only [exec, e, blockP, Option.some.injEq] at hi
          subst hi
          refine .inr (.inl ⟨rfl, j, by omega, hp, ?_⟩)
          refine ⟨h.alive, tn, ?_, h.nG, ?_, ?_, ?_, ?_, h.ready, ?_⟩
          · simp only; rw [Function.update_of_ne (by omega)]; exact em
          · intro i hi hpi
            have hij : i ≠ j := by rintro rfl; rw [Function.update_self] at hpi; omega
            rw [Function.update_of_ne hij] at hpi
            simp only; rw [Function.update_of_ne (by omega)]; exact h.fresh i hi hpi
          · intro i hi hpi
            simp only
            by_cases hij : i = j
            · subst hij; rw [Function.update_self]; exact ⟨_, rfl⟩
            · rw [Function.update_of_ne hij] at hpi
              rw [Function.update_of_ne (by omega)]; exact h.blocked i hi hpi
          · intro i hi
            simp only; rw [Function.update_of_ne (by omega)]; exact h.others i hi
          · intro i hi
            rw [Function.update_of_ne (by omega)]; exact h.unstarted i hi
          · intro c
            simp only [Conf.setChan]
            by_cases hc : c = s.nC
            · subst hc; rw [Function.update_self]; exact ⟨rfl, rfl⟩
            · rw [Function.update_of_ne hc]; exact h.chans c
        · simp only [exec, e, Option.some.injEq] at hi
          exact .inr (.inr ⟨er, rfl, hi.symm⟩)
      · obtain ⟨c, e⟩ := h.blocked j hjt hp
        simp [exec, e, (h.chans c).1, (h.chans c).2] at hi
    · simp [exec, hr] at hi
  · exfalso
    rcases h.who i with rfl | ⟨j, hjt, rfl⟩ | ⟨r, hr⟩
    · rw [em] at hi
      rcases mnP_cases (n := n) (w := w) (W := fun _ => X) (K := K) (t := t) (by omega) with ⟨_, _, e⟩ | ⟨_, _, e⟩ | ⟨_, _, e⟩ <;>
        rw [e] at hi <;> cases hi
    · by_cases hp : ph j = 0
      · rw [h.fresh j hjt hp] at hi
        rcases hX with rfl | ⟨er, rfl⟩ <;> simp [blockP] at hi
      · obtain ⟨c, e⟩ := h.blocked j hjt hp
        rw [e] at hi; cases hi
    · rw [hr] at hi; cases hi

theorem FailInv.notRet (h : FailInv n w X K t ph s) : ¬ Returned s 0 := by
  rintro ⟨r, e⟩
  rw [h.main] at e
  rcases mnP_cases (n := n) (w := w) (W := fun _ => X) (K := K) (t := t) (by have := h.tn; omega) with ⟨_, _, e'⟩ | ⟨_, _, e'⟩ | ⟨_, _, e'⟩ <;>
    rw [e'] at e <;> cases e

/-- With goroutines that panic there is always a step. -/
theorem FailInv.live {er : Abort} (hn : 1 ≤ n) (h : FailInv n w (.crash er) K t ph s) (hp : ∀ j, ph j = 0) : ∃ s', Step s s' := by
  by_cases ht : t = 0
  · subst ht
    have e := h.main
    rw [mnP_lt (by omega)] at e
    exact ⟨_, h.alive, .inl ⟨0, by simp only [exec, e]; rfl⟩⟩
  · have e := h.fresh 0 (by omega) (hp 0)
    exact ⟨_, h.alive, .inl ⟨1 + 0, by simp only [exec, e]; rfl⟩⟩

theorem FailInv.good {G : Conf (Heap C) Unit → Prop} (hX : X = blockP ∨ ∃ e, X = .crash e) (hn : 1 ≤ n)
    (hG : ∀ t ph s, FailInv n w X K t ph s → (X ≠ blockP → ∀ j, ph j = 0) → G s)
    (hC : ∀ t ph s e, FailInv n w X K t ph s → X = .crash e → Good G (s.panic e)) :
    ∀ (m t : Nat) (ph : Nat → Nat) (s : Conf (Heap C) Unit), todo n 1 t ph = m → FailInv n w X K t ph s →
      (X ≠ blockP → ∀ j, ph j = 0) → Good G s := by
  intro m
  induction m using Nat.strong_induction_on with
  | _ m ih =>
    intro t ph s hm h hp
    refine .mk (hG _ _ _ h hp) fun s' hs => ?_
    rcases h.step hX hn hs with ⟨h1, h2⟩ | ⟨h0, j, hj, h1, h2⟩ | ⟨e, h1, rfl⟩
    · exact ih _ (hm ▸ todo_main (by omega)) _ _ _ rfl h2 hp
    · exact ih _ (hm ▸ todo_up hj (by omega)) _ _ _ rfl h2 (fun hc => absurd h0 hc)
    · exact hC _ _ _ e h h1

variable {setup : Nat → Nat → Go σ} {run : σ → Go C}

theorem fail_start {N : Nat} {h0 : Heap C} (hs : ∀ k, ∀ w, benchWorker (setup 0 k) run w (w + 1) (w + 2) = X) :
    ∃ s1 s2 s3, exec (startOf (benchRounds setup run n 0 (N + 1)) h0 ()) 0 = some s1 ∧ exec s1 0 = some s2 ∧ exec s2 0 = some s3 ∧
      Solo s1 ∧ Solo s2 ∧ (∃ k, s1.gs 0 = .wgNew 1 k) ∧ (∃ k, s2.gs 0 = .wgNew n k) ∧
      FailInv n 0 X (benchRounds setup run n 1 N) 0 (fun _ => 0) s3 := by
  refine ⟨_, _, _, rfl, rfl, rfl, ⟨rfl, ?_⟩, ⟨rfl, ?_⟩, ⟨_, rfl⟩, ⟨_, rfl⟩, ?_⟩
  · intro i hi
    exact ⟨(), by simp [startOf, Function.update_of_ne hi]⟩
  · intro i hi
    exact ⟨(), by simp [startOf, Function.update_of_ne hi]⟩
  · refine ⟨rfl, by omega, ?_, rfl, fun _ h => by omega, fun _ h => by omega, ?_, fun _ _ => rfl, ?_, fun _ => ⟨rfl, rfl⟩⟩
    · simp only [startOf, Function.update_self, mnP, if_pos (Nat.zero_le n), Nat.sub_zero]
      congr 1
      funext k _ next
      have := hs k 0
      simp only [Nat.zero_add] at this
      rw [← this]
    · intro i hi
      exact ⟨(), by simp [startOf, Function.update_of_ne (show i ≠ 0 by omega)]⟩
    · simp [startOf, Function.update]

theorem benchRounds_deadlock (hs : ∀ k, setup 0 k = .error .deadlock) {n N : Nat} (hn : 1 ≤ n) (hN : 1 ≤ N) (h0 : Heap C) :
    ∃ bound, Deadlocks bound (startOf (benchRounds setup run n 0 N) h0 ()) := by
  obtain ⟨N, rfl⟩ : ∃ M, N = M + 1 := ⟨N - 1, by omega⟩
  obtain ⟨s1, s2, s3, e1, e2, e3, w1, w2, ⟨k1, g1⟩, ⟨k2, g2⟩, inv⟩ :=
    fail_start (n := n) (N := N) (h0 := h0) (setup := setup) (run := run) (X := blockP) (fun k w => by simp [benchWorker, hs k, liftBlock, blockP])
  have key : Good (fun s => s.crashed = none ∧ ¬ Returned s 0) (startOf (benchRounds setup run n 0 (N + 1)) h0 ()) := by
    have nr : ∀ (x : Conf (Heap C) Unit) m k, x.gs 0 = .wgNew m k → ¬ Returned x 0 := by
      rintro x m k e ⟨r, hr⟩
      rw [e] at hr; cases hr
    refine solo_good (solo_startOf _ _) ⟨rfl, nr _ _ _ rfl⟩ e1 (solo_good w1 ⟨w1.1, nr _ _ _ g1⟩ e2 (solo_good w2 ⟨w2.1, nr _ _ _ g2⟩ e3 ?_))
    exact FailInv.good (.inl rfl) hn (fun t ph s h _ => ⟨h.alive, h.notRet⟩) (fun t ph s e h h1 => by simp [blockP] at h1) _ _ _ _ rfl inv
      (fun h => absurd rfl h)
  obtain ⟨B, hB⟩ := key.bound (Solo.rest (solo_startOf _ _) le_rfl)
  exact ⟨B, fun k s hk => hB k s hk⟩

theorem benchRounds_panics {e : Abort} (he : e ≠ .deadlock) (hs : ∀ k, setup 0 k = .error e) {n N : Nat} (hn : 1 ≤ n) (hN : 1 ≤ N)
    (h0 : Heap C) : ∃ bound, Panics e bound (startOf (benchRounds setup run n 0 N) h0 ()) := by
  obtain ⟨N, rfl⟩ : ∃ M, N = M + 1 := ⟨N - 1, by omega⟩
  obtain ⟨s1, s2, s3, e1, e2, e3, w1, w2, ⟨k1, g1⟩, ⟨k2, g2⟩, inv⟩ :=
    fail_start (n := n) (N := N) (h0 := h0) (setup := setup) (run := run) (X := .crash e)
      (fun k w => by cases e <;> simp_all [benchWorker, liftBlock])
  have key : Good (fun s => ¬ Returned s 0 ∧ (s.crashed = none ∨ s.crashed = some e) ∧ (Stuck s → s.crashed = some e))
      (startOf (benchRounds setup run n 0 (N + 1)) h0 ()) := by
    have nr : ∀ (x : Conf (Heap C) Unit) m k, x.gs 0 = .wgNew m k → ¬ Returned x 0 := by
      rintro x m k e ⟨r, hr⟩
      rw [e] at hr; cases hr
    have st : ∀ x y : Conf (Heap C) Unit, x.crashed = none → exec x 0 = some y → Stuck x → x.crashed = some e :=
      fun x y hc hx hst => absurd ⟨hc, .inl ⟨0, hx⟩⟩ (hst y)
    refine solo_good (solo_startOf _ _) ⟨nr _ _ _ rfl, .inl rfl, st _ _ rfl e1⟩ e1 (solo_good w1 ⟨nr _ _ _ g1, .inl w1.1, st _ _ w1.1 e2⟩ e2
      (solo_good w2 ⟨nr _ _ _ g2, .inl w2.1, st _ _ w2.1 e3⟩ e3 ?_))
    have hG : ∀ t ph s, FailInv n 0 (.crash e) (benchRounds setup run n 1 N) t ph s → ((Prog.crash e : Prog (Heap C) Unit) ≠ blockP → ∀ j, ph j = 0) →
        (¬ Returned s 0 ∧ (s.crashed = none ∨ s.crashed = some e) ∧ (Stuck s → s.crashed = some e)) := by
      intro t ph s h hp
      refine ⟨h.notRet, .inl h.alive, fun hst => ?_⟩
      obtain ⟨s', h'⟩ := h.live hn (hp (by simp [blockP]))
      exact absurd h' (hst s')
    refine FailInv.good (.inr ⟨e, rfl⟩) hn hG (fun t ph s er h h1 => ?_) _ _ _ _ rfl inv (fun _ _ => rfl)
    obtain rfl : e = er := by simpa using h1
    refine .mk ⟨h.notRet, .inr rfl, fun _ => rfl⟩ ?_
    rintro s' ⟨hc, _⟩
    cases hc
  obtain ⟨B, hB⟩ := key.bound (Solo.rest (solo_startOf _ _) le_rfl)
  exact ⟨B, fun k s hk => hB k s hk⟩

end GkrMimc
