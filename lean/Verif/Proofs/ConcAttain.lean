import Verif.Model.ConcPool
import Verif.Proofs.GoLemmas

/-! Some schedules of a pool, built step by step: they show that the bound on the number of workers is attained. -/

namespace GkrMimc

variable {M V : Type}

theorem ReachIn.trans {s0 s1 s2 : Conf M V} {n m : Nat} (h1 : ReachIn s0 n s1) (h2 : ReachIn s1 m s2) :
    ReachIn s0 (n + m) s2 := by
  induction h2 with
  | zero => exact h1
  | step _ hs ih => exact .step ih hs

theorem Reach.trans {s0 s1 s2 : Conf M V} (h1 : Reach s0 s1) (h2 : Reach s1 s2) : Reach s0 s2 := by
  obtain ⟨n, h1⟩ := h1
  obtain ⟨m, h2⟩ := h2
  exact ⟨n + m, h1.trans h2⟩

theorem Reach.refl (s : Conf M V) : Reach s s := ⟨0, .zero⟩

theorem reach_exec {s s' : Conf M V} (i : Nat) (hc : s.crashed = none) (h : exec s i = some s') : Reach s s' :=
  ⟨1, .step .zero ⟨hc, .inl ⟨i, h⟩⟩⟩

/-- The caller fills a semaphore. -/
theorem run_fill (c : Nat) (tok : V) (k : Prog M V) : ∀ (n j : Nat) (s : Conf M V), s.crashed = none →
    s.gs 0 = loopP (fun _ _ next => .send c tok (next ())) (fun _ => k) j n () → (s.chans c).closed = false →
    (s.chans c).buf.length + n ≤ (s.chans c).cap →
    ∃ s', Reach s s' ∧ s'.crashed = none ∧ s'.gs = Function.update s.gs 0 k ∧ s'.nG = s.nG ∧ s'.nC = s.nC ∧ s'.nW = s.nW ∧
      (s'.chans c).closed = false ∧ (s'.chans c).buf.length = (s.chans c).buf.length + n
  | 0, j, s, hc, hg, hcl, _ => by
    refine ⟨s, .refl s, hc, ?_, rfl, rfl, rfl, hcl, rfl⟩
    rw [show k = s.gs 0 from hg.symm, Function.update_eq_self]
  | n + 1, j, s, hc, hg, hcl, hcap => by
    have hg' : s.gs 0 = .send c tok (loopP (fun _ _ next => .send c tok (next ())) (fun _ => k) (j + 1) n ()) := hg
    have e : exec s 0 = some ((s.setChan c { s.chans c with buf := (s.chans c).buf ++ [tok] }).goOn 0
        (loopP (fun _ _ next => .send c tok (next ())) (fun _ => k) (j + 1) n ())) := by
      unfold exec
      rw [hg']
      simp only [hcl]
      rw [if_neg (by simp), if_pos (by omega)]
    obtain ⟨s', h1, h2, h3, h4, h5, h6, h7, h8⟩ := run_fill c tok k n (j + 1)
      ((s.setChan c { s.chans c with buf := (s.chans c).buf ++ [tok] }).goOn 0
        (loopP (fun _ _ next => .send c tok (next ())) (fun _ => k) (j + 1) n ())) hc
      (by simp [Conf.goOn]) (by simpa [Conf.goOn, Conf.setChan] using hcl) (by simp [Conf.goOn, Conf.setChan]; omega)
    refine ⟨s', (reach_exec 0 hc e).trans h1, h2, ?_, h4, h5, h6, h7, ?_⟩
    · rw [h3]; simp [Conf.goOn, Conf.setChan]
    · rw [h8]; simp [Conf.goOn, Conf.setChan]; omega

/-- The caller makes a semaphore. -/
theorem run_semaphore (tok : V) (n : Nat) (k : Nat → Prog M V) (s : Conf M V) (hc : s.crashed = none)
    (hg : s.gs 0 = newSemaphoreP tok n k) :
    ∃ s', Reach s s' ∧ s'.crashed = none ∧ s'.gs 0 = k s.nC ∧ s'.nG = s.nG ∧ (s'.chans s.nC).buf.length = n := by
  have hg' : s.gs 0 = .make n fun c => loopP (fun _ _ next => .send c tok (next ())) (fun _ => k c) 0 n () := by
    rw [hg]; unfold newSemaphoreP; rw [if_neg (by omega)]; simp
  have e : exec s 0 = some { s.setChan s.nC ⟨[], n, false⟩ with
      gs := (Function.update s.gs 0 (loopP (fun _ _ next => .send s.nC tok (next ())) (fun _ => k s.nC) 0 n ())),
      nC := s.nC + 1 } := by
    unfold exec
    rw [hg']
  obtain ⟨s', h1, h2, h3, h4, -, -, -, h8⟩ := run_fill s.nC tok (k s.nC) n 0
    { s.setChan s.nC ⟨[], n, false⟩ with
      gs := (Function.update s.gs 0 (loopP (fun _ _ next => .send s.nC tok (next ())) (fun _ => k s.nC) 0 n ())),
      nC := s.nC + 1 } hc
    (by simp) (by simp [Conf.setChan]) (by simp [Conf.setChan])
  refine ⟨s', (reach_exec 0 hc e).trans h1, h2, by rw [h3]; simp, h4, by rw [h8]; simp [Conf.setChan]⟩

/-- The caller makes a channel. -/
theorem run_make (n : Nat) (k : Nat → Prog M V) (s : Conf M V) (hc : s.crashed = none) (hg : s.gs 0 = .make n k) :
    ∃ s', Reach s s' ∧ s'.crashed = none ∧ s'.gs 0 = k s.nC ∧ s'.nG = s.nG ∧ s'.nC = s.nC + 1 := by
  refine ⟨{ s.setChan s.nC ⟨[], n, false⟩ with gs := Function.update s.gs 0 (k s.nC), nC := s.nC + 1 },
    reach_exec 0 hc (by unfold exec; rw [hg]), hc, by simp, rfl, rfl⟩

/-- The caller makes a wait group. -/
theorem run_wgNew (n : Nat) (k : Nat → Prog M V) (s : Conf M V) (hc : s.crashed = none) (hg : s.gs 0 = .wgNew n k) :
    ∃ s', Reach s s' ∧ s'.crashed = none ∧ s'.gs 0 = k s.nW ∧ s'.nG = s.nG ∧ s'.chans = s.chans := by
  refine ⟨{ s with gs := Function.update s.gs 0 (k s.nW), wgs := Function.update s.wgs s.nW n, nW := s.nW + 1 },
    reach_exec 0 hc (by unfold exec; rw [hg]), hc, by simp, rfl, rfl⟩

/-- The caller starts goroutines. -/
theorem run_spawn (p : Nat → Prog M V) (k : Prog M V) : ∀ (n j : Nat) (s : Conf M V), s.crashed = none → 1 ≤ s.nG →
    s.gs 0 = loopP (fun i _ next => .go (p i) (next ())) (fun _ => k) j n () →
    ∃ s', Reach s s' ∧ s'.crashed = none ∧ s'.chans = s.chans ∧ s'.gs 0 = k ∧
      (∀ t < n, s'.gs (s.nG + t) = p (j + t)) ∧ ∀ i, 1 ≤ i → i < s.nG → s'.gs i = s.gs i
  | 0, j, s, hc, _, hg => ⟨s, .refl s, hc, rfl, hg, by intro t ht; omega, by intros; rfl⟩
  | n + 1, j, s, hc, hG, hg => by
    have hg' : s.gs 0 = .go (p j) (loopP (fun i _ next => .go (p i) (next ())) (fun _ => k) (j + 1) n ()) := hg
    have e : exec s 0 = some { s with gs := Function.update (Function.update s.gs 0
        (loopP (fun i _ next => .go (p i) (next ())) (fun _ => k) (j + 1) n ())) s.nG (p j), nG := s.nG + 1 } := by
      unfold exec
      rw [hg']
    obtain ⟨s', h1, h2, h3, h4, h5, h6⟩ := run_spawn p k n (j + 1)
      ({ s with gs := Function.update (Function.update s.gs 0
        (loopP (fun i _ next => .go (p i) (next ())) (fun _ => k) (j + 1) n ())) s.nG (p j), nG := s.nG + 1 }) hc
      (by simp) (by simp only; rw [Function.update_of_ne (by omega), Function.update_self])
    refine ⟨s', (reach_exec 0 hc e).trans h1, h2, h3, h4, ?_, ?_⟩
    · intro t ht
      cases t with
      | zero =>
        rw [Nat.add_zero, h6 s.nG hG (by simp)]
        simp
      | succ t =>
        have := h5 t (by omega)
        simp only at this
        rw [show s.nG + (t + 1) = s.nG + 1 + t by omega, this, show j + 1 + t = j + (t + 1) by omega]
    · intro i hi hi'
      rw [h6 i hi (by simp; omega)]
      simp only
      rw [Function.update_of_ne (by omega), Function.update_of_ne (by omega)]

/-- The first `n` goroutines acquire. -/
theorem run_acquire (c : Nat) (body : Nat → Prog M V) (g : Nat) : ∀ (n : Nat) (s : Conf M V), s.crashed = none →
    (∀ t < n, s.gs (g + t) = acquireP c (body t)) → n ≤ (s.chans c).buf.length →
    ∃ s', Reach s s' ∧ s'.crashed = none ∧ (∀ t < n, s'.gs (g + t) = body t) ∧ (∀ t, n ≤ t → s'.gs (g + t) = s.gs (g + t)) ∧
      (s'.chans c).buf.length + n = (s.chans c).buf.length
  | 0, s, hc, _, _ => ⟨s, .refl s, hc, by intro t ht; omega, by intros; rfl, rfl⟩
  | n + 1, s, hc, hg, hb => by
    obtain ⟨s1, h1, h2, h3, h4, h5⟩ := run_acquire c body g n s hc (fun t ht => hg t (by omega)) (by omega)
    have hg' : s1.gs (g + n) = .recv c fun _ => body n := by rw [h4 n le_rfl, hg n (by omega)]; rfl
    obtain ⟨v, rest, hv⟩ : ∃ v rest, (s1.chans c).buf = v :: rest := by
      cases hbuf : (s1.chans c).buf with
      | nil => rw [hbuf] at h5; simp at h5; omega
      | cons v rest => exact ⟨v, rest, rfl⟩
    have e : exec s1 (g + n) = some ((s1.setChan c { s1.chans c with buf := rest }).goOn (g + n) (body n)) := by
      unfold exec
      rw [hg']
      simp only [hv]
    refine ⟨_, h1.trans (reach_exec (g + n) h2 e), h2, ?_, ?_, ?_⟩
    · intro t ht
      by_cases htn : t = n
      · subst htn; simp [Conf.goOn]
      · simp only [Conf.goOn, Conf.setChan]
        rw [Function.update_of_ne (by omega), h3 t (by omega)]
    · intro t ht
      simp only [Conf.goOn, Conf.setChan]
      rw [Function.update_of_ne (by omega), h4 t (by omega)]
    · rw [hv] at h5
      simp [Conf.goOn, Conf.setChan] at h5 ⊢
      omega

/-- In a pool whose jobs start with `Acquire`, some schedule brings `min n nCore` jobs between `Acquire` and `Release`. -/
theorem run_pool (c : Nat) (body : Nat → Prog M V) (n nCore : Nat) (s : Conf M V) (hc : s.crashed = none)
    (hG : 1 ≤ s.nG) (k : Prog M V) (hb : nCore ≤ (s.chans c).buf.length)
    (hg : s.gs 0 = loopP (fun i _ next => .go (acquireP c (body i)) (next ())) (fun _ => k) 0 n ()) :
    ∃ s', Reach s s' ∧ s'.crashed = none ∧ ∀ t < min n nCore, s'.gs (s.nG + t) = body t := by
  obtain ⟨s1, h1, h2, h3, h4, h5, h6⟩ := run_spawn (fun i => acquireP c (body i)) k n 0 s hc hG hg
  obtain ⟨s2, g1, g2, g3, -, -⟩ := run_acquire c body s.nG (min n nCore) s1 h2
    (by intro t ht; rw [h5 t (by omega)]; simp) (by rw [h3]; omega)
  exact ⟨s2, h1.trans g1, g2, g3⟩

end GkrMimc
