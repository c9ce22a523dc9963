import Verif.Proofs.Race
import Verif.Proofs.PoolCell

/-! Running one program after another, under all schedules. -/

set_option linter.unusedSimpArgs false

namespace GkrMimc

open Spec

variable {M V C : Type}

/-- Boundedly many steps (for each schedule), and `G` holds all along. -/
inductive Good (G : Conf M V → Prop) : Conf M V → Prop
  | mk {s : Conf M V} : G s → (∀ s', Step s s' → Good G s') → Good G s

theorem Good.here {G : Conf M V → Prop} {s : Conf M V} (h : Good G s) : G s := by cases h; assumption

theorem Good.next {G : Conf M V → Prop} {s s' : Conf M V} (h : Good G s) (hs : Step s s') : Good G s' := by
  cases h with
  | mk _ h => exact h s' hs

theorem Good.reach {G : Conf M V → Prop} {s s' : Conf M V} {n : Nat} (h : Good G s) (hr : ReachIn s n s') : Good G s' := by
  induction hr with
  | zero => exact h
  | step _ hs ih => exact ih.next hs

theorem Good.mono {G G' : Conf M V → Prop} {s : Conf M V} (h : Good G s) (hG : ∀ s, G s → G' s) : Good G' s := by
  induction h with
  | mk h _ ih => exact .mk (hG _ h) ih

theorem good_of_bound {G : Conf M V → Prop} (B : Nat) : ∀ {s : Conf M V}, (∀ n s', ReachIn s n s' → n ≤ B ∧ G s') → Good G s := by
  induction B with
  | zero =>
    intro s h
    refine .mk (h 0 s .zero).2 fun s' hs => ?_
    have := (h 1 s' (.step .zero hs)).1
    omega
  | succ B ih =>
    intro s h
    refine .mk (h 0 s .zero).2 fun s' hs => ih fun n x hx => ?_
    obtain ⟨h1, h2⟩ := h _ x (ReachIn.head hs hx)
    exact ⟨by omega, h2⟩

/-! ### Bounds -/

/-- Goroutines that have not been started yet do nothing. -/
def RestRet (s : Conf M V) : Prop := ∀ i, s.nG ≤ i → ∃ r, s.gs i = .ret r

theorem Solo.rest {s : Conf M V} (h : Solo s) (h1 : 1 ≤ s.nG) : RestRet s := fun i hi => h.2 i (by omega)

theorem RestRet.lt {s : Conf M V} (h : RestRet s) {i : Nat} (hi : ∀ r, s.gs i ≠ .ret r) : i < s.nG := by
  by_contra hc
  obtain ⟨r, hr⟩ := h i (by omega)
  exact hi r hr

theorem RestRet.upd {s s' : Conf M V} (h : RestRet s) {i : Nat} (hi : i < s.nG) {P : Prog M V} (h1 : s'.gs = Function.update s.gs i P)
    (h2 : s'.nG = s.nG) : RestRet s' := by
  intro j hj
  rw [h2] at hj
  obtain ⟨r, hr⟩ := h j hj
  exact ⟨r, by rw [h1, Function.update_of_ne (by omega)]; exact hr⟩

theorem RestRet.step {s s' : Conf M V} (h : RestRet s) (hs : Step s s') : RestRet s' := by
  obtain ⟨_, ⟨i, hi⟩ | ⟨i, j, c, v, k, k', hij, hi, hj, _, _, rfl⟩⟩ := hs
  · have lt : (∀ r, s.gs i ≠ .ret r) → i < s.nG := h.lt
    unfold exec at hi
    split at hi
    · cases hi
    · cases hi; exact h
    · rename_i e; cases hi; exact h.upd (lt (by rw [e]; simp)) rfl rfl
    · rename_i e
      split_ifs at hi <;> cases hi
      · exact h
      · exact h.upd (lt (by rw [e]; simp)) rfl rfl
    · rename_i e
      split at hi
      · cases hi; exact h.upd (lt (by rw [e]; simp)) rfl rfl
      · split_ifs at hi
        cases hi; exact h.upd (lt (by rw [e]; simp)) rfl rfl
    · rename_i e
      split_ifs at hi <;> cases hi
      · exact h
      · exact h.upd (lt (by rw [e]; simp)) rfl rfl
    · rename_i e
      cases hi
      have hl := lt (by rw [e]; simp)
      intro j hj
      have hj : s.nG + 1 ≤ j := hj
      obtain ⟨r, hr⟩ := h j (by omega)
      exact ⟨r, by simp only; rw [Function.update_of_ne (by omega), Function.update_of_ne (by omega)]; exact hr⟩
    · rename_i e; cases hi; exact h.upd (lt (by rw [e]; simp)) rfl rfl
    · rename_i e
      split_ifs at hi <;> cases hi
      · exact h
      · exact h.upd (lt (by rw [e]; simp)) rfl rfl
    · rename_i e
      split_ifs at hi
      cases hi; exact h.upd (lt (by rw [e]; simp)) rfl rfl
    · rename_i e; cases hi; exact h.upd (lt (by rw [e]; simp)) rfl rfl
    · rename_i e; cases hi; exact h.upd (lt (by rw [e]; simp)) rfl rfl
  · have li : i < s.nG := h.lt (by rw [hi]; simp)
    have lj : j < s.nG := h.lt (by rw [hj]; simp)
    exact (h.upd (s' := s.goOn i k) li rfl rfl).upd (s' := (s.goOn i k).goOn j (k' (some v))) lj rfl rfl

/-- There is a bound that does not depend on the schedule. -/
theorem Good.bound {G : Conf (Heap C) V → Prop} {s : Conf (Heap C) V} (h : Good G s) (hr : RestRet s) :
    ∃ B, ∀ n s', ReachIn s n s' → n ≤ B ∧ G s' := by
  have key : ∃ B, ∀ n s', ReachIn s n s' → n ≤ B := by
    induction h with
    | mk hG _ ih =>
      rename_i s _
      have fin := step_finite (s := s) hr
      have each : ∀ s' ∈ {s' | Step s s'}, ∃ B, ∀ n x, ReachIn s' n x → n ≤ B := fun s' hs => ih s' hs (hr.step hs)
      choose! B hB using each
      obtain ⟨N, hN⟩ := (fin.image B).bddAbove
      refine ⟨N + 1, fun n x hx => ?_⟩
      rcases reachIn_first hx with ⟨rfl, rfl⟩ | ⟨m, s1, rfl, h1, hm⟩
      · omega
      · have := hB s1 h1 m x hm
        have := hN (Set.mem_image_of_mem B h1)
        omega
  obtain ⟨B, hB⟩ := key
  exact ⟨B, fun n s' hx => ⟨hB n s' hx, (h.reach hx).here⟩⟩

/-! ### One program after another -/

/-- The caller goes on with `K`. -/
def Conf.andThen (K : V → Prog M V) (a : Conf M V) : Conf M V := a.goOn 0 ((a.gs 0).andThen K)

theorem andThen_gs0 (K : V → Prog M V) (a : Conf M V) : (a.andThen K).gs 0 = (a.gs 0).andThen K := by
  simp [Conf.andThen, Conf.goOn]

theorem andThen_gs (K : V → Prog M V) (a : Conf M V) {i : Nat} (h : i ≠ 0) : (a.andThen K).gs i = a.gs i := by
  simp [Conf.andThen, Conf.goOn, h]

theorem andThen_upd0 (K : V → Prog M V) (a b : Conf M V) (P : Prog M V) (h : b = { b with gs := Function.update a.gs 0 P }) :
    { b with gs := Function.update (a.andThen K).gs 0 (P.andThen K) } = b.andThen K := by
  rw [h]
  simp [Conf.andThen, Conf.goOn]

theorem andThen_exec0 (K : V → Prog M V) (a : Conf M V) (h1 : 1 ≤ a.nG) (h : ∀ r, a.gs 0 ≠ .ret r) :
    exec (a.andThen K) 0 = (exec a 0).map (Conf.andThen K) := by
  have e := andThen_gs0 K a
  unfold exec
  rw [e]
  cases hp : a.gs 0 with
  | ret r => exact absurd hp (h r)
  | crash e => simp [Prog.andThen, Conf.andThen, Conf.panic, Conf.goOn, hp]
  | make cap k => simp [Prog.andThen, Conf.andThen, Conf.setChan, Conf.goOn]
  | send c v k =>
    simp only [Prog.andThen, Conf.andThen, Conf.goOn, Conf.setChan, Conf.panic]
    split_ifs <;> simp_all [hp, Prog.andThen, Conf.andThen, Conf.goOn]
  | recv c k =>
    simp only [Prog.andThen, Conf.andThen, Conf.goOn, Conf.setChan, Conf.panic]
    cases (a.chans c).buf with
    | nil => simp only; split_ifs <;> simp_all [Conf.andThen, Conf.goOn]
    | cons x xs => simp [Conf.andThen, Conf.goOn]
  | close c k =>
    simp only [Prog.andThen, Conf.andThen, Conf.goOn, Conf.setChan, Conf.panic]
    split_ifs <;> simp_all [hp, Prog.andThen, Conf.andThen, Conf.goOn]
  | go p k =>
    have : (0 : Nat) ≠ a.nG := by omega
    simp only [Prog.andThen, Conf.andThen, Conf.goOn, Option.map_some, Function.update_of_ne this, Function.update_self,
      Function.update_idem]
    rw [Function.update_comm this.symm, Function.update_idem]
  | wgNew n k => simp [Prog.andThen, Conf.andThen, Conf.goOn]
  | wgDone w k =>
    simp only [Prog.andThen, Conf.andThen, Conf.goOn, Conf.setChan, Conf.panic]
    split_ifs <;> simp_all [hp, Prog.andThen, Conf.andThen, Conf.goOn]
  | wgWait w k =>
    simp only [Prog.andThen, Conf.andThen, Conf.goOn, Conf.setChan, Conf.panic]
    split_ifs <;> simp_all [Conf.andThen, Conf.goOn]
  | act f k => simp [Prog.andThen, Conf.andThen, Conf.goOn]
  | mem x f k => simp [Prog.andThen, Conf.andThen, Conf.goOn]

theorem andThen_exec (K : V → Prog M V) (a : Conf M V) (h1 : 1 ≤ a.nG) {i : Nat} (hi : i ≠ 0) :
    exec (a.andThen K) i = (exec a i).map (Conf.andThen K) := by
  have e := andThen_gs K a hi
  have hu : ∀ (P : Prog M V) (g : Nat → Prog M V), Function.update (Function.update g 0 ((g 0).andThen K)) i P =
      Function.update (Function.update g i P) 0 ((Function.update g i P 0).andThen K) := by
    intro P g
    rw [Function.update_of_ne hi.symm, Function.update_comm hi]
  unfold exec
  rw [e]
  cases hp : a.gs i with
  | ret r => rfl
  | crash e => simp [Conf.andThen, Conf.panic, Conf.goOn]
  | make cap k => simp only [Conf.andThen, Conf.setChan, Conf.goOn, Option.map_some, hu]
  | send c v k =>
    simp only [Conf.andThen, Conf.goOn, Conf.setChan, Conf.panic]
    split_ifs <;> simp_all [hu, Conf.andThen, Conf.goOn]
  | recv c k =>
    simp only [Conf.andThen, Conf.goOn, Conf.setChan, Conf.panic]
    cases (a.chans c).buf with
    | nil => simp only; split_ifs <;> simp_all [hu, Conf.andThen, Conf.goOn]
    | cons x xs => simp [hu, Conf.andThen, Conf.goOn]
  | close c k =>
    simp only [Conf.andThen, Conf.goOn, Conf.setChan, Conf.panic]
    split_ifs <;> simp_all [hu, Conf.andThen, Conf.goOn]
  | go p k =>
    have : (0 : Nat) ≠ a.nG := by omega
    simp only [Conf.andThen, Conf.goOn, Option.map_some, hu]
    rw [Function.update_of_ne this, Function.update_comm this]
  | wgNew n k => simp [Conf.andThen, Conf.goOn, hu]
  | wgDone w k =>
    simp only [Conf.andThen, Conf.goOn, Conf.setChan, Conf.panic]
    split_ifs <;> simp_all [hu, Conf.andThen, Conf.goOn]
  | wgWait w k =>
    simp only [Conf.andThen, Conf.goOn, Conf.setChan, Conf.panic]
    split_ifs <;> simp_all [hu, Conf.andThen, Conf.goOn]
  | act f k => simp [Conf.andThen, Conf.goOn, hu]
  | mem x f k => simp [Conf.andThen, Conf.goOn, hu]

theorem andThen_eq_send {K : V → Prog M V} {P : Prog M V} (h : ∀ r, P ≠ .ret r) {c : Nat} {v : V} {k : Prog M V}
    (e : P.andThen K = .send c v k) : ∃ k0, P = .send c v k0 ∧ k = k0.andThen K := by
  cases P <;> simp [Prog.andThen] at e
  · exact absurd rfl (h _)
  · obtain ⟨rfl, rfl, rfl⟩ := e; exact ⟨_, rfl, rfl⟩

theorem andThen_eq_recv {K : V → Prog M V} {P : Prog M V} (h : ∀ r, P ≠ .ret r) {c : Nat} {k : Option V → Prog M V}
    (e : P.andThen K = .recv c k) : ∃ k0, P = .recv c k0 ∧ k = fun v => (k0 v).andThen K := by
  cases P <;> simp [Prog.andThen] at e
  · exact absurd rfl (h _)
  · obtain ⟨rfl, rfl⟩ := e; exact ⟨_, rfl, rfl⟩

theorem andThen_eq_mem {K : V → Prog M V} {P : Prog M V} (h : ∀ r, P ≠ .ret r) {x : Access} {f : M → M} {k : M → Prog M V}
    (e : P.andThen K = .mem x f k) : ∃ k0, P = .mem x f k0 := by
  cases P <;> simp [Prog.andThen] at e
  · exact absurd rfl (h _)
  · obtain ⟨rfl, rfl, rfl⟩ := e; exact ⟨_, rfl⟩

theorem andThen_eq_ret {K : V → Prog M V} {P : Prog M V} (h : ∀ r, P ≠ .ret r) {r : V} (e : P.andThen K = .ret r) : False := by
  cases P <;> simp [Prog.andThen] at e
  exact absurd rfl (h _)

theorem andThen_step {K : V → Prog M V} {a s' : Conf M V} (h1 : 1 ≤ a.nG) (h : ∀ r, a.gs 0 ≠ .ret r) (hs : Step (a.andThen K) s') :
    ∃ a', Step a a' ∧ s' = a'.andThen K := by
  obtain ⟨ha, ⟨i, hi⟩ | ⟨i, j, c, v, k, k', hij, hi, hj, hcap, hcl, rfl⟩⟩ := hs
  · have e : exec (a.andThen K) i = (exec a i).map (Conf.andThen K) := by
      by_cases h0 : i = 0
      · subst h0; exact andThen_exec0 K a h1 h
      · exact andThen_exec K a h1 h0
    rw [e] at hi
    obtain ⟨a', h2, h3⟩ := Option.map_eq_some_iff.1 hi
    exact ⟨a', ⟨ha, .inl ⟨i, h2⟩⟩, h3.symm⟩
  · by_cases h0 : i = 0
    · subst h0
      rw [andThen_gs0] at hi
      obtain ⟨k0, e, rfl⟩ := andThen_eq_send h hi
      rw [andThen_gs K a hij.symm] at hj
      refine ⟨(a.goOn 0 k0).goOn j (k' (some v)), ⟨ha, .inr ⟨0, j, c, v, k0, k', hij, e, hj, hcap, hcl, rfl⟩⟩, ?_⟩
      simp only [Conf.andThen, Conf.goOn, Function.update_idem, Function.update_of_ne hij, Function.update_self]
      rw [Function.update_comm hij.symm, Function.update_idem]
    · rw [andThen_gs K a h0] at hi
      by_cases h0' : j = 0
      · subst h0'
        rw [andThen_gs0] at hj
        obtain ⟨k0, e, rfl⟩ := andThen_eq_recv h hj
        refine ⟨(a.goOn i k).goOn 0 (k0 (some v)), ⟨ha, .inr ⟨i, 0, c, v, k, k0, hij, hi, e, hcap, hcl, rfl⟩⟩, ?_⟩
        simp only [Conf.andThen, Conf.goOn, Function.update_idem, Function.update_self]
        rw [Function.update_comm hij, Function.update_idem, Function.update_comm hij]
      · rw [andThen_gs K a h0'] at hj
        refine ⟨(a.goOn i k).goOn j (k' (some v)), ⟨ha, .inr ⟨i, j, c, v, k, k', hij, hi, hj, hcap, hcl, rfl⟩⟩, ?_⟩
        simp only [Conf.andThen, Conf.goOn, Function.update_of_ne (Ne.symm h0), Function.update_of_ne (Ne.symm h0')]
        rw [Function.update_comm h0', Function.update_comm h0]

theorem andThen_step' {K : V → Prog M V} {a a' : Conf M V} (h1 : 1 ≤ a.nG) (h : ∀ r, a.gs 0 ≠ .ret r) (hs : Step a a') :
    ∃ s', Step (a.andThen K) s' := by
  obtain ⟨ha, ⟨i, hi⟩ | ⟨i, j, c, v, k, k', hij, hi, hj, hcap, hcl, rfl⟩⟩ := hs
  · refine ⟨a'.andThen K, ha, .inl ⟨i, ?_⟩⟩
    by_cases h0 : i = 0
    · subst h0; rw [andThen_exec0 K a h1 h, hi]; rfl
    · rw [andThen_exec K a h1 h0, hi]; rfl
  · have ei : ∃ k, (a.andThen K).gs i = .send c v k := by
      by_cases h0 : i = 0
      · subst h0; rw [andThen_gs0, hi]; exact ⟨_, rfl⟩
      · rw [andThen_gs K a h0]; exact ⟨_, hi⟩
    have ej : ∃ k, (a.andThen K).gs j = .recv c k := by
      by_cases h0 : j = 0
      · subst h0; rw [andThen_gs0, hj]; exact ⟨_, rfl⟩
      · rw [andThen_gs K a h0]; exact ⟨_, hj⟩
    obtain ⟨k1, ei⟩ := ei
    obtain ⟨k2, ej⟩ := ej
    exact ⟨_, ha, .inr ⟨i, j, c, v, k1, k2, hij, ei, ej, hcap, hcl, rfl⟩⟩

/-- What `GoodCellRun` says about a configuration. -/
def GM (W : Set (Nat × Nat)) (h0 : Heap C) (post : Conf (Heap C) V → Prop) (s : Conf (Heap C) V) : Prop :=
  GoodMem Set.univ h0 post s ∧ ∀ c : Nat × Nat, c.1 < h0.next → c ∉ W → s.mem.cells c.1 c.2 = h0.cells c.1 c.2

theorem Step.nG {s s' : Conf M V} (hs : Step s s') : s.nG ≤ s'.nG := by
  obtain ⟨_, ⟨i, hi⟩ | ⟨i, j, c, v, k, k', hij, hi, hj, _, _, rfl⟩⟩ := hs
  · unfold exec at hi
    split at hi <;> (try split_ifs at hi) <;> (try (split at hi <;> try split_ifs at hi)) <;> cases hi <;>
      simp [Conf.panic, Conf.goOn, Conf.setChan]
  · rfl

/-- If `P` is good, and so is what follows, then so is `P` and what follows. -/
theorem Good.seq {W : Set (Nat × Nat)} {h0 : Heap C} {post post1 : Conf (Heap C) V → Prop} {K : V → Prog (Heap C) V}
    {a : Conf (Heap C) V} (h : Good (GM W h0 post1) a) (h1 : 1 ≤ a.nG)
    (hK : ∀ n b r, ReachIn a n b → b.gs 0 = .ret r → GM W h0 post1 b → Good (GM W h0 post) (b.goOn 0 (K r))) :
    Good (GM W h0 post) (a.andThen K) := by
  induction h with
  | mk g _ ih =>
    rename_i a _
    by_cases hr : ∃ r, a.gs 0 = .ret r
    · obtain ⟨r, hr⟩ := hr
      have := hK 0 a r .zero hr g
      simpa [Conf.andThen, hr, Prog.andThen] using this
    · have hr : ∀ r, a.gs 0 ≠ .ret r := fun r e => hr ⟨r, e⟩
      refine .mk ⟨⟨?_, g.1.alive, ?_, ?_, ?_, g.1.frame⟩, g.2⟩ ?_
      · rintro ⟨i, j, x, f, k, y, f', k', hij, hi, hj, hc⟩
        have ei : ∃ k, a.gs i = .mem x f k := by
          by_cases h0 : i = 0
          · subst h0; rw [andThen_gs0] at hi; exact andThen_eq_mem hr hi
          · rw [andThen_gs K a h0] at hi; exact ⟨_, hi⟩
        have ej : ∃ k, a.gs j = .mem y f' k := by
          by_cases h0 : j = 0
          · subst h0; rw [andThen_gs0] at hj; exact andThen_eq_mem hr hj
          · rw [andThen_gs K a h0] at hj; exact ⟨_, hj⟩
        obtain ⟨k1, ei⟩ := ei
        obtain ⟨k2, ej⟩ := ej
        exact g.1.norace ⟨i, j, x, f, k1, y, f', k2, hij, ei, ej, hc⟩
      · intro hst
        have : Stuck a := fun a' ha => by
          obtain ⟨s', hs'⟩ := andThen_step' (K := K) h1 hr ha
          exact hst s' hs'
        obtain ⟨r, e⟩ := g.1.live this 0
        exact absurd e (hr r)
      · rintro ⟨r, e⟩
        rw [andThen_gs0] at e
        exact (andThen_eq_ret hr e).elim
      · intro i c v k hi
        by_cases h0 : i = 0
        · subst h0
          rw [andThen_gs0] at hi
          obtain ⟨k0, e, _⟩ := andThen_eq_send hr hi
          obtain ⟨s', h2, h3⟩ := g.1.sends 0 c v k0 e
          exact ⟨s'.andThen K, by rw [andThen_exec0 K a h1 hr, h2]; rfl, h3⟩
        · rw [andThen_gs K a h0] at hi
          obtain ⟨s', h2, h3⟩ := g.1.sends i c v k hi
          exact ⟨s'.andThen K, by rw [andThen_exec K a h1 h0, h2]; rfl, h3⟩
      · intro s' hs
        obtain ⟨a', h2, rfl⟩ := andThen_step h1 hr hs
        exact ih a' h2 (h1.trans h2.nG) fun n b r hb => hK (n + 1) b r (ReachIn.head h2 hb)

end GkrMimc
