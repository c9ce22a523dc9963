import Verif.Proofs.Seq

/-! A program that runs while the goroutines that an earlier call has left behind come to their end. -/

set_option linter.unusedSimpArgs false

namespace GkrMimc

open Spec

variable {M V C : Type}

/-- `P` uses only channels from `c0` on and wait groups from `w0` on. -/
def Avoids (c0 w0 : Nat) : Prog M V → Prop
  | .ret _ => True
  | .crash _ => True
  | .make _ k => ∀ n, c0 ≤ n → Avoids c0 w0 (k n)
  | .send c _ k => c0 ≤ c ∧ Avoids c0 w0 k
  | .recv c k => c0 ≤ c ∧ ∀ v, Avoids c0 w0 (k v)
  | .close c k => c0 ≤ c ∧ Avoids c0 w0 k
  | .go p k => Avoids c0 w0 p ∧ Avoids c0 w0 k
  | .wgNew _ k => ∀ n, w0 ≤ n → Avoids c0 w0 (k n)
  | .wgDone w k => w0 ≤ w ∧ Avoids c0 w0 k
  | .wgWait w k => w0 ≤ w ∧ Avoids c0 w0 k
  | .act _ k => Avoids c0 w0 k
  | .mem _ _ k => ∀ m, Avoids c0 w0 (k m)

/-- `P` uses only channels and wait groups that it makes. -/
def Closed (P : Prog M V) : Prop := ∀ c0 w0, Avoids c0 w0 P

theorem Avoids.andThen {c0 w0 : Nat} {K : V → Prog M V} (hK : ∀ r, Avoids c0 w0 (K r)) {P : Prog M V} (h : Avoids c0 w0 P) :
    Avoids c0 w0 (P.andThen K) := by
  induction P with
  | ret r => exact hK r
  | crash e => trivial
  | make cap k ih => exact fun n hn => ih n (h n hn)
  | send c v k ih => exact ⟨h.1, ih h.2⟩
  | recv c k ih => exact ⟨h.1, fun v => ih v (h.2 v)⟩
  | close c k ih => exact ⟨h.1, ih h.2⟩
  | go p k _ ih => exact ⟨h.1, ih h.2⟩
  | wgNew n k ih => exact fun n hn => ih n (h n hn)
  | wgDone w k ih => exact ⟨h.1, ih h.2⟩
  | wgWait w k ih => exact ⟨h.1, ih h.2⟩
  | act f k ih => exact ih h
  | mem a f k ih => exact fun m => ih m (h m)

/-- The end of a goroutine: at most a send and a close, on channels below `c0`. -/
def Tail (c0 : Nat) (P : Prog M V) : Prop :=
  (∃ r, P = .ret r) ∨ (∃ c r, c < c0 ∧ P = .close c (.ret r)) ∨ ∃ c v c' r, c < c0 ∧ c' < c0 ∧ P = .send c v (.close c' (.ret r))

/-! ### Mixing two configurations -/

/-- `f` where `P` holds, else `g`. -/
def mix {α : Type} (P : Nat → Prop) [DecidablePred P] (f g : Nat → α) : Nat → α := fun i => if P i then f i else g i

section
variable {α : Type} {P : Nat → Prop} [DecidablePred P] {f g : Nat → α} {i : Nat}

theorem mix_pos (h : P i) : mix P f g i = f i := if_pos h

theorem mix_neg (h : ¬ P i) : mix P f g i = g i := if_neg h

theorem mix_upd_pos (h : P i) (x : α) : Function.update (mix P f g) i x = mix P (Function.update f i x) g := by
  funext j
  by_cases e : j = i
  · subst e; simp [mix, h]
  · simp [mix, Function.update_of_ne e]

theorem mix_upd_neg (h : ¬ P i) (x : α) : Function.update (mix P f g) i x = mix P f (Function.update g i x) := by
  funext j
  by_cases e : j = i
  · subst e; simp [mix, h]
  · simp [mix, Function.update_of_ne e]

end

/-- The leftover goroutines `1, …, n0-1` of `l`, with its channels below `c0` and its wait groups below `w0`; the rest of `u`. -/
def merge (n0 c0 w0 : Nat) (l u : Conf M V) : Conf M V where
  gs := mix (fun i => i ≠ 0 ∧ i < n0) l.gs u.gs
  nG := u.nG
  chans := mix (fun c => c < c0) l.chans u.chans
  nC := u.nC
  wgs := mix (fun w => w < w0) l.wgs u.wgs
  nW := u.nW
  mem := u.mem
  crashed := u.crashed.or l.crashed

section
variable {n0 c0 w0 : Nat} {l u : Conf M V}

/-- `u` leaves `l` alone. -/
structure Apt (n0 c0 w0 : Nat) (u : Conf M V) : Prop where
  nG : n0 ≤ u.nG
  pos : 1 ≤ n0
  nC : c0 ≤ u.nC
  nW : w0 ≤ u.nW
  avoid : ∀ i, ¬ (i ≠ 0 ∧ i < n0) → Avoids c0 w0 (u.gs i)
  done : ∀ i, i ≠ 0 → i < n0 → Returned u i

/-- `l` consists of ends of goroutines. -/
structure Left (n0 c0 : Nat) (l : Conf M V) : Prop where
  main : Returned l 0
  tails : ∀ i, i ≠ 0 → Tail c0 (l.gs i)
  rest : ∀ i, n0 ≤ i → Returned l i

theorem merge_gs_u {i : Nat} (h : ¬ (i ≠ 0 ∧ i < n0)) : (merge n0 c0 w0 l u).gs i = u.gs i := mix_neg (P := fun i => i ≠ 0 ∧ i < n0) h

theorem merge_gs_l {i : Nat} (h : i ≠ 0 ∧ i < n0) : (merge n0 c0 w0 l u).gs i = l.gs i := mix_pos (P := fun i => i ≠ 0 ∧ i < n0) h

theorem merge_chans_u {c : Nat} (h : c0 ≤ c) : (merge n0 c0 w0 l u).chans c = u.chans c :=
  mix_neg (P := fun c => c < c0) (by omega)

theorem merge_chans_l {c : Nat} (h : c < c0) : (merge n0 c0 w0 l u).chans c = l.chans c := mix_pos (P := fun c => c < c0) h

theorem merge_wgs_u {w : Nat} (h : w0 ≤ w) : (merge n0 c0 w0 l u).wgs w = u.wgs w := mix_neg (P := fun w => w < w0) (by omega)

theorem merge_exec_u (au : Apt n0 c0 w0 u) {i : Nat} (h : ¬ (i ≠ 0 ∧ i < n0)) :
    exec (merge n0 c0 w0 l u) i = (exec u i).map (merge n0 c0 w0 l) := by
  have hu : ∀ P, Function.update (mix (fun i => i ≠ 0 ∧ i < n0) l.gs u.gs) i P =
      mix (fun i => i ≠ 0 ∧ i < n0) l.gs (Function.update u.gs i P) := fun P => mix_upd_neg h P
  have av := au.avoid i h
  unfold exec
  rw [merge_gs_u h]
  cases hp : u.gs i with
  | ret r => rfl
  | crash e => simp [merge, Conf.panic]
  | make cap k =>
    simp only [merge, Conf.setChan, hu, Option.map_some]
    rw [mix_upd_neg (by have := au.nC; omega)]
  | send c v k =>
    rw [hp] at av
    have hc : (merge n0 c0 w0 l u).chans c = u.chans c := merge_chans_u av.1
    simp only [hc]
    split_ifs
    · simp [merge, Conf.panic]
    · simp only [merge, Conf.setChan, Conf.goOn, hu, Option.map_some]
      rw [mix_upd_neg (by have := av.1; omega)]
    · rfl
  | recv c k =>
    rw [hp] at av
    have hc : (merge n0 c0 w0 l u).chans c = u.chans c := merge_chans_u av.1
    simp only [hc]
    cases (u.chans c).buf with
    | nil =>
      simp only
      split_ifs
      · simp only [merge, Conf.setChan, Conf.goOn, hu, Option.map_some]
      · rfl
    | cons x xs =>
      simp only [merge, Conf.setChan, Conf.goOn, hu, Option.map_some]
      rw [mix_upd_neg (by have := av.1; omega)]
  | close c k =>
    rw [hp] at av
    have hc : (merge n0 c0 w0 l u).chans c = u.chans c := merge_chans_u av.1
    simp only [hc]
    split_ifs
    · simp [merge, Conf.panic]
    · simp only [merge, Conf.setChan, Conf.goOn, hu, Option.map_some]
      rw [mix_upd_neg (by have := av.1; omega)]
  | go p k =>
    simp only [merge, hu, Option.map_some]
    rw [mix_upd_neg (by have := au.nG; omega)]
  | wgNew n k =>
    simp only [merge, hu, Option.map_some]
    rw [mix_upd_neg (by have := au.nW; omega)]
  | wgDone w k =>
    rw [hp] at av
    have hc : (merge n0 c0 w0 l u).wgs w = u.wgs w := merge_wgs_u av.1
    simp only [hc]
    split_ifs
    · simp [merge, Conf.panic]
    · simp only [merge, hu, Option.map_some]
      rw [mix_upd_neg (by have := av.1; omega)]
  | wgWait w k =>
    rw [hp] at av
    have hc : (merge n0 c0 w0 l u).wgs w = u.wgs w := merge_wgs_u av.1
    simp only [hc]
    split_ifs
    · simp only [merge, Conf.goOn, hu, Option.map_some]
    · rfl
  | act f k => simp only [merge, hu, Option.map_some]
  | mem a f k => simp only [merge, hu, Option.map_some]

theorem merge_exec_l (al : Left n0 c0 l) (hu0 : u.crashed = none) {i : Nat} (h : i ≠ 0 ∧ i < n0) :
    exec (merge n0 c0 w0 l u) i = (exec l i).map (fun l => merge n0 c0 w0 l u) := by
  have hu : ∀ P, Function.update (mix (fun i => i ≠ 0 ∧ i < n0) l.gs u.gs) i P =
      mix (fun i => i ≠ 0 ∧ i < n0) (Function.update l.gs i P) u.gs := fun P => mix_upd_pos h P
  unfold exec
  rw [merge_gs_l h]
  rcases al.tails i h.1 with ⟨r, hp⟩ | ⟨c, r, h1, hp⟩ | ⟨c, v, c', r, h1, h2, hp⟩
  · rw [hp]; rfl
  · rw [hp]
    have hc : (merge n0 c0 w0 l u).chans c = l.chans c := merge_chans_l h1
    simp only [hc]
    split_ifs
    · simp [merge, Conf.panic, hu0]
    · simp only [merge, Conf.setChan, Conf.goOn, hu, Option.map_some]
      rw [mix_upd_pos (P := fun c => c < c0) h1]
  · rw [hp]
    have hc : (merge n0 c0 w0 l u).chans c = l.chans c := merge_chans_l h1
    simp only [hc]
    split_ifs
    · simp [merge, Conf.panic, hu0]
    · simp only [merge, Conf.setChan, Conf.goOn, hu, Option.map_some]
      rw [mix_upd_pos (P := fun c => c < c0) h1]
    · rfl

/-! ### Invariants -/

theorem Left.noRendezvous (al : Left n0 c0 l) {l' : Conf M V} : ¬ Rendezvous l l' := by
  rintro ⟨i, j, c, v, k, k', _, _, hj, _⟩
  by_cases h0 : j = 0
  · subst h0
    obtain ⟨r, hr⟩ := al.main
    rw [hr] at hj; cases hj
  · rcases al.tails j h0 with ⟨r, hp⟩ | ⟨c, r, h1, hp⟩ | ⟨c, v, c', r, h1, h2, hp⟩ <;> rw [hp] at hj <;> cases hj

theorem Left.upd {l' : Conf M V} (al : Left n0 c0 l) {i : Nat} (hi : i ≠ 0) (hi' : i < n0) {P : Prog M V}
    (e : l'.gs = Function.update l.gs i P) (hP : Tail c0 P) : Left n0 c0 l' := by
  refine ⟨?_, ?_, ?_⟩
  · obtain ⟨r, hr⟩ := al.main
    exact ⟨r, by rw [e, Function.update_of_ne hi.symm]; exact hr⟩
  · intro j hj
    by_cases hji : j = i
    · subst hji; rw [e, Function.update_self]; exact hP
    · rw [e, Function.update_of_ne hji]; exact al.tails j hj
  · intro j hj
    obtain ⟨r, hr⟩ := al.rest j hj
    exact ⟨r, by rw [e, Function.update_of_ne (by omega)]; exact hr⟩

theorem Left.step (al : Left n0 c0 l) {l' : Conf M V} (hs : Step l l') : Left n0 c0 l' := by
  obtain ⟨_, ⟨i, hi⟩ | hr⟩ := hs
  · have h0 : i ≠ 0 := by
      rintro rfl
      obtain ⟨r, hr⟩ := al.main
      simp [exec, hr] at hi
    have hn : i < n0 := by
      by_contra hc
      obtain ⟨r, hr⟩ := al.rest i (by omega)
      simp [exec, hr] at hi
    rcases al.tails i h0 with ⟨r, hp⟩ | ⟨c, r, h1, hp⟩ | ⟨c, v, c', r, h1, h2, hp⟩
    · simp [exec, hp] at hi
    · simp only [exec, hp] at hi
      split_ifs at hi <;> cases hi
      · exact ⟨al.main, al.tails, al.rest⟩
      · exact al.upd h0 hn rfl (.inl ⟨r, rfl⟩)
    · simp only [exec, hp] at hi
      split_ifs at hi <;> cases hi
      · exact ⟨al.main, al.tails, al.rest⟩
      · exact al.upd h0 hn rfl (.inr (.inl ⟨c', r, h2, rfl⟩))
  · exact absurd hr al.noRendezvous

theorem Apt.upd (au : Apt n0 c0 w0 u) {u' : Conf M V} {i : Nat} (h : ¬ (i ≠ 0 ∧ i < n0)) {P : Prog M V}
    (e : u'.gs = Function.update u.gs i P) (hP : Avoids c0 w0 P) (hG : n0 ≤ u'.nG) (hC : c0 ≤ u'.nC) (hW : w0 ≤ u'.nW) :
    Apt n0 c0 w0 u' := by
  refine ⟨hG, au.pos, hC, hW, ?_, ?_⟩
  · intro j hj
    by_cases hji : j = i
    · subst hji; rw [e, Function.update_self]; exact hP
    · rw [e, Function.update_of_ne hji]; exact au.avoid j hj
  · intro j h1 h2
    obtain ⟨r, hr⟩ := au.done j h1 h2
    refine ⟨r, ?_⟩
    rw [e, Function.update_of_ne (by rintro rfl; exact h ⟨h1, h2⟩)]
    exact hr

theorem Apt.who (au : Apt n0 c0 w0 u) {i : Nat} (hi : ∀ r, u.gs i ≠ .ret r) : ¬ (i ≠ 0 ∧ i < n0) := by
  rintro ⟨h1, h2⟩
  obtain ⟨r, hr⟩ := au.done i h1 h2
  exact hi r hr

theorem Apt.step (au : Apt n0 c0 w0 u) {u' : Conf M V} (hs : Step u u') : Apt n0 c0 w0 u' := by
  have hG := au.nG
  have hC := au.nC
  have hW := au.nW
  obtain ⟨_, ⟨i, hi⟩ | ⟨i, j, c, v, k, k', hij, hi, hj, _, _, rfl⟩⟩ := hs
  · have hw : ¬ (i ≠ 0 ∧ i < n0) := au.who (by intro r hr; simp [exec, hr] at hi)
    have av := au.avoid i hw
    unfold exec at hi
    split at hi
    · cases hi
    · cases hi; exact ⟨au.nG, au.pos, au.nC, au.nW, au.avoid, au.done⟩
    · rename_i e; rw [e] at av; cases hi
      exact au.upd hw rfl (av _ hC) hG (by simp; omega) hW
    · rename_i e; rw [e] at av
      split_ifs at hi <;> cases hi
      · exact ⟨au.nG, au.pos, au.nC, au.nW, au.avoid, au.done⟩
      · exact au.upd hw rfl av.2 hG hC hW
    · rename_i e; rw [e] at av
      split at hi
      · cases hi; exact au.upd hw rfl (av.2 _) hG hC hW
      · split_ifs at hi
        cases hi; exact au.upd hw rfl (av.2 _) hG hC hW
    · rename_i e; rw [e] at av
      split_ifs at hi <;> cases hi
      · exact ⟨au.nG, au.pos, au.nC, au.nW, au.avoid, au.done⟩
      · exact au.upd hw rfl av.2 hG hC hW
    · rename_i p k e; rw [e] at av
      cases hi
      have a1 : Apt n0 c0 w0 (u.goOn i k) := au.upd hw rfl av.2 hG hC hW
      exact a1.upd (i := u.nG) (by omega) rfl av.1 (by simp; omega) hC hW
    · rename_i e; rw [e] at av; cases hi
      exact au.upd hw rfl (av _ hW) hG hC (by simp; omega)
    · rename_i e; rw [e] at av
      split_ifs at hi <;> cases hi
      · exact ⟨au.nG, au.pos, au.nC, au.nW, au.avoid, au.done⟩
      · exact au.upd hw rfl av.2 hG hC hW
    · rename_i e; rw [e] at av
      split_ifs at hi
      cases hi; exact au.upd hw rfl av.2 hG hC hW
    · rename_i e; rw [e] at av; cases hi; exact au.upd hw rfl av hG hC hW
    · rename_i e; rw [e] at av; cases hi; exact au.upd hw rfl (av _) hG hC hW
  · have wi : ¬ (i ≠ 0 ∧ i < n0) := au.who (by intro r hr; rw [hr] at hi; cases hi)
    have wj : ¬ (j ≠ 0 ∧ j < n0) := au.who (by intro r hr; rw [hr] at hj; cases hj)
    have ai := au.avoid i wi
    have aj := au.avoid j wj
    rw [hi] at ai
    rw [hj] at aj
    have a1 : Apt n0 c0 w0 (u.goOn i k) := au.upd wi rfl ai.2 hG hC hW
    exact a1.upd wj rfl (aj.2 _) hG hC hW

/-- A step of the mixture is a step of one of the two. -/
theorem merge_step (al : Left n0 c0 l) (au : Apt n0 c0 w0 u) (hl0 : l.crashed = none) (hu0 : u.crashed = none) {s' : Conf M V}
    (hs : Step (merge n0 c0 w0 l u) s') :
    (∃ l', Step l l' ∧ s' = merge n0 c0 w0 l' u) ∨ ∃ u', Step u u' ∧ s' = merge n0 c0 w0 l u' := by
  obtain ⟨_, ⟨i, hi⟩ | ⟨i, j, c, v, k, k', hij, hi, hj, hcap, hcl, rfl⟩⟩ := hs
  · by_cases h : i ≠ 0 ∧ i < n0
    · rw [merge_exec_l al hu0 h] at hi
      obtain ⟨l', h1, h2⟩ := Option.map_eq_some_iff.1 hi
      exact .inl ⟨l', ⟨hl0, .inl ⟨i, h1⟩⟩, h2.symm⟩
    · rw [merge_exec_u au h] at hi
      obtain ⟨u', h1, h2⟩ := Option.map_eq_some_iff.1 hi
      exact .inr ⟨u', ⟨hu0, .inl ⟨i, h1⟩⟩, h2.symm⟩
  · have wj : ¬ (j ≠ 0 ∧ j < n0) := by
      intro h
      rw [merge_gs_l h] at hj
      rcases al.tails j h.1 with ⟨r, hp⟩ | ⟨c, r, h1, hp⟩ | ⟨c, v, c', r, h1, h2, hp⟩ <;> rw [hp] at hj <;> cases hj
    rw [merge_gs_u wj] at hj
    have aj := au.avoid j wj
    rw [hj] at aj
    have wi : ¬ (i ≠ 0 ∧ i < n0) := by
      intro h
      rw [merge_gs_l h] at hi
      rcases al.tails i h.1 with ⟨r, hp⟩ | ⟨c1, r, h1, hp⟩ | ⟨c1, v, c', r, h1, h2, hp⟩ <;> rw [hp] at hi <;> cases hi
      have := aj.1
      omega
    rw [merge_gs_u wi] at hi
    have hc : (merge n0 c0 w0 l u).chans c = u.chans c := merge_chans_u aj.1
    rw [hc] at hcap hcl
    refine .inr ⟨_, ⟨hu0, .inr ⟨i, j, c, v, k, k', hij, hi, hj, hcap, hcl, rfl⟩⟩, ?_⟩
    simp only [merge, Conf.goOn]
    rw [mix_upd_neg (P := fun i => i ≠ 0 ∧ i < n0) wi, mix_upd_neg (P := fun i => i ≠ 0 ∧ i < n0) wj]

theorem merge_step_l (al : Left n0 c0 l) (hu0 : u.crashed = none) {l' : Conf M V} (hs : Step l l') :
    ∃ s', Step (merge n0 c0 w0 l u) s' := by
  have hl0 := hs.1
  obtain ⟨_, ⟨i, hi⟩ | hr⟩ := hs
  · have h0 : i ≠ 0 := by
      rintro rfl
      obtain ⟨r, hr⟩ := al.main
      simp [exec, hr] at hi
    have hn : i < n0 := by
      by_contra hc
      obtain ⟨r, hr⟩ := al.rest i (by omega)
      simp [exec, hr] at hi
    refine ⟨merge n0 c0 w0 l' u, by simp [merge, hl0, hu0], .inl ⟨i, ?_⟩⟩
    rw [merge_exec_l al hu0 ⟨h0, hn⟩, hi]; rfl
  · exact absurd hr al.noRendezvous

theorem merge_step_u (au : Apt n0 c0 w0 u) (hl0 : l.crashed = none) {u' : Conf M V} (hs : Step u u') :
    ∃ s', Step (merge n0 c0 w0 l u) s' := by
  have hu0 := hs.1
  have hm : (merge n0 c0 w0 l u).crashed = none := by simp [merge, hl0, hu0]
  obtain ⟨_, ⟨i, hi⟩ | ⟨i, j, c, v, k, k', hij, hi, hj, hcap, hcl, rfl⟩⟩ := hs
  · refine ⟨merge n0 c0 w0 l u', hm, .inl ⟨i, ?_⟩⟩
    rw [merge_exec_u au (au.who (by intro r hr; simp [exec, hr] at hi)), hi]; rfl
  · have wi : ¬ (i ≠ 0 ∧ i < n0) := au.who (by intro r hr; rw [hr] at hi; cases hi)
    have wj : ¬ (j ≠ 0 ∧ j < n0) := au.who (by intro r hr; rw [hr] at hj; cases hj)
    have aj := au.avoid j wj
    rw [hj] at aj
    have hc : (merge n0 c0 w0 l u).chans c = u.chans c := merge_chans_u aj.1
    exact ⟨_, hm, .inr ⟨i, j, c, v, k, k', hij, by rw [merge_gs_u wi]; exact hi, by rw [merge_gs_u wj]; exact hj,
      by rw [hc]; exact hcap, by rw [hc]; exact hcl, rfl⟩⟩

end

/-- What follows is as good as without the leftover goroutines. -/
theorem Good.par {n0 c0 w0 : Nat} {W W1 : Set (Nat × Nat)} {h0 h1 : Heap C} {post post1 : Conf (Heap C) V → Prop}
    (hpost : ∀ s u : Conf (Heap C) V, s.gs 0 = u.gs 0 → s.mem = u.mem → post u → post s)
    {l u : Conf (Heap C) V} (hl : Good (GM W1 h1 post1) l) (hu : Good (GM W h0 post) u) (al : Left n0 c0 l) (au : Apt n0 c0 w0 u) :
    Good (GM W h0 post) (merge n0 c0 w0 l u) := by
  induction hl generalizing u with
  | mk gl hl ihl =>
    rename_i l
    induction hu with
    | mk gu hu ihu =>
      rename_i u
      have g0 : ¬ ((0 : Nat) ≠ 0 ∧ 0 < n0) := fun h => h.1 rfl
      have notail : ∀ {i}, (i ≠ 0 ∧ i < n0) → ∀ a f k, l.gs i ≠ .mem a f k := by
        intro i h a f k e
        rcases al.tails i h.1 with ⟨r, hp⟩ | ⟨c, r, h1, hp⟩ | ⟨c, v, c', r, h1, h2, hp⟩ <;> rw [hp] at e <;> cases e
      refine .mk ⟨⟨?_, ?_, ?_, ?_, ?_, gu.1.frame⟩, gu.2⟩ ?_
      · rintro ⟨i, j, a, f, k, b, f', k', hij, hi, hj, hc⟩
        have wi : ¬ (i ≠ 0 ∧ i < n0) := fun h => by rw [merge_gs_l h] at hi; exact notail h _ _ _ hi
        have wj : ¬ (j ≠ 0 ∧ j < n0) := fun h => by rw [merge_gs_l h] at hj; exact notail h _ _ _ hj
        rw [merge_gs_u wi] at hi
        rw [merge_gs_u wj] at hj
        exact gu.1.norace ⟨i, j, a, f, k, b, f', k', hij, hi, hj, hc⟩
      · simp [merge, gu.1.alive, gl.1.alive]
      · intro hst i
        by_cases h : i ≠ 0 ∧ i < n0
        · obtain ⟨r, hr⟩ := gl.1.live (fun l' hs => by
            obtain ⟨s', hs'⟩ := merge_step_l (w0 := w0) al gu.1.alive hs
            exact hst s' hs') i
          exact ⟨r, by rw [merge_gs_l h]; exact hr⟩
        · obtain ⟨r, hr⟩ := gu.1.live (fun u' hs => by
            obtain ⟨s', hs'⟩ := merge_step_u au gl.1.alive hs
            exact hst s' hs') i
          exact ⟨r, by rw [merge_gs_u h]; exact hr⟩
      · rintro ⟨r, hr⟩
        rw [merge_gs_u g0] at hr
        exact hpost _ u (merge_gs_u g0) rfl (gu.1.result ⟨r, hr⟩)
      · intro i c v k hi
        by_cases h : i ≠ 0 ∧ i < n0
        · rw [merge_gs_l h] at hi
          obtain ⟨s', h2, h3⟩ := gl.1.sends i c v k hi
          exact ⟨merge n0 c0 w0 s' u, by rw [merge_exec_l al gu.1.alive h, h2]; rfl, by simp [merge, gu.1.alive, h3]⟩
        · rw [merge_gs_u h] at hi
          obtain ⟨s', h2, h3⟩ := gu.1.sends i c v k hi
          exact ⟨merge n0 c0 w0 l s', by rw [merge_exec_u au h, h2]; rfl, by simp [merge, gl.1.alive, h3]⟩
      · intro s' hs
        rcases merge_step al au gl.1.alive gu.1.alive hs with ⟨l', h2, rfl⟩ | ⟨u', h2, rfl⟩
        · exact ihl l' h2 (.mk gu hu) (al.step h2) au
        · exact ihu u' h2 (au.step h2)

end GkrMimc
