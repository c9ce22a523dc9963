import Verif.Proofs.Par

/-! A program does not depend on the numbers of the channels, wait groups and goroutines that it makes. -/

set_option linter.unusedSimpArgs false

namespace GkrMimc

open Spec

variable {M V C : Type}

/-- `P'` is `P` with the numbers of channels shifted by `c0` and those of wait groups by `w0`;
`P` only uses the channels below `n`, the wait groups below `m`, and those that it makes. -/
def Ren (c0 w0 : Nat) : Nat → Nat → Prog M V → Prog M V → Prop
  | _, _, .ret r, P' => P' = .ret r
  | _, _, .crash e, P' => P' = .crash e
  | n, m, .make cap k, P' => ∃ k', P' = .make cap k' ∧ ∀ c, Ren c0 w0 (max n (c + 1)) m (k c) (k' (c + c0))
  | n, m, .send c v k, P' => ∃ k', P' = .send (c + c0) v k' ∧ c < n ∧ Ren c0 w0 n m k k'
  | n, m, .recv c k, P' => ∃ k', P' = .recv (c + c0) k' ∧ c < n ∧ ∀ v, Ren c0 w0 n m (k v) (k' v)
  | n, m, .close c k, P' => ∃ k', P' = .close (c + c0) k' ∧ c < n ∧ Ren c0 w0 n m k k'
  | n, m, .go p k, P' => ∃ p' k', P' = .go p' k' ∧ Ren c0 w0 n m p p' ∧ Ren c0 w0 n m k k'
  | n, m, .wgNew x k, P' => ∃ k', P' = .wgNew x k' ∧ ∀ w, Ren c0 w0 n (max m (w + 1)) (k w) (k' (w + w0))
  | n, m, .wgDone w k, P' => ∃ k', P' = .wgDone (w + w0) k' ∧ w < m ∧ Ren c0 w0 n m k k'
  | n, m, .wgWait w k, P' => ∃ k', P' = .wgWait (w + w0) k' ∧ w < m ∧ Ren c0 w0 n m k k'
  | n, m, .act f k, P' => ∃ k', P' = .act f k' ∧ Ren c0 w0 n m k k'
  | n, m, .mem a f k, P' => ∃ k', P' = .mem a f k' ∧ ∀ h, Ren c0 w0 n m (k h) (k' h)

theorem Ren.avoids {c0 w0 n m : Nat} {P P' : Prog M V} (h : Ren c0 w0 n m P P') : Avoids c0 w0 P' := by
  induction P generalizing P' n m with
  | ret r => rw [show P' = _ from h]; trivial
  | crash e => rw [show P' = _ from h]; trivial
  | make cap k ih =>
    obtain ⟨k', rfl, h⟩ := h
    intro n hn
    obtain ⟨m, rfl⟩ := Nat.exists_eq_add_of_le' hn
    exact ih m (h m)
  | send c v k ih => obtain ⟨k', rfl, _, h⟩ := h; exact ⟨Nat.le_add_left _ _, ih h⟩
  | recv c k ih => obtain ⟨k', rfl, _, h⟩ := h; exact ⟨Nat.le_add_left _ _, fun v => ih v (h v)⟩
  | close c k ih => obtain ⟨k', rfl, _, h⟩ := h; exact ⟨Nat.le_add_left _ _, ih h⟩
  | go p k ihp ih => obtain ⟨p', k', rfl, h1, h2⟩ := h; exact ⟨ihp h1, ih h2⟩
  | wgNew x k ih =>
    obtain ⟨k', rfl, h⟩ := h
    intro n hn
    obtain ⟨m, rfl⟩ := Nat.exists_eq_add_of_le' hn
    exact ih m (h m)
  | wgDone w k ih => obtain ⟨k', rfl, _, h⟩ := h; exact ⟨Nat.le_add_left _ _, ih h⟩
  | wgWait w k ih => obtain ⟨k', rfl, _, h⟩ := h; exact ⟨Nat.le_add_left _ _, ih h⟩
  | act f k ih =>
    obtain ⟨k', rfl, h⟩ := h
    show Avoids c0 w0 k'
    exact ih h
  | mem a f k ih => obtain ⟨k', rfl, h⟩ := h; exact fun m => ih m (h m)

theorem Ren.mono {c0 w0 n m n' m' : Nat} {P P' : Prog M V} (h : Ren c0 w0 n m P P') (hn : n ≤ n') (hm : m ≤ m') :
    Ren c0 w0 n' m' P P' := by
  induction P generalizing P' n m n' m' with
  | ret r => exact h
  | crash e => exact h
  | make cap k ih =>
    obtain ⟨k', rfl, h⟩ := h
    exact ⟨k', rfl, fun c => ih c (h c) (by omega) hm⟩
  | send c v k ih => obtain ⟨k', rfl, hc, h⟩ := h; exact ⟨k', rfl, by omega, ih h hn hm⟩
  | recv c k ih => obtain ⟨k', rfl, hc, h⟩ := h; exact ⟨k', rfl, by omega, fun v => ih v (h v) hn hm⟩
  | close c k ih => obtain ⟨k', rfl, hc, h⟩ := h; exact ⟨k', rfl, by omega, ih h hn hm⟩
  | go p k ihp ih => obtain ⟨p', k', rfl, h1, h2⟩ := h; exact ⟨p', k', rfl, ihp h1 hn hm, ih h2 hn hm⟩
  | wgNew x k ih =>
    obtain ⟨k', rfl, h⟩ := h
    exact ⟨k', rfl, fun c => ih c (h c) hn (by omega)⟩
  | wgDone w k ih => obtain ⟨k', rfl, hc, h⟩ := h; exact ⟨k', rfl, by omega, ih h hn hm⟩
  | wgWait w k ih => obtain ⟨k', rfl, hc, h⟩ := h; exact ⟨k', rfl, by omega, ih h hn hm⟩
  | act f k ih => obtain ⟨k', rfl, h⟩ := h; exact ⟨k', rfl, ih h hn hm⟩
  | mem a f k ih => obtain ⟨k', rfl, h⟩ := h; exact ⟨k', rfl, fun x => ih x (h x) hn hm⟩

/-- The new number of goroutine `i`. -/
def newIx (n0 i : Nat) : Nat := if i = 0 then 0 else i - 1 + n0

/-- `s` is `b` with other numbers, next to goroutines that have returned. -/
structure Shifted (n0 c0 w0 : Nat) (b s : Conf M V) : Prop where
  nG : s.nG + 1 = b.nG + n0
  nC : s.nC = b.nC + c0
  nW : s.nW = b.nW + w0
  pos : 1 ≤ n0
  posb : 1 ≤ b.nG
  chans : ∀ c < b.nC, s.chans (c + c0) = b.chans c
  wgs : ∀ w < b.nW, s.wgs (w + w0) = b.wgs w
  mem : s.mem = b.mem
  crashed : s.crashed = b.crashed
  progs : ∀ i < b.nG, Ren c0 w0 b.nC b.nW (b.gs i) (s.gs (newIx n0 i))
  done : ∀ i, i ≠ 0 → i < n0 → Returned s i
  rest : ∀ i, s.nG ≤ i → Returned s i
  restb : ∀ i, b.nG ≤ i → Returned b i

section
variable {n0 c0 w0 : Nat} {b s : Conf M V}

theorem newIx_inj (h : 1 ≤ n0) {i j : Nat} (e : newIx n0 i = newIx n0 j) : i = j := by
  unfold newIx at e
  split_ifs at e <;> omega

theorem newIx_not (i : Nat) : ¬ (newIx n0 i ≠ 0 ∧ newIx n0 i < n0) := by
  unfold newIx
  split_ifs <;> omega

theorem newIx_surj (j : Nat) (h : ¬ (j ≠ 0 ∧ j < n0)) : ∃ i, j = newIx n0 i := by
  by_cases h0 : j = 0
  · exact ⟨0, by simp [newIx, h0]⟩
  · exact ⟨j - n0 + 1, by simp only [newIx]; rw [if_neg (by omega)]; omega⟩

theorem Shifted.ix_lt (h : Shifted n0 c0 w0 b s) {i : Nat} : newIx n0 i < s.nG ↔ i < b.nG := by
  have h1 := h.nG
  have h2 := h.pos
  have h3 := h.posb
  unfold newIx
  split_ifs <;> omega

theorem update_add {α : Type} {f g : Nat → α} {d N : Nat} (h : ∀ c < N, f (c + d) = g c) (c : Nat) (x : α) (e : Nat) (he : e < N) :
    Function.update f (c + d) x (e + d) = Function.update g c x e := by
  by_cases hc : e = c
  · subst hc; simp
  · rw [Function.update_of_ne hc, Function.update_of_ne (by omega), h e he]

theorem update_new {α : Type} {f g : Nat → α} {d N : Nat} (h : ∀ c < N, f (c + d) = g c) (x : α) (e : Nat) (he : e < N + 1) :
    Function.update f (N + d) x (e + d) = Function.update g N x e := by
  by_cases hc : e = N
  · subst hc; simp
  · rw [Function.update_of_ne hc, Function.update_of_ne (by omega), h e (by omega)]

/-- Goroutine `i` goes on. -/
theorem Shifted.upd (h : Shifted n0 c0 w0 b s) {b' s' : Conf M V} {i : Nat} {P P' : Prog M V} (hi : i < b.nG)
    (hP : Ren c0 w0 b'.nC b'.nW P P')
    (e1 : b'.gs = Function.update b.gs i P) (e2 : s'.gs = Function.update s.gs (newIx n0 i) P')
    (e3 : b'.nG = b.nG) (e4 : s'.nG = s.nG) (nC : s'.nC = b'.nC + c0) (nW : s'.nW = b'.nW + w0) (hC : b.nC ≤ b'.nC) (hW : b.nW ≤ b'.nW)
    (chans : ∀ c < b'.nC, s'.chans (c + c0) = b'.chans c) (wgs : ∀ w < b'.nW, s'.wgs (w + w0) = b'.wgs w) (mem : s'.mem = b'.mem)
    (crashed : s'.crashed = b'.crashed) : Shifted n0 c0 w0 b' s' := by
  refine ⟨by rw [e3, e4]; exact h.nG, nC, nW, h.pos, e3 ▸ h.posb, chans, wgs, mem, crashed, ?_, ?_, ?_, ?_⟩
  · intro j hj
    rw [e3] at hj
    by_cases hji : j = i
    · subst hji; rw [e1, e2, Function.update_self, Function.update_self]; exact hP
    · rw [e1, e2, Function.update_of_ne hji, Function.update_of_ne (fun e => hji (newIx_inj h.pos e))]
      exact (h.progs j hj).mono hC hW
  · intro j h1 h2
    obtain ⟨r, hr⟩ := h.done j h1 h2
    refine ⟨r, ?_⟩
    rw [e2, Function.update_of_ne (by rintro rfl; exact newIx_not i ⟨h1, h2⟩)]
    exact hr
  · intro j hj
    rw [e4] at hj
    obtain ⟨r, hr⟩ := h.rest j hj
    refine ⟨r, ?_⟩
    rw [e2, Function.update_of_ne (by rintro rfl; have := h.ix_lt.mpr hi; omega)]
    exact hr
  · intro j hj
    rw [e3] at hj
    obtain ⟨r, hr⟩ := h.restb j hj
    refine ⟨r, ?_⟩
    rw [e1, Function.update_of_ne (by omega)]
    exact hr

theorem Shifted.same (h : Shifted n0 c0 w0 b s) {i : Nat} {P P' : Prog M V} (hi : i < b.nG) (hP : Ren c0 w0 b.nC b.nW P P') :
    Shifted n0 c0 w0 (b.goOn i P) (s.goOn (newIx n0 i) P') :=
  h.upd hi hP rfl rfl rfl rfl h.nC h.nW le_rfl le_rfl h.chans h.wgs h.mem h.crashed

theorem Shifted.panic (h : Shifted n0 c0 w0 b s) (e : Abort) : Shifted n0 c0 w0 (b.panic e) (s.panic e) :=
  ⟨h.nG, h.nC, h.nW, h.pos, h.posb, h.chans, h.wgs, h.mem, rfl, h.progs, h.done, h.rest, h.restb⟩

theorem Shifted.setChan (h : Shifted n0 c0 w0 b s) {i : Nat} {P P' : Prog M V} (hi : i < b.nG) (hP : Ren c0 w0 b.nC b.nW P P') (c : Nat)
    (ch : Chan V) : Shifted n0 c0 w0 ((b.setChan c ch).goOn i P) ((s.setChan (c + c0) ch).goOn (newIx n0 i) P') :=
  h.upd hi hP rfl rfl rfl rfl h.nC h.nW le_rfl le_rfl (fun e he => update_add h.chans c ch e he) h.wgs h.mem h.crashed

theorem Shifted.exec (h : Shifted n0 c0 w0 b s) {i : Nat} (hi : i < b.nG) :
    (GkrMimc.exec b i = none ∧ GkrMimc.exec s (newIx n0 i) = none) ∨
    ∃ b' s', GkrMimc.exec b i = some b' ∧ GkrMimc.exec s (newIx n0 i) = some s' ∧ Shifted n0 c0 w0 b' s' := by
  have g := h.progs i hi
  have hn := h.nG
  have hp := h.pos
  have hb := h.posb
  unfold GkrMimc.exec
  cases e : b.gs i with
  | ret r =>
    rw [e] at g
    rw [show s.gs (newIx n0 i) = _ from g]
    exact .inl ⟨rfl, rfl⟩
  | crash x =>
    rw [e] at g
    rw [show s.gs (newIx n0 i) = _ from g]
    exact .inr ⟨_, _, rfl, rfl, h.panic x⟩
  | make cap k =>
    rw [e] at g
    obtain ⟨k', e', g⟩ := g
    rw [e']
    refine .inr ⟨_, _, rfl, rfl, h.upd (i := i) (P := k b.nC) (P' := k' s.nC) hi ?_ rfl rfl rfl rfl ?_ h.nW (Nat.le_succ _) le_rfl ?_
      h.wgs h.mem h.crashed⟩
    · rw [h.nC]; exact (g b.nC).mono (by simp only; omega) le_rfl
    · simp only [h.nC]; omega
    · intro c hc
      simp only [Conf.setChan]
      rw [h.nC]
      exact update_new h.chans _ c hc
  | send c v k =>
    rw [e] at g
    obtain ⟨k', e', hc, g⟩ := g
    rw [e']
    simp only [h.chans c hc]
    split_ifs
    · exact .inr ⟨_, _, rfl, rfl, h.panic _⟩
    · exact .inr ⟨_, _, rfl, rfl, h.setChan hi g c _⟩
    · exact .inl ⟨rfl, rfl⟩
  | recv c k =>
    rw [e] at g
    obtain ⟨k', e', hc, g⟩ := g
    rw [e']
    simp only [h.chans c hc]
    cases (b.chans c).buf with
    | nil =>
      simp only
      split_ifs
      · exact .inr ⟨_, _, rfl, rfl, h.same hi (g none)⟩
      · exact .inl ⟨rfl, rfl⟩
    | cons x xs => exact .inr ⟨_, _, rfl, rfl, h.setChan hi (g (some x)) c _⟩
  | close c k =>
    rw [e] at g
    obtain ⟨k', e', hc, g⟩ := g
    rw [e']
    simp only [h.chans c hc]
    split_ifs
    · exact .inr ⟨_, _, rfl, rfl, h.panic _⟩
    · exact .inr ⟨_, _, rfl, rfl, h.setChan hi g c _⟩
  | go p k =>
    rw [e] at g
    obtain ⟨p', k', e', g1, g2⟩ := g
    rw [e']
    have h1 : Shifted n0 c0 w0 (b.goOn i k) (s.goOn (newIx n0 i) k') := h.same hi g2
    have hx : newIx n0 b.nG = s.nG := by unfold newIx; rw [if_neg (by omega)]; omega
    refine .inr ⟨_, _, rfl, rfl, by simp only; omega, h.nC, h.nW, h.pos, by simp only; omega, h.chans, h.wgs, h.mem, h.crashed, ?_, ?_, ?_, ?_⟩
    · intro j hj
      simp only at hj ⊢
      by_cases hjb : j = b.nG
      · subst hjb
        rw [hx, Function.update_self, Function.update_self]
        exact g1
      · have hne : newIx n0 j ≠ s.nG := by rw [← hx]; exact fun e => hjb (newIx_inj hp e)
        have := h1.progs j (show j < b.nG by omega)
        simp only [Conf.goOn] at this ⊢
        rw [Function.update_of_ne (a := j) (a' := b.nG) hjb, Function.update_of_ne (a' := s.nG) hne]
        exact this
    · intro j h2 h3
      obtain ⟨r, hr⟩ := h1.done j h2 h3
      exact ⟨r, by simp only; rw [Function.update_of_ne (by omega)]; exact hr⟩
    · intro j hj
      simp only at hj
      obtain ⟨r, hr⟩ := h1.rest j (show s.nG ≤ j by omega)
      exact ⟨r, by simp only; rw [Function.update_of_ne (by omega)]; exact hr⟩
    · intro j hj
      simp only at hj
      obtain ⟨r, hr⟩ := h1.restb j (show b.nG ≤ j by omega)
      exact ⟨r, by simp only; rw [Function.update_of_ne (by omega)]; exact hr⟩
  | wgNew n k =>
    rw [e] at g
    obtain ⟨k', e', g⟩ := g
    rw [e']
    refine .inr ⟨_, _, rfl, rfl, h.upd (i := i) (P := k b.nW) (P' := k' s.nW) hi ?_ rfl rfl rfl rfl h.nC ?_ le_rfl (Nat.le_succ _) h.chans ?_
      h.mem h.crashed⟩
    · rw [h.nW]; exact (g b.nW).mono le_rfl (by simp only; omega)
    · simp only [h.nW]; omega
    · intro c hc
      simp only
      rw [h.nW]
      exact update_new h.wgs _ c hc
  | wgDone w k =>
    rw [e] at g
    obtain ⟨k', e', hc, g⟩ := g
    rw [e']
    simp only [h.wgs w hc]
    split_ifs
    · exact .inr ⟨_, _, rfl, rfl, h.panic _⟩
    · exact .inr ⟨_, _, rfl, rfl, h.upd hi g rfl rfl rfl rfl h.nC h.nW le_rfl le_rfl h.chans (fun c hc => update_add h.wgs _ _ c hc) h.mem
        h.crashed⟩
  | wgWait w k =>
    rw [e] at g
    obtain ⟨k', e', hc, g⟩ := g
    rw [e']
    simp only [h.wgs w hc]
    split_ifs
    · exact .inr ⟨_, _, rfl, rfl, h.same hi g⟩
    · exact .inl ⟨rfl, rfl⟩
  | act f k =>
    rw [e] at g
    obtain ⟨k', e', g⟩ := g
    rw [e']
    exact .inr ⟨_, _, rfl, rfl, h.upd hi g rfl rfl rfl rfl h.nC h.nW le_rfl le_rfl h.chans h.wgs (by simp only [h.mem]) h.crashed⟩
  | mem a f k =>
    rw [e] at g
    obtain ⟨k', e', g⟩ := g
    rw [e']
    exact .inr ⟨_, _, rfl, rfl, h.upd (P := k b.mem) (P' := k' s.mem) hi (by rw [h.mem]; exact g _) rfl rfl rfl rfl h.nC h.nW le_rfl le_rfl
      h.chans h.wgs (by simp only [h.mem]) h.crashed⟩

/-- The goroutines of `s` that have not returned. -/
theorem Shifted.who (h : Shifted n0 c0 w0 b s) {j : Nat} (hj : ∀ r, s.gs j ≠ .ret r) : ∃ i, j = newIx n0 i ∧ i < b.nG := by
  obtain ⟨i, rfl⟩ := newIx_surj (n0 := n0) j (by
    rintro ⟨h1, h2⟩
    obtain ⟨r, hr⟩ := h.done j h1 h2
    exact hj r hr)
  refine ⟨i, rfl, ?_⟩
  by_contra hi
  obtain ⟨r, hr⟩ := h.rest (newIx n0 i) (Nat.le_of_not_lt fun e => hi (h.ix_lt.mp e))
  exact hj r hr

theorem Ren.send_inv {n m : Nat} {P : Prog M V} {c : Nat} {v : V} {k : Prog M V} (h : Ren c0 w0 n m P (.send c v k)) :
    ∃ c1 k1, P = .send c1 v k1 ∧ c = c1 + c0 ∧ c1 < n ∧ Ren c0 w0 n m k1 k := by
  cases P <;> simp [Ren] at h
  obtain ⟨⟨rfl, rfl⟩, h⟩ := h
  exact ⟨_, _, rfl, rfl, h⟩

theorem Ren.recv_inv {n m : Nat} {P : Prog M V} {c : Nat} {k : Option V → Prog M V} (h : Ren c0 w0 n m P (.recv c k)) :
    ∃ c1 k1, P = .recv c1 k1 ∧ c = c1 + c0 ∧ c1 < n ∧ ∀ v, Ren c0 w0 n m (k1 v) (k v) := by
  cases P <;> simp [Ren] at h
  obtain ⟨rfl, h⟩ := h
  exact ⟨_, _, rfl, rfl, h⟩

theorem Ren.close_inv {n m : Nat} {P : Prog M V} {c : Nat} {k : Prog M V} (h : Ren c0 w0 n m P (.close c k)) :
    ∃ c1 k1, P = .close c1 k1 ∧ c = c1 + c0 ∧ c1 < n ∧ Ren c0 w0 n m k1 k := by
  cases P <;> simp [Ren] at h
  obtain ⟨rfl, h⟩ := h
  exact ⟨_, _, rfl, rfl, h⟩

theorem Ren.mem_inv {n m : Nat} {P : Prog M V} {a : Access} {f : M → M} {k : M → Prog M V} (h : Ren c0 w0 n m P (.mem a f k)) :
    ∃ k1, P = .mem a f k1 := by
  cases P <;> simp [Ren] at h
  obtain ⟨⟨rfl, rfl⟩, h⟩ := h
  exact ⟨_, rfl⟩

theorem Ren.ret_inv {n m : Nat} {P : Prog M V} {r : V} (h : Ren c0 w0 n m P (.ret r)) : P = .ret r := by
  cases P <;> simp [Ren] at h
  rw [h]

theorem Shifted.ltb (h : Shifted n0 c0 w0 b s) {i : Nat} (hi : ∀ r, b.gs i ≠ .ret r) : i < b.nG := by
  by_contra hlt
  obtain ⟨r, hr⟩ := h.restb i (by omega)
  exact hi r hr

theorem Shifted.step (h : Shifted n0 c0 w0 b s) {s' : Conf M V} (hs : Step s s') : ∃ b', Step b b' ∧ Shifted n0 c0 w0 b' s' := by
  obtain ⟨ha, ⟨j, hj⟩ | ⟨j1, j2, c, v, k, k', hij, h1, h2, hcap, hcl, rfl⟩⟩ := hs
  · obtain ⟨i, rfl, hi⟩ := h.who (j := j) (by intro r hr; simp [GkrMimc.exec, hr] at hj)
    rcases h.exec hi with ⟨_, h2⟩ | ⟨b', x, h1, h2, h3⟩
    · rw [h2] at hj; cases hj
    · rw [h2] at hj; cases hj
      exact ⟨b', ⟨h.crashed ▸ ha, .inl ⟨i, h1⟩⟩, h3⟩
  · obtain ⟨i1, rfl, hi1⟩ := h.who (j := j1) (by intro r hr; rw [hr] at h1; cases h1)
    obtain ⟨i2, rfl, hi2⟩ := h.who (j := j2) (by intro r hr; rw [hr] at h2; cases h2)
    have g1 := h.progs i1 hi1
    have g2 := h.progs i2 hi2
    rw [h1] at g1
    rw [h2] at g2
    obtain ⟨c1, k1, e1, rfl, hc1, g1'⟩ := g1.send_inv
    obtain ⟨c2, k2, e2, hc, hc2, g2'⟩ := g2.recv_inv
    obtain rfl : c1 = c2 := by omega
    rw [h.chans c1 hc1] at hcap hcl
    refine ⟨_, ⟨h.crashed ▸ ha, .inr ⟨i1, i2, c1, v, k1, k2, fun e => hij (by rw [e]), e1, e2, hcap, hcl, rfl⟩⟩, ?_⟩
    exact (h.same hi1 g1').same hi2 (g2' _)

theorem Shifted.step' (h : Shifted n0 c0 w0 b s) {b' : Conf M V} (hs : Step b b') : ∃ s', Step s s' := by
  obtain ⟨ha, ⟨i, hi⟩ | ⟨i, j, c, v, k, k', hij, hi, hj, hcap, hcl, rfl⟩⟩ := hs
  · rcases h.exec (h.ltb (i := i) (by intro r hr; simp [GkrMimc.exec, hr] at hi)) with ⟨h1, _⟩ | ⟨x, s', h1, h2, h3⟩
    · rw [h1] at hi; cases hi
    · exact ⟨s', h.crashed ▸ ha, .inl ⟨_, h2⟩⟩
  · have g1 := h.progs i (h.ltb (by rw [hi]; simp))
    have g2 := h.progs j (h.ltb (by rw [hj]; simp))
    rw [hi] at g1
    rw [hj] at g2
    obtain ⟨k1, e1, hc1, g1⟩ := g1
    obtain ⟨k2, e2, hc2, g2⟩ := g2
    exact ⟨_, h.crashed ▸ ha, .inr ⟨_, _, c + c0, v, k1, k2, fun e => hij (newIx_inj h.pos e), e1, e2, by rw [h.chans c hc1]; exact hcap,
      by rw [h.chans c hc1]; exact hcl, rfl⟩⟩

end

theorem Good.shift {n0 c0 w0 : Nat} {W : Set (Nat × Nat)} {h0 : Heap C} {post post' : Conf (Heap C) V → Prop}
    (hpost : ∀ b s : Conf (Heap C) V, Shifted n0 c0 w0 b s → post b → post' s) {b s : Conf (Heap C) V} (hb : Good (GM W h0 post) b)
    (h : Shifted n0 c0 w0 b s) : Good (GM W h0 post') s := by
  induction hb generalizing s with
  | @mk b g _ ih =>
    refine .mk ⟨⟨?_, h.crashed.trans g.1.alive, ?_, ?_, ?_, h.mem ▸ g.1.frame⟩, h.mem ▸ g.2⟩ ?_
    · rintro ⟨j1, j2, a, f, k, x, f', k', hij, h1, h2, hc⟩
      obtain ⟨i1, rfl, hi1⟩ := h.who (j := j1) (by intro r hr; rw [hr] at h1; cases h1)
      obtain ⟨i2, rfl, hi2⟩ := h.who (j := j2) (by intro r hr; rw [hr] at h2; cases h2)
      have g1 := h.progs i1 hi1
      have g2 := h.progs i2 hi2
      rw [h1] at g1
      rw [h2] at g2
      obtain ⟨k1, e1⟩ := g1.mem_inv
      obtain ⟨k2, e2⟩ := g2.mem_inv
      exact g.1.norace ⟨i1, i2, a, f, k1, x, f', k2, fun e => hij (by rw [e]), e1, e2, hc⟩
    · intro hst j
      by_cases hj : j ≠ 0 ∧ j < n0
      · exact h.done j hj.1 hj.2
      · by_cases hjs : j < s.nG
        · obtain ⟨i, rfl⟩ := newIx_surj j hj
          obtain ⟨r, hr⟩ := g.1.live (fun b' hb => by
            obtain ⟨s', hs'⟩ := h.step' hb
            exact hst s' hs') i
          have := h.progs i (h.ix_lt.mp hjs)
          rw [hr] at this
          exact ⟨r, this⟩
        · exact h.rest j (by omega)
    · rintro ⟨r, hr⟩
      have := h.progs 0 h.posb
      rw [show newIx n0 0 = 0 from rfl, hr] at this
      exact hpost b s h (g.1.result ⟨r, this.ret_inv⟩)
    · intro j c v k hj
      obtain ⟨i, rfl, hi⟩ := h.who (j := j) (by intro r hr; rw [hr] at hj; cases hj)
      have gi := h.progs i hi
      rw [hj] at gi
      obtain ⟨c1, k1, e1, _, _⟩ := gi.send_inv
      obtain ⟨b', h1, h2⟩ := g.1.sends i c1 v k1 e1
      rcases h.exec hi with ⟨h3, _⟩ | ⟨x, s', h3, h4, h5⟩
      · rw [h3] at h1; cases h1
      · rw [h3] at h1; cases h1
        exact ⟨s', h4, h5.crashed.trans h2⟩
    · intro s' hs
      obtain ⟨b', h1, h2⟩ := h.step hs
      exact ih b' h1 h2

/-- A program from the very start, and the same program in any configuration where only the caller runs. -/
theorem shifted_start {P : Prog M V} {m : M} {unit : V} {s : Conf M V} (h1 : Solo s) (h2 : 1 ≤ s.nG) (h3 : s.gs 0 = P) (h4 : s.mem = m)
    (hs : Ren s.nC s.nW 0 0 P P) : Shifted s.nG s.nC s.nW (startOf P m unit) s := by
  refine ⟨by simp [startOf]; omega, by simp [startOf], by simp [startOf], h2, by simp [startOf], ?_, ?_, h4, h1.1, ?_, ?_, ?_, ?_⟩
  · intro c hc; simp [startOf] at hc
  · intro c hc; simp [startOf] at hc
  · intro i hi
    have h0 : i = 0 := by simp [startOf] at hi; omega
    subst h0
    simp only [startOf, newIx, if_true, Function.update_self, h3]
    exact hs
  · exact fun i h0 _ => h1.2 i h0
  · exact fun i hi => h1.2 i (by omega)
  · intro i hi
    refine ⟨unit, ?_⟩
    simp [startOf] at hi ⊢
    rw [Function.update_of_ne (by omega)]

end GkrMimc
