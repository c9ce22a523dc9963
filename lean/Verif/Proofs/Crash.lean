import Verif.Spec.Crash
import Verif.Proofs.Conc

/-! A program that panics in some local computations, compared with programs that go on with any value instead: as long as it does not
panic it is a run of each of them. -/

namespace GkrMimc

open Spec

variable {M V : Type}

/-- The left program is the right one, but for panics in `E`, after which the right one does anything. The left program sends values
in `S` only; what either does with other values does not matter. -/
inductive Upto (E : Abort → Prop) (S : V → Prop) : Prog M V → Prog M V → Prop
  | ret (r : V) : Upto E S (.ret r) (.ret r)
  | both (e : Abort) : Upto E S (.crash e) (.crash e)
  | crash (e : Abort) (he : E e) (q : Prog M V) : Upto E S (.crash e) q
  | make (cap : Nat) {k k' : Nat → Prog M V} (h : ∀ n, Upto E S (k n) (k' n)) : Upto E S (.make cap k) (.make cap k')
  | send (c : Nat) (v : V) {k k' : Prog M V} (hv : S v) (h : Upto E S k k') : Upto E S (.send c v k) (.send c v k')
  | recv (c : Nat) {k k' : Option V → Prog M V} (h : ∀ v, (∀ x, v = some x → S x) → Upto E S (k v) (k' v)) :
    Upto E S (.recv c k) (.recv c k')
  | close (c : Nat) {k k' : Prog M V} (h : Upto E S k k') : Upto E S (.close c k) (.close c k')
  | go {p p' k k' : Prog M V} (hp : Upto E S p p') (h : Upto E S k k') : Upto E S (.go p k) (.go p' k')
  | wgNew (n : Nat) {k k' : Nat → Prog M V} (h : ∀ n, Upto E S (k n) (k' n)) : Upto E S (.wgNew n k) (.wgNew n k')
  | wgDone (w : Nat) {k k' : Prog M V} (h : Upto E S k k') : Upto E S (.wgDone w k) (.wgDone w k')
  | wgWait (w : Nat) {k k' : Prog M V} (h : Upto E S k k') : Upto E S (.wgWait w k) (.wgWait w k')
  | act (f : M → M) {k k' : Prog M V} (h : Upto E S k k') : Upto E S (.act f k) (.act f k')
  | mem (a : Access) (f : M → M) {k k' : M → Prog M V} (h : ∀ m, Upto E S (k m) (k' m)) : Upto E S (.mem a f k) (.mem a f k')

theorem Upto.same {E : Abort → Prop} {S : V → Prop} (hS : ∀ v, S v) (p : Prog M V) : Upto E S p p := by
  induction p with
  | ret r => exact .ret r
  | crash e => exact .both e
  | make cap k ih => exact .make cap ih
  | send c v k ih => exact .send c v (hS v) ih
  | recv c k ih => exact .recv c fun v _ => ih v
  | close c k ih => exact .close c ih
  | go p k ih ih' => exact .go ih ih'
  | wgNew n k ih => exact .wgNew n ih
  | wgDone w k ih => exact .wgDone w ih
  | wgWait w k ih => exact .wgWait w ih
  | act f k ih => exact .act f ih
  | mem a f k ih => exact .mem a f ih

/-- Two configurations that differ in the code of the goroutines only. -/
structure UptoConf (E : Abort → Prop) (S : V → Prop) (s t : Conf M V) : Prop where
  nG : t.nG = s.nG
  chans : t.chans = s.chans
  nC : t.nC = s.nC
  wgs : t.wgs = s.wgs
  nW : t.nW = s.nW
  mem : t.mem = s.mem
  crashed : t.crashed = s.crashed
  gs : ∀ i, Upto E S (s.gs i) (t.gs i)
  sent : ∀ c, ∀ x ∈ (s.chans c).buf, S x

variable {E : Abort → Prop} {S : V → Prop} {s s' t t' : Conf M V}

theorem upto_update {f g : Nat → Prog M V} (h : ∀ j, Upto E S (f j) (g j)) (i : Nat) {p q : Prog M V} (hp : Upto E S p q) (j : Nat) :
    Upto E S (Function.update f i p j) (Function.update g i q j) := by
  by_cases hj : j = i
  · subst hj; rwa [Function.update_self, Function.update_self]
  · rw [Function.update_of_ne hj, Function.update_of_ne hj]; exact h j

theorem sent_update {chans : Nat → Chan V} (h : ∀ c, ∀ x ∈ (chans c).buf, S x) (c : Nat) {ch : Chan V} (hc : ∀ x ∈ ch.buf, S x) (d : Nat) :
    ∀ x ∈ (Function.update chans c ch d).buf, S x := by
  by_cases hd : d = c
  · subst hd; rwa [Function.update_self]
  · rw [Function.update_of_ne hd]; exact h d

/-- A step of a goroutine on the left is a panic in `E` or a step on the right. -/
theorem UptoConf.exec_right (h : UptoConf E S s t) {i : Nat} (he : exec s i = some s') :
    (∃ e, E e ∧ s'.crashed = some e) ∨ ∃ t', exec t i = some t' ∧ UptoConf E S s' t' := by
  obtain ⟨h1, h2, h3, h4, h5, h6, h7, h8, h9⟩ := h
  obtain ⟨gs, nG, chans, nC, wgs, nW, mem, cr⟩ := s
  obtain ⟨gs', nG', chans', nC', wgs', nW', mem', cr'⟩ := t
  dsimp only at h1 h2 h3 h4 h5 h6 h7 h8 h9
  subst h1 h2 h3 h4 h5 h6 h7
  have hi := h8 i
  unfold exec at he ⊢
  dsimp only at he ⊢
  generalize hp : gs i = p at hi he
  generalize hq : gs' i = q at hi
  cases hi with
  | ret r => cases he
  | both e => right; cases he; exact ⟨_, rfl, rfl, rfl, rfl, rfl, rfl, rfl, rfl, h8, h9⟩
  | crash e hE => left; cases he; exact ⟨e, hE, rfl⟩
  | make cap h =>
    right; cases he
    exact ⟨_, rfl, rfl, rfl, rfl, rfl, rfl, rfl, rfl, upto_update h8 i (h _), sent_update h9 _ (by simp)⟩
  | send c v hv h =>
    right
    dsimp only at he ⊢
    split_ifs at he ⊢
    · cases he; exact ⟨_, rfl, rfl, rfl, rfl, rfl, rfl, rfl, rfl, h8, h9⟩
    · cases he
      refine ⟨_, rfl, rfl, rfl, rfl, rfl, rfl, rfl, rfl, upto_update h8 i h, sent_update h9 _ fun x hx => ?_⟩
      rcases List.mem_append.1 hx with hx | hx
      · exact h9 c x hx
      · rw [List.mem_singleton.1 hx]; exact hv
  | recv c h =>
    right
    dsimp only at he ⊢
    cases hb : (chans' c).buf with
    | cons v rest =>
      rw [hb] at he
      have hS : ∀ x ∈ v :: rest, S x := by rw [← hb]; exact h9 c
      cases he
      refine ⟨_, rfl, rfl, rfl, rfl, rfl, rfl, rfl, rfl, upto_update h8 i (h _ fun x hx => ?_),
        sent_update h9 _ fun x hx => hS x (List.mem_cons_of_mem _ hx)⟩
      rw [← Option.some.inj hx]
      exact hS v (by simp)
    | nil =>
      rw [hb] at he
      dsimp only at he ⊢
      split_ifs at he ⊢
      cases he; exact ⟨_, rfl, rfl, rfl, rfl, rfl, rfl, rfl, rfl, upto_update h8 i (h _ fun x hx => by cases hx), h9⟩
  | close c h =>
    right
    dsimp only at he ⊢
    split_ifs at he ⊢
    · cases he; exact ⟨_, rfl, rfl, rfl, rfl, rfl, rfl, rfl, rfl, h8, h9⟩
    · cases he; exact ⟨_, rfl, rfl, rfl, rfl, rfl, rfl, rfl, rfl, upto_update h8 i h, sent_update h9 _ (h9 c)⟩
  | go hp' h =>
    right; cases he
    exact ⟨_, rfl, rfl, rfl, rfl, rfl, rfl, rfl, rfl, upto_update (upto_update h8 i h) _ hp', h9⟩
  | wgNew n h => right; cases he; exact ⟨_, rfl, rfl, rfl, rfl, rfl, rfl, rfl, rfl, upto_update h8 i (h _), h9⟩
  | wgDone w h =>
    right
    dsimp only at he ⊢
    split_ifs at he ⊢
    · cases he; exact ⟨_, rfl, rfl, rfl, rfl, rfl, rfl, rfl, rfl, h8, h9⟩
    · cases he; exact ⟨_, rfl, rfl, rfl, rfl, rfl, rfl, rfl, rfl, upto_update h8 i h, h9⟩
  | wgWait w h =>
    right
    dsimp only at he ⊢
    split_ifs at he ⊢
    cases he; exact ⟨_, rfl, rfl, rfl, rfl, rfl, rfl, rfl, rfl, upto_update h8 i h, h9⟩
  | act f h => right; cases he; exact ⟨_, rfl, rfl, rfl, rfl, rfl, rfl, rfl, rfl, upto_update h8 i h, h9⟩
  | mem a f h => right; cases he; exact ⟨_, rfl, rfl, rfl, rfl, rfl, rfl, rfl, rfl, upto_update h8 i (h _), h9⟩

/-- A step of a goroutine on the right is one on the left. -/
theorem UptoConf.exec_left (h : UptoConf E S s t) {i : Nat} (he : exec t i = some t') : ∃ s', exec s i = some s' := by
  obtain ⟨h1, h2, h3, h4, h5, h6, h7, h8, h9⟩ := h
  obtain ⟨gs, nG, chans, nC, wgs, nW, mem, cr⟩ := s
  obtain ⟨gs', nG', chans', nC', wgs', nW', mem', cr'⟩ := t
  dsimp only at h1 h2 h3 h4 h5 h6 h7 h8 h9
  subst h1 h2 h3 h4 h5 h6 h7
  have hi := h8 i
  unfold exec at he ⊢
  dsimp only at he ⊢
  generalize hp : gs i = p at hi
  generalize hq : gs' i = q at hi he
  cases hi with
  | ret r => cases he
  | both e => exact ⟨_, rfl⟩
  | crash e hE => exact ⟨_, rfl⟩
  | make cap h => exact ⟨_, rfl⟩
  | send c v _ h => dsimp only at he ⊢; split_ifs at he ⊢ <;> exact ⟨_, rfl⟩
  | recv c h =>
    dsimp only at he ⊢
    cases hb : (chans' c).buf with
    | cons v rest => exact ⟨_, rfl⟩
    | nil =>
      rw [hb] at he
      dsimp only at he ⊢
      split_ifs at he ⊢
      exact ⟨_, rfl⟩
  | close c h => dsimp only at he ⊢; split_ifs at he ⊢ <;> exact ⟨_, rfl⟩
  | go hp' h => exact ⟨_, rfl⟩
  | wgNew n h => exact ⟨_, rfl⟩
  | wgDone w h => dsimp only at he ⊢; split_ifs at he ⊢ <;> exact ⟨_, rfl⟩
  | wgWait w h => dsimp only at he ⊢; split_ifs at he ⊢; exact ⟨_, rfl⟩
  | act f h => exact ⟨_, rfl⟩
  | mem a f h => exact ⟨_, rfl⟩

theorem UptoConf.step_right (h : UptoConf E S s t) (hs : Step s s') :
    (∃ e, E e ∧ s'.crashed = some e) ∨ ∃ t', Step t t' ∧ UptoConf E S s' t' := by
  obtain ⟨h0, ⟨i, hi⟩ | ⟨i, j, c, v, k, k', hij, hi, hj, hc, hcl, rfl⟩⟩ := hs
  · rcases h.exec_right hi with h1 | ⟨t', h1, h2⟩
    · exact .inl h1
    · exact .inr ⟨t', ⟨h.crashed.trans h0, .inl ⟨i, h1⟩⟩, h2⟩
  · right
    have ui := h.gs i
    have uj := h.gs j
    rw [hi] at ui
    rw [hj] at uj
    generalize hp : t.gs i = p at ui
    generalize hq : t.gs j = q at uj
    cases ui with
    | send c v hv ui =>
      cases uj with
      | recv c uj =>
        refine ⟨_, ⟨h.crashed.trans h0, .inr ⟨i, j, c, v, _, _, hij, hp, hq, by rw [h.chans]; exact hc, by rw [h.chans]; exact hcl, rfl⟩⟩, ?_⟩
        exact ⟨h.nG, h.chans, h.nC, h.wgs, h.nW, h.mem, h.crashed, upto_update (upto_update h.gs i ui) j (uj _ fun x hx => by rw [← Option.some.inj hx]; exact hv), h.sent⟩

theorem UptoConf.step_left (h : UptoConf E S s t) (hs : Step t t') : ∃ s', Step s s' := by
  obtain ⟨h0, ⟨i, hi⟩ | ⟨i, j, c, v, k, k', hij, hi, hj, hc, hcl, rfl⟩⟩ := hs
  · obtain ⟨s', h1⟩ := h.exec_left hi
    exact ⟨s', h.crashed.symm.trans h0, .inl ⟨i, h1⟩⟩
  · have ui := h.gs i
    have uj := h.gs j
    rw [hi] at ui
    rw [hj] at uj
    generalize hp : s.gs i = p at ui
    generalize hq : s.gs j = q at uj
    have h0' : s.crashed = none := h.crashed.symm.trans h0
    cases ui with
    | crash e he => exact ⟨_, h0', .inl ⟨i, by unfold exec; rw [hp]⟩⟩
    | send c v hv ui =>
      cases uj with
      | crash e he => exact ⟨_, h0', .inl ⟨j, by unfold exec; rw [hq]⟩⟩
      | recv c uj =>
        exact ⟨_, h0', .inr ⟨i, j, c, v, _, _, hij, hp, hq, by rw [← h.chans]; exact hc, by rw [← h.chans]; exact hcl, rfl⟩⟩

/-- A run on the left ends with a panic in `E` in its last step, or is a run on the right. -/
theorem UptoConf.reach (h : UptoConf E S s t) {n : Nat} (hr : ReachIn s n s') :
    (∃ m t', n = m + 1 ∧ ReachIn t m t' ∧ ∃ e, E e ∧ s'.crashed = some e) ∨ ∃ t', ReachIn t n t' ∧ UptoConf E S s' t' := by
  induction hr with
  | zero => exact .inr ⟨t, .zero, h⟩
  | step hr hs ih =>
    rcases ih with ⟨m, t', rfl, ht, e, he, hc⟩ | ⟨t', ht, hu⟩
    · exact absurd hs.1 (by rw [hc]; simp)
    · rcases hu.step_right hs with ⟨e, he, hc⟩ | ⟨t'', h1, h2⟩
      · exact .inl ⟨_, t', rfl, ht, e, he, hc⟩
      · exact .inr ⟨t'', ht.step h1, h2⟩

/-- If going on in two ways gives well-behaved runs whose results differ, then all runs panic. -/
theorem crashes_of_two {sem sem' N N' B B' : Nat} {post post' : Conf M V → Prop} {t₁ t₂ : Conf M V} (h₁ : UptoConf E S s t₁)
    (h₂ : UptoConf E S s t₂) (g₁ : GoodRun sem N post B t₁) (g₂ : GoodRun sem' N' post' B' t₂)
    (hne : ∀ u v w, UptoConf E S u v → UptoConf E S u w → post v → post' w → Returned u 0 → False) : Crashes E (B + 1) s := by
  intro n u hr
  rcases h₁.reach hr with ⟨m, v, rfl, hv, e, he, hc⟩ | ⟨v, hv, huv⟩
  · have := (g₁ m v hv).1
    exact ⟨by omega, .inl ⟨e, hc, he⟩⟩
  · obtain ⟨hn, gv⟩ := g₁ n v hv
    refine ⟨by omega, .inr ?_⟩
    have h0 : u.crashed = none := huv.crashed.symm.trans gv.alive
    have hret : ¬ Returned u 0 := by
      intro hu
      rcases h₂.reach hr with ⟨m, w, rfl, hw, e, he, hc⟩ | ⟨w, hw, huw⟩
      · rw [h0] at hc; cases hc
      · have key : ∀ {x : Conf M V}, UptoConf E S u x → Returned x 0 := by
          intro x hx
          obtain ⟨r, hr⟩ := hu
          have := hx.gs 0
          rw [hr] at this
          generalize hq : x.gs 0 = q at this
          cases this
          exact ⟨r, hq⟩
        exact hne u v w huv huw (gv.result (key huv)) ((g₂ n w hw).2.result (key huw)) hu
    refine ⟨h0, ?_, hret⟩
    by_contra hst
    have hstv : Stuck v := fun v' hv' => hst (huv.step_left hv')
    have hall := gv.live hstv 0
    obtain ⟨r, hr'⟩ := hall
    have h3 := huv.gs 0
    rw [hr'] at h3
    generalize hq : u.gs 0 = q at h3
    cases h3 with
    | ret r => exact hret ⟨_, hq⟩
    | crash e he => exact hst ⟨_, h0, .inl ⟨0, by unfold exec; rw [hq]⟩⟩

end GkrMimc
