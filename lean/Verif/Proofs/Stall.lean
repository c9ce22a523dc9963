import Verif.Proofs.CrashProveEnd

/-! Programs that block where others go on. -/

namespace GkrMimc

open Spec

variable {M V : Type}

/-- The left program is the right one, but for panics in `E`, after which the right one does anything, and for receives from other
channels, related by `Z`, where the left one is meant to be blocked. The left program sends and
returns values in `S` only; what either does with other values does not matter. -/
inductive UptoZ (Z : Nat → Nat → Prop) (E : Abort → Prop) (S : V → Prop) : Prog M V → Prog M V → Prop
  | ret (r : V) (hr : S r) : UptoZ Z E S (.ret r) (.ret r)
  | stall (c c' : Nat) (hz : Z c c') (k k' : Option V → Prog M V) : UptoZ Z E S (.recv c k) (.recv c' k')
  | both (e : Abort) : UptoZ Z E S (.crash e) (.crash e)
  | crash (e : Abort) (he : E e) (q : Prog M V) : UptoZ Z E S (.crash e) q
  | make (cap : Nat) {k k' : Nat → Prog M V} (h : ∀ n, UptoZ Z E S (k n) (k' n)) : UptoZ Z E S (.make cap k) (.make cap k')
  | send (c : Nat) (v : V) {k k' : Prog M V} (hv : S v) (h : UptoZ Z E S k k') : UptoZ Z E S (.send c v k) (.send c v k')
  | recv (c : Nat) {k k' : Option V → Prog M V} (h : ∀ v, (∀ x, v = some x → S x) → UptoZ Z E S (k v) (k' v)) :
    UptoZ Z E S (.recv c k) (.recv c k')
  | close (c : Nat) {k k' : Prog M V} (h : UptoZ Z E S k k') : UptoZ Z E S (.close c k) (.close c k')
  | go {p p' k k' : Prog M V} (hp : UptoZ Z E S p p') (h : UptoZ Z E S k k') : UptoZ Z E S (.go p k) (.go p' k')
  | wgNew (n : Nat) {k k' : Nat → Prog M V} (h : ∀ n, UptoZ Z E S (k n) (k' n)) : UptoZ Z E S (.wgNew n k) (.wgNew n k')
  | wgDone (w : Nat) {k k' : Prog M V} (h : UptoZ Z E S k k') : UptoZ Z E S (.wgDone w k) (.wgDone w k')
  | wgWait (w : Nat) {k k' : Prog M V} (h : UptoZ Z E S k k') : UptoZ Z E S (.wgWait w k) (.wgWait w k')
  | act (f : M → M) {k k' : Prog M V} (h : UptoZ Z E S k k') : UptoZ Z E S (.act f k) (.act f k')
  | mem (a : Access) (f : M → M) {k k' : M → Prog M V} (h : ∀ m, UptoZ Z E S (k m) (k' m)) : UptoZ Z E S (.mem a f k) (.mem a f k')

/-- Two configurations that differ in the code of the goroutines only. -/
structure UptoConfZ (Z : Nat → Nat → Prop) (E : Abort → Prop) (S : V → Prop) (s t : Conf M V) : Prop where
  nG : t.nG = s.nG
  chans : t.chans = s.chans
  nC : t.nC = s.nC
  wgs : t.wgs = s.wgs
  nW : t.nW = s.nW
  mem : t.mem = s.mem
  crashed : t.crashed = s.crashed
  gs : ∀ i, UptoZ Z E S (s.gs i) (t.gs i)
  sent : ∀ c, ∀ x ∈ (s.chans c).buf, S x

variable {Z : Nat → Nat → Prop} {E : Abort → Prop} {S : V → Prop} {s s' t t' : Conf M V}

theorem uptoZ_update {f g : Nat → Prog M V} (h : ∀ j, UptoZ Z E S (f j) (g j)) (i : Nat) {p q : Prog M V} (hp : UptoZ Z E S p q) (j : Nat) :
    UptoZ Z E S (Function.update f i p j) (Function.update g i q j) := by
  by_cases hj : j = i
  · subst hj; rwa [Function.update_self, Function.update_self]
  · rw [Function.update_of_ne hj, Function.update_of_ne hj]; exact h j

/-- A step of a goroutine on the left is a panic in `E` or a step on the right. -/
theorem UptoConfZ.exec_right (h : UptoConfZ Z E S s t)
    (hz : ∀ i c c' f, t.gs i = .recv c' f → Z c c' → (t.chans c).buf = [] ∧ (t.chans c).closed = false) {i : Nat} (he : exec s i = some s') :
    (∃ e, E e ∧ s'.crashed = some e) ∨ ∃ t', exec t i = some t' ∧ UptoConfZ Z E S s' t' := by
  obtain ⟨h1, h2, h3, h4, h5, h6, h7, h8, h9⟩ := h
  obtain ⟨gs, nG, chans, nC, wgs, nW, mem, cr⟩ := s
  obtain ⟨gs', nG', chans', nC', wgs', nW', mem', cr'⟩ := t
  dsimp only at h1 h2 h3 h4 h5 h6 h7 h8 h9 hz
  subst h1 h2 h3 h4 h5 h6 h7
  have hi := h8 i
  unfold exec at he ⊢
  dsimp only at he ⊢
  generalize hp : gs i = p at hi he
  generalize hq : gs' i = q at hi
  cases hi with
  | ret r hr => cases he
  | stall c c' hcc k k' =>
    obtain ⟨z1, z2⟩ := hz i c c' k' hq hcc
    dsimp only at he
    rw [z1] at he
    simp [z2] at he
  | both e => right; cases he; exact ⟨_, rfl, rfl, rfl, rfl, rfl, rfl, rfl, rfl, h8, h9⟩
  | crash e hE => left; cases he; exact ⟨e, hE, rfl⟩
  | make cap h =>
    right; cases he
    exact ⟨_, rfl, rfl, rfl, rfl, rfl, rfl, rfl, rfl, uptoZ_update h8 i (h _), sent_update h9 _ (by simp)⟩
  | send c v hv h =>
    right
    dsimp only at he ⊢
    split_ifs at he ⊢
    · cases he; exact ⟨_, rfl, rfl, rfl, rfl, rfl, rfl, rfl, rfl, h8, h9⟩
    · cases he
      refine ⟨_, rfl, rfl, rfl, rfl, rfl, rfl, rfl, rfl, uptoZ_update h8 i h, sent_update h9 _ fun x hx => ?_⟩
      rcases List.mem_append.1 hx with hx | hx
      · exact h9 c x hx
      · rw [List.mem_singleton.1 hx]; exact hv
  | recv c h =>
    right
    dsimp only at he ⊢
    cases hb : (chans' c).buf with
    | cons v rest =>
      rw [hb] at he
      have hS : ∀ x ∈ v :: rest, S x := by rw [← hb]; exact h9 c
      cases he
      refine ⟨_, rfl, rfl, rfl, rfl, rfl, rfl, rfl, rfl, uptoZ_update h8 i (h _ fun x hx => ?_),
        sent_update h9 _ fun x hx => hS x (List.mem_cons_of_mem _ hx)⟩
      rw [← Option.some.inj hx]
      exact hS v (by simp)
    | nil =>
      rw [hb] at he
      dsimp only at he ⊢
      split_ifs at he ⊢
      cases he; exact ⟨_, rfl, rfl, rfl, rfl, rfl, rfl, rfl, rfl, uptoZ_update h8 i (h _ fun x hx => by cases hx), h9⟩
  | close c h =>
    right
    dsimp only at he ⊢
    split_ifs at he ⊢
    · cases he; exact ⟨_, rfl, rfl, rfl, rfl, rfl, rfl, rfl, rfl, h8, h9⟩
    · cases he; exact ⟨_, rfl, rfl, rfl, rfl, rfl, rfl, rfl, rfl, uptoZ_update h8 i h, sent_update h9 _ (h9 c)⟩
  | go hp' h =>
    right; cases he
    exact ⟨_, rfl, rfl, rfl, rfl, rfl, rfl, rfl, rfl, uptoZ_update (uptoZ_update h8 i h) _ hp', h9⟩
  | wgNew n h => right; cases he; exact ⟨_, rfl, rfl, rfl, rfl, rfl, rfl, rfl, rfl, uptoZ_update h8 i (h _), h9⟩
  | wgDone w h =>
    right
    dsimp only at he ⊢
    split_ifs at he ⊢
    · cases he; exact ⟨_, rfl, rfl, rfl, rfl, rfl, rfl, rfl, rfl, h8, h9⟩
    · cases he; exact ⟨_, rfl, rfl, rfl, rfl, rfl, rfl, rfl, rfl, uptoZ_update h8 i h, h9⟩
  | wgWait w h =>
    right
    dsimp only at he ⊢
    split_ifs at he ⊢
    cases he; exact ⟨_, rfl, rfl, rfl, rfl, rfl, rfl, rfl, rfl, uptoZ_update h8 i h, h9⟩
  | act f h => right; cases he; exact ⟨_, rfl, rfl, rfl, rfl, rfl, rfl, rfl, rfl, uptoZ_update h8 i h, h9⟩
  | mem a f h => right; cases he; exact ⟨_, rfl, rfl, rfl, rfl, rfl, rfl, rfl, rfl, uptoZ_update h8 i (h _), h9⟩


/-- A step on the left is a panic in `E` or a step on the right, if the channels on which the left program waits are empty. -/
theorem UptoConfZ.step_right (h : UptoConfZ Z E S s t)
    (hz : ∀ i c c' f, t.gs i = .recv c' f → Z c c' → (t.chans c).buf = [] ∧ (t.chans c).closed = false ∧ (t.chans c).cap ≠ 0) (hs : Step s s') :
    (∃ e, E e ∧ s'.crashed = some e) ∨ ∃ t', Step t t' ∧ UptoConfZ Z E S s' t' := by
  obtain ⟨h0, ⟨i, hi⟩ | ⟨i, j, c, v, k, k', hij, hi, hj, hc, hcl, rfl⟩⟩ := hs
  · rcases h.exec_right (fun i c c' f h1 h2 => ⟨(hz i c c' f h1 h2).1, (hz i c c' f h1 h2).2.1⟩) hi with h1 | ⟨t', h1, h2⟩
    · exact .inl h1
    · exact .inr ⟨t', ⟨h.crashed.trans h0, .inl ⟨i, h1⟩⟩, h2⟩
  · right
    have ui := h.gs i
    have uj := h.gs j
    rw [hi] at ui
    rw [hj] at uj
    generalize hp : t.gs i = p at ui
    generalize hq : t.gs j = q at uj
    cases ui with
    | send c v hv ui =>
      cases uj with
      | stall c c' hcc f f' => exact absurd (by rw [h.chans]; exact hc) (hz j c c' f' hq hcc).2.2
      | recv c uj =>
        refine ⟨_, ⟨h.crashed.trans h0, .inr ⟨i, j, c, v, _, _, hij, hp, hq, by rw [h.chans]; exact hc, by rw [h.chans]; exact hcl, rfl⟩⟩, ?_⟩
        exact ⟨h.nG, h.chans, h.nC, h.wgs, h.nW, h.mem, h.crashed, uptoZ_update (uptoZ_update h.gs i ui) j (uj _ fun x hx => by rw [← Option.some.inj hx]; exact hv), h.sent⟩

/-- If the right program is well behaved and the left one is blocked or has panicked whenever the right one has returned, the left one never
returns. -/
theorem neverReturns_of (h : UptoConfZ Z E S s t) {B : Nat} {I : Conf M V → Prop} (hB : ∀ n t', ReachIn t n t' → n ≤ B ∧ I t')
    (hz : ∀ t, I t → ∀ i c c' f, t.gs i = .recv c' f → Z c c' → (t.chans c).buf = [] ∧ (t.chans c).closed = false ∧ (t.chans c).cap ≠ 0)
    (hret : ∀ u v, UptoConfZ Z E S u v → I v → u.crashed = none → ¬ Returned u 0) : NeverReturns (B + 1) s := by
  intro n s' hr
  have key : (∃ m t', n = m + 1 ∧ ReachIn t m t' ∧ ∃ e, E e ∧ s'.crashed = some e) ∨ ∃ t', ReachIn t n t' ∧ UptoConfZ Z E S s' t' := by
    clear hret
    induction hr with
    | zero => exact .inr ⟨t, .zero, h⟩
    | step hr hs ih =>
      rcases ih with ⟨m, t', rfl, ht, e, he, hc⟩ | ⟨t', ht, hu⟩
      · exact absurd hs.1 (by rw [hc]; simp)
      · rcases hu.step_right (hz t' (hB _ t' ht).2) hs with ⟨e, he, hc⟩ | ⟨t'', h1, h2⟩
        · exact .inl ⟨_, t', rfl, ht, e, he, hc⟩
        · exact .inr ⟨t'', ht.step h1, h2⟩
  rcases key with ⟨m, t', rfl, ht, e, he, hc⟩ | ⟨t', ht, hu⟩
  · have := (hB m t' ht).1
    refine ⟨by omega, fun h => ?_⟩
    rw [hc] at h; cases h
  · have := (hB n t' ht).1
    exact ⟨by omega, hret s' t' hu (hB n t' ht).2⟩

theorem neverReturns_cons {B : Nat} {s s1 : Conf M V} (h : Solo s) (h1 : exec s 0 = some s1) (hB : NeverReturns B s1) :
    NeverReturns (B + 1) s := by
  intro n s' hr
  rcases reachIn_head h h1 hr with ⟨rfl, rfl⟩ | ⟨m, rfl, hm⟩
  · refine ⟨by omega, fun _ => ?_⟩
    rintro ⟨r, hr⟩
    simp [exec, hr] at h1
  · obtain ⟨h2, h3⟩ := hB m s' hm
    exact ⟨by omega, h3⟩

end GkrMimc
