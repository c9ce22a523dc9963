import Verif.Spec.R1cs
import Verif.Proofs.SnarkGkr

/-! Compiling a gadget and running it on values: a simulation. -/

namespace GkrMimc

open Spec

variable {F : Type} [Field F]

/-- All wires of the expression are among the first `n`. -/
def Lin.Below (a : Lin F) (n : Nat) : Prop := ∀ t ∈ a.terms, t.2 < n

def R1C.Below (c : R1C F) (n : Nat) : Prop := c.l.Below n ∧ c.r.Below n ∧ c.o.Below n

theorem Lin.Below.mono {a : Lin F} {n m : Nat} (h : a.Below n) (hm : n ≤ m) : a.Below m := fun t ht => (h t ht).trans_le hm

theorem R1C.Below.mono {c : R1C F} {n m : Nat} (h : c.Below n) (hm : n ≤ m) : c.Below m :=
  ⟨h.1.mono hm, h.2.1.mono hm, h.2.2.mono hm⟩

theorem linValue_agree {a : Lin F} {n : Nat} (h : a.Below n) {w w' : Nat → F} (hw : AgreeTo n w w') : linValue w a = linValue w' a := by
  unfold linValue
  congr 2
  apply List.map_congr_left
  intro t ht
  rw [hw _ (h t ht)]

theorem solves_agree {cs : List (R1C F)} {n : Nat} (h : ∀ c ∈ cs, c.Below n) {w w' : Nat → F} (hw : AgreeTo n w w') :
    Solves w cs ↔ Solves w' cs := by
  unfold Solves
  refine forall₂_congr fun c hc => ?_
  rw [linValue_agree (h c hc).1 hw, linValue_agree (h c hc).2.1 hw, linValue_agree (h c hc).2.2 hw]

theorem Spec.AgreeTo.refl (n : Nat) (w : Nat → F) : AgreeTo n w w := fun _ _ => rfl
theorem Spec.AgreeTo.symm {n : Nat} {w w' : Nat → F} (h : AgreeTo n w w') : AgreeTo n w' w := fun i hi => (h i hi).symm
theorem Spec.AgreeTo.trans {n : Nat} {w w' w'' : Nat → F} (h : AgreeTo n w w') (h' : AgreeTo n w' w'') : AgreeTo n w w'' :=
  fun i hi => (h i hi).trans (h' i hi)
theorem Spec.AgreeTo.mono {n m : Nat} {w w' : Nat → F} (h : AgreeTo m w w') (hn : n ≤ m) : AgreeTo n w w' := fun i hi => h i (by omega)

theorem solves_append (w : Nat → F) (a b : List (R1C F)) : Solves w (a ++ b) ↔ Solves w a ∧ Solves w b := by
  unfold Solves
  simp only [List.mem_append]
  exact ⟨fun h => ⟨fun c hc => h c (.inl hc), fun c hc => h c (.inr hc)⟩, fun h c hc => hc.elim (h.1 c) (h.2 c)⟩

/-- A variable and the value it has. -/
def VRel (n : Nat) (w : Nat → F) (a : Lin F) (x : F) : Prop := a.Below n ∧ linValue w a = x

/-- A list of variables and their values. -/
def VsRel (n : Nat) (w : Nat → F) (as : List (Lin F)) (xs : List F) : Prop := List.Forall₂ (VRel n w) as xs

theorem VRel.mono {n m : Nat} {w w' : Nat → F} {a : Lin F} {x : F} (h : VRel n w a x) (hm : n ≤ m) (hw : AgreeTo n w w') :
    VRel m w' a x := ⟨h.1.mono hm, by rw [← linValue_agree h.1 hw]; exact h.2⟩

theorem VsRel.mono {n m : Nat} {w w' : Nat → F} {a : List (Lin F)} {x : List F} (h : VsRel n w a x) (hm : n ≤ m) (hw : AgreeTo n w w') :
    VsRel m w' a x := List.Forall₂.imp (fun _ _ h => h.mono hm hw) h

/-- From wire `n` on and with values `w` of the wires before, the code `B` makes `g` constraints and `c` assertions and returns
what the gadget `P` returns on the values, or panics as `P` does: the constraints have exactly one solution, and with it the
assertions hold exactly if those of `P` do. -/
def CsSim {α β : Type} (n : Nat) (w : Nat → F) (g c : Nat) (B : Bld F α) (P : Cs F β) (Q : Nat → (Nat → F) → α → β → Prop) : Prop :=
  match B n with
  | .error e => P = .error e
  | .ok (x, m, gs, cs) => n ≤ m ∧ gs.length = g ∧ cs.length = c ∧ (∀ c ∈ gs, c.Below m) ∧ (∀ c ∈ cs, c.Below m) ∧
    ∃ y eqs w', P = .ok (y, eqs) ∧ AgreeTo n w w' ∧ Solves w' gs ∧ (Solves w' cs ↔ ∀ e ∈ eqs, e.1 = e.2) ∧
      (∀ v, AgreeTo n w v → Solves v gs → AgreeTo m w' v) ∧ Q m w' x y

instance : LawfulMonad (Bld F) := LawfulMonad.mk'
  (id_map := by
    intro α x
    funext n
    change Bld.bind x (fun a => Bld.pure a) n = x n
    unfold Bld.bind Bld.pure
    cases x n with
    | error e => rfl
    | ok r => simp)
  (pure_bind := by
    intro α β a f
    funext n
    change Bld.bind (Bld.pure a) f n = f a n
    unfold Bld.bind Bld.pure
    dsimp only
    cases f a n with
    | error e => rfl
    | ok r => rfl)
  (bind_assoc := by
    intro α β γ x f g
    funext n
    change Bld.bind (Bld.bind x f) g n = Bld.bind x (fun a => Bld.bind (f a) g) n
    unfold Bld.bind
    cases x n with
    | error e => rfl
    | ok r =>
      obtain ⟨a, m, gs, cs⟩ := r
      dsimp only
      cases f a m with
      | error e => rfl
      | ok r =>
        obtain ⟨b, m, gs', cs'⟩ := r
        dsimp only
        cases g b m with
        | error e => rfl
        | ok r => simp only [List.append_assoc])

variable {α β α' β' : Type} {n : Nat} {w : Nat → F} {g g' c c' : Nat}

theorem CsSim.pure {Q : Nat → (Nat → F) → α → β → Prop} {x : α} {y : β} (h : Q n w x y) :
    CsSim n w 0 0 (Pure.pure x : Bld F α) (Pure.pure y : Cs F β) Q := by
  refine ⟨le_refl _, rfl, rfl, by simp, by simp, y, [], w, rfl, AgreeTo.refl _ _, by simp [Solves], by simp [Solves], ?_, h⟩
  intro v hv _
  exact hv

theorem CsSim.error {Q : Nat → (Nat → F) → α → β → Prop} (e : Abort) {B : Bld F α} {P : Cs F β} (hB : B n = .error e)
    (hP : P = .error e) : CsSim n w g c B P Q := by
  unfold CsSim
  rw [hB]
  exact hP

theorem CsSim.bind {Q : Nat → (Nat → F) → α → β → Prop} {Q' : Nat → (Nat → F) → α' → β' → Prop} {B : Bld F α} {P : Cs F β}
    {f : α → Bld F α'} {k : β → Cs F β'} (h : CsSim n w g c B P Q)
    (hf : ∀ m w' x y, n ≤ m → AgreeTo n w w' → Q m w' x y → CsSim m w' g' c' (f x) (k y) Q') :
    CsSim n w (g + g') (c + c') (B >>= f) (P >>= k) Q' := by
  unfold CsSim at h
  have hB : (B >>= f) n = match B n with
    | .error e => .error e
    | .ok (a, n, gs, cs) =>
      match f a n with
      | .error e => .error e
      | .ok (b, n, gs', cs') => .ok (b, n, gs ++ gs', cs ++ cs') := rfl
  have hP : (P >>= k) = Cs.bind P k := rfl
  unfold Cs.bind at hP
  cases hb : B n with
  | error e =>
    rw [hb] at hB h
    exact CsSim.error e hB (by rw [hP, show P = .error e from h])
  | ok r =>
    obtain ⟨x, m, gs, cs⟩ := r
    rw [hb] at hB h
    obtain ⟨hnm, hg, hc, hgb, hcb, y, eqs, w', hPy, hw, hgs, hcs, hu, hQ⟩ := h
    have h2 := hf m w' x y hnm hw hQ
    unfold CsSim at h2
    subst hPy
    dsimp only at hP hB
    cases hb2 : f x m with
    | error e =>
      rw [hb2] at hB h2
      exact CsSim.error e hB (by rw [hP, show k y = .error e from h2])
    | ok r2 =>
      obtain ⟨x2, m2, gs2, cs2⟩ := r2
      rw [hb2] at hB h2
      obtain ⟨hnm2, hg2, hc2, hgb2, hcb2, y2, eqs2, w2, hPy2, hw2, hgs2, hcs2, hu2, hQ2⟩ := h2
      unfold CsSim
      rw [hB]
      refine ⟨hnm.trans hnm2, by rw [List.length_append, hg, hg2], by rw [List.length_append, hc, hc2], ?_, ?_, y2, eqs ++ eqs2, w2,
        ?_, hw.trans (hw2.mono hnm), ?_, ?_, ?_, hQ2⟩
      · intro c hc
        exact (List.mem_append.1 hc).elim (fun h => (hgb c h).mono hnm2) (hgb2 c)
      · intro c hc
        exact (List.mem_append.1 hc).elim (fun h => (hcb c h).mono hnm2) (hcb2 c)
      · rw [hP, show k y = .ok (y2, eqs2) from hPy2]
      · rw [solves_append]
        exact ⟨(solves_agree hgb hw2).1 hgs, hgs2⟩
      · rw [solves_append, hcs2, ← solves_agree hcb hw2, hcs]
        simp only [List.mem_append]
        exact ⟨fun h e he => he.elim (h.1 e) (h.2 e), fun h => ⟨fun e he => h e (.inl he), fun e he => h e (.inr he)⟩⟩
      · intro v hv hvs
        rw [solves_append] at hvs
        exact hu2 v (hu v hv hvs.1) hvs.2

/-- The bind lemma with the costs as equations. -/
theorem CsSim.bind' {G C : Nat} {Q : Nat → (Nat → F) → α → β → Prop} {Q' : Nat → (Nat → F) → α' → β' → Prop} {B : Bld F α} {P : Cs F β}
    {f : α → Bld F α'} {k : β → Cs F β'} (h : CsSim n w g c B P Q)
    (hf : ∀ m w' x y, n ≤ m → AgreeTo n w w' → Q m w' x y → CsSim m w' g' c' (f x) (k y) Q') (hG : g + g' = G) (hC : c + c' = C) :
    CsSim n w G C (B >>= f) (P >>= k) Q' := hG ▸ hC ▸ h.bind hf

theorem CsSim.imp {Q Q' : Nat → (Nat → F) → α → β → Prop} {B : Bld F α} {P : Cs F β} (h : CsSim n w g c B P Q)
    (hQ : ∀ m w' x y, n ≤ m → AgreeTo n w w' → Q m w' x y → Q' m w' x y) : CsSim n w g c B P Q' := by
  unfold CsSim at h ⊢
  cases hb : B n with
  | error e => rw [hb] at h; exact h
  | ok r =>
    obtain ⟨x, m, gs, cs⟩ := r
    rw [hb] at h
    obtain ⟨hnm, hg, hc, hgb, hcb, y, eqs, w', hPy, hw, hgs, hcs, hu, hq⟩ := h
    exact ⟨hnm, hg, hc, hgb, hcb, y, eqs, w', hPy, hw, hgs, hcs, hu, hQ m w' x y hnm hw hq⟩

/-- Go code that does the same on both sides. -/
theorem CsSim.go {Q : Nat → (Nat → F) → α → β → Prop} {x : Go α} {y : Go β}
    (h : (∃ e, x = .error e ∧ y = .error e) ∨ ∃ a b, x = .ok a ∧ y = .ok b ∧ Q n w a b) : CsSim n w 0 0 (Bld.go x) (Cs.go y) Q := by
  rcases h with ⟨e, rfl, rfl⟩ | ⟨a, b, rfl, rfl, h⟩
  · exact CsSim.error e rfl rfl
  · exact CsSim.pure h

theorem linValue_const (w : Nat → F) (x : F) : linValue w (Lin.ofConst x) = x := by simp [linValue, Lin.ofConst]
theorem linValue_wire (w : Nat → F) (i : Nat) : linValue w (Lin.wire i) = w i := by simp [linValue, Lin.wire]
theorem linValue_add (w : Nat → F) (a b : Lin F) : linValue w (a.add b) = linValue w a + linValue w b := by
  simp [linValue, Lin.add]; ring
theorem linValue_sub (w : Nat → F) (a b : Lin F) : linValue w (a.sub b) = linValue w a - linValue w b := by
  have : ((b.terms.map fun t => (-t.1, t.2)).map fun t => t.1 * w t.2).sum = - (b.terms.map fun t => t.1 * w t.2).sum := by
    induction b.terms with
    | nil => simp
    | cons t ts ih => simp only [List.map_cons, List.sum_cons, ih]; ring
  unfold linValue Lin.sub
  rw [List.map_append, List.sum_append, this]
  ring

theorem VRel.const (n : Nat) (w : Nat → F) (x : F) : VRel n w (Lin.ofConst x) (csConst x) :=
  ⟨fun t ht => by simp [Lin.ofConst] at ht, linValue_const w x⟩

theorem VRel.add {a b : Lin F} {x y : F} (ha : VRel n w a x) (hb : VRel n w b y) : VRel n w (a.add b) (csAdd x y) := by
  refine ⟨fun t ht => ?_, by rw [linValue_add, ha.2, hb.2]; rfl⟩
  exact (List.mem_append.1 ht).elim (ha.1 t) (hb.1 t)

theorem VRel.adds {a b : Lin F} {x y : F} {l : List (Lin F)} {xs : List F} (ha : VRel n w a x) (hb : VRel n w b y)
    (hl : VsRel n w l xs) : VRel n w (a.adds b l) (csAdd x y xs) := by
  unfold Lin.adds csAdd
  have h := ha.add hb
  unfold csAdd at h
  simp only [List.foldl_nil] at h
  revert h
  generalize a.add b = s
  generalize x + y = z
  intro h
  unfold VsRel at hl
  induction hl generalizing s z with
  | nil => exact h
  | cons h1 _ ih => exact ih _ _ (h.add h1)

theorem VRel.sub {a b : Lin F} {x y : F} (ha : VRel n w a x) (hb : VRel n w b y) : VRel n w (a.sub b) (csSub x y) := by
  refine ⟨fun t ht => ?_, by rw [linValue_sub, ha.2, hb.2]; rfl⟩
  rcases List.mem_append.1 ht with h | h
  · exact ha.1 t h
  · obtain ⟨u, hu, rfl⟩ := List.mem_map.1 h
    exact hb.1 u hu

theorem CsSim.mul {a b : Lin F} {x y : F} (ha : VRel n w a x) (hb : VRel n w b y) :
    CsSim n w 1 0 (Bld.mul a b) (Pure.pure (csMul x y) : Cs F F) VRel := by
  have hw : AgreeTo n w (Function.update w n (x * y)) := fun i hi => by
    rw [Function.update_of_ne (by omega)]
  have hbl : (Lin.wire n : Lin F).Below (n + 1) := fun t ht => by
    simp [Lin.wire] at ht; subst ht; exact Nat.lt_succ_self n
  refine ⟨Nat.le_succ n, rfl, rfl, ?_, by simp, csMul x y, [], Function.update w n (x * y), rfl, hw, ?_, by simp [Solves], ?_, hbl, ?_⟩
  · intro c hc
    rw [List.mem_singleton.1 hc]
    exact ⟨ha.1.mono (Nat.le_succ n), hb.1.mono (Nat.le_succ n), hbl⟩
  · intro c hc
    rw [List.mem_singleton.1 hc]
    dsimp only
    rw [← linValue_agree ha.1 hw, ← linValue_agree hb.1 hw, ha.2, hb.2, linValue_wire, Function.update_self]
  · intro v hv hs i hi
    rcases Nat.lt_succ_iff_lt_or_eq.1 hi with h | rfl
    · rw [Function.update_of_ne (by omega), hv i h]
    · have := hs _ (List.mem_singleton_self _)
      dsimp only at this
      rw [← linValue_agree ha.1 hv, ← linValue_agree hb.1 hv, ha.2, hb.2, linValue_wire] at this
      rw [Function.update_self, this]
  · rw [linValue_wire, Function.update_self]; rfl

theorem CsSim.assert {a b : Lin F} {x y : F} (ha : VRel n w a x) (hb : VRel n w b y) :
    CsSim n w 0 1 (Bld.assertIsEqual a b) (Cs.assertIsEqual x y) (fun _ _ _ _ => True) := by
  refine ⟨le_refl _, rfl, rfl, by simp, ?_, (), [(x, y)], w, rfl, AgreeTo.refl _ _, by simp [Solves], ?_, fun v hv _ => hv, trivial⟩
  · intro c hc
    rw [List.mem_singleton.1 hc]
    exact ⟨ha.1, (VRel.const n w 1).1, hb.1⟩
  · unfold Solves
    simp [linValue_const, ha.2, hb.2]

/-! ### Slices -/

theorem VsRel.length {l : List (Lin F)} {xs : List F} (h : VsRel n w l xs) : l.length = xs.length := List.Forall₂.length_eq h

theorem goIdx_rel {R : α → β → Prop} {l : List α} {xs : List β} (h : List.Forall₂ R l xs) (i : Nat) :
    (∃ e, idx l i = .error e ∧ idx xs i = .error e) ∨ ∃ a b, idx l i = .ok a ∧ idx xs i = .ok b ∧ R a b := by
  by_cases hi : i < l.length
  · refine .inr ⟨l[i], xs[i]'(h.length_eq ▸ hi), idx_ok hi, idx_ok _, ?_⟩
    exact List.Forall₂.get h hi (h.length_eq ▸ hi)
  · refine .inl ⟨.index, ?_, ?_⟩
    · unfold idx; rw [List.getElem?_eq_none (by omega)]
    · unfold idx; rw [List.getElem?_eq_none (by rw [← h.length_eq]; omega)]

theorem goSet_rel {R : α → β → Prop} {l : List α} {xs : List β} (h : List.Forall₂ R l xs) (i : Nat) {a : α} {b : β} (hab : R a b) :
    (∃ e, setIdx l i a = .error e ∧ setIdx xs i b = .error e) ∨
      ∃ l' xs', setIdx l i a = .ok l' ∧ setIdx xs i b = .ok xs' ∧ (List.Forall₂ R l' xs' ∧ l'.length = l.length) := by
  unfold setIdx
  rw [← h.length_eq]
  by_cases hi : i < l.length
  · rw [if_pos hi, if_pos hi]
    refine .inr ⟨_, _, rfl, rfl, ?_, by simp⟩
    induction h generalizing i with
    | nil => simp
    | cons h1 h2 ih =>
      cases i with
      | zero => exact .cons hab h2
      | succ i => exact .cons h1 (ih i (by simpa using hi))
  · rw [if_neg hi, if_neg hi]
    exact .inl ⟨_, rfl, rfl⟩

theorem goTo_rel {R : α → β → Prop} {l : List α} {xs : List β} (h : List.Forall₂ R l xs) (k : Nat) :
    (∃ e, sliceTo l k = .error e ∧ sliceTo xs k = .error e) ∨
      ∃ l' xs', sliceTo l k = .ok l' ∧ sliceTo xs k = .ok xs' ∧ (List.Forall₂ R l' xs' ∧ l'.length = k) := by
  unfold sliceTo
  rw [← h.length_eq]
  by_cases hi : k ≤ l.length
  · rw [if_pos hi, if_pos hi]
    exact .inr ⟨_, _, rfl, rfl, List.forall₂_take k h, by simp [hi]⟩
  · rw [if_neg hi, if_neg hi]
    exact .inl ⟨_, rfl, rfl⟩

theorem goFrom_rel {R : α → β → Prop} {l : List α} {xs : List β} (h : List.Forall₂ R l xs) (k : Nat) :
    (∃ e, sliceFrom l k = .error e ∧ sliceFrom xs k = .error e) ∨
      ∃ l' xs', sliceFrom l k = .ok l' ∧ sliceFrom xs k = .ok xs' ∧ (List.Forall₂ R l' xs' ∧ l'.length = l.length - k) := by
  unfold sliceFrom
  rw [← h.length_eq]
  by_cases hi : k ≤ l.length
  · rw [if_pos hi, if_pos hi]
    exact .inr ⟨_, _, rfl, rfl, List.forall₂_drop k h, by simp⟩
  · rw [if_neg hi, if_neg hi]
    exact .inl ⟨_, rfl, rfl⟩

theorem goBetween_rel {R : α → β → Prop} {l : List α} {xs : List β} (h : List.Forall₂ R l xs) (a b : Nat) :
    (∃ e, sliceBetween l a b = .error e ∧ sliceBetween xs a b = .error e) ∨
      ∃ l' xs', sliceBetween l a b = .ok l' ∧ sliceBetween xs a b = .ok xs' ∧ (List.Forall₂ R l' xs' ∧ l'.length = b - a) := by
  unfold sliceBetween
  rw [← h.length_eq]
  by_cases hi : a ≤ b ∧ b ≤ l.length
  · rw [if_pos hi, if_pos hi]
    exact .inr ⟨_, _, rfl, rfl, List.forall₂_drop a (List.forall₂_take b h), by simp [hi.2]⟩
  · rw [if_neg hi, if_neg hi]
    exact .inl ⟨_, rfl, rfl⟩

/-! ### Loops -/

/-- A loop over two lists of related elements; the cost of an element may depend on it, and `Q` on the number of rounds. -/
theorem CsSim.foldlM {ι κ : Type} {Q : Nat → Nat → (Nat → F) → α → β → Prop} (E : Nat → (Nat → F) → ι → κ → Prop)
    (hE : ∀ {n m w w' x y}, E n w x y → n ≤ m → AgreeTo n w w' → E m w' x y) (gc cc : ι → Nat)
    {f : α → ι → Bld F α} {k : β → κ → Cs F β}
    (hf : ∀ r n w x y i j, Q r n w x y → E n w i j → CsSim n w (gc i) (cc i) (f x i) (k y j) (Q (r + 1))) :
    ∀ (l : List ι) (l' : List κ) (r n : Nat) (w : Nat → F) (x : α) (y : β), List.Forall₂ (E n w) l l' → Q r n w x y →
      CsSim n w (l.map gc).sum (l.map cc).sum (l.foldlM f x) (l'.foldlM k y) (Q (r + l.length)) := by
  intro l
  induction l with
  | nil =>
    intro l' r n w x y h hQ
    cases h
    exact CsSim.pure hQ
  | cons i l ih =>
    intro l' r n w x y h hQ
    cases h with
    | cons h1 h2 =>
      rw [List.foldlM_cons, List.foldlM_cons, List.map_cons, List.map_cons, List.sum_cons, List.sum_cons, List.length_cons,
        Nat.add_comm l.length 1, ← Nat.add_assoc]
      refine (hf r n w x y _ _ hQ h1).bind fun m w' x' y' hm hw hQ' => ?_
      exact ih _ (r + 1) m w' x' y' (h2.imp fun _ _ h => hE h hm hw) hQ'

/-- A loop with a counter. `Q` may depend on the number of rounds. -/
theorem CsSim.forN {Q : Nat → Nat → (Nat → F) → α → β → Prop} (N : Nat) (gc : Nat → Nat) (cc : Nat → Nat)
    {f : Nat → α → Bld F α} {k : Nat → β → Cs F β}
    (hf : ∀ i < N, ∀ m w' x y, n ≤ m → AgreeTo n w w' → Q i m w' x y → CsSim m w' (gc i) (cc i) (f i x) (k i y) (Q (i + 1))) {x : α} {y : β}
    (h : Q 0 n w x y) :
    CsSim n w ((List.range N).map gc).sum ((List.range N).map cc).sum (Bld.forN N x f) (Cs.forN N y k) (Q N) := by
  unfold Bld.forN Cs.forN
  induction N with
  | zero => exact CsSim.pure h
  | succ N ih =>
    rw [List.range_succ, List.foldlM_append, List.foldlM_append, List.map_append, List.map_append, List.sum_append, List.sum_append]
    refine (ih fun i hi => hf i (by omega)).bind fun m w' x' y' hm hw hQ => ?_
    have h1 : ∀ s : α, List.foldlM (fun s i => f i s) s [N] = f N s := fun s => by
      rw [List.foldlM_cons]
      simp
    have h2 : ∀ s : β, List.foldlM (fun s i => k i s) s [N] = k N s := fun s => by
      rw [List.foldlM_cons]
      simp
    rw [h1, h2]
    simpa using hf N (Nat.lt_succ_self N) m w' x' y' hm hw hQ

/-- The same with constant cost. -/
theorem CsSim.forN_const {Q : Nat → Nat → (Nat → F) → α → β → Prop} (N : Nat) {G C gc cc : Nat}
    {f : Nat → α → Bld F α} {k : Nat → β → Cs F β}
    (hf : ∀ i < N, ∀ m w' x y, n ≤ m → AgreeTo n w w' → Q i m w' x y → CsSim m w' gc cc (f i x) (k i y) (Q (i + 1))) {x : α} {y : β}
    (h : Q 0 n w x y) (hG : N * gc = G) (hC : N * cc = C) :
    CsSim n w G C (Bld.forN N x f) (Cs.forN N y k) (Q N) := by
  have := CsSim.forN (Q := Q) N (fun _ => gc) (fun _ => cc) hf h
  simpa [hG, hC] using this

end GkrMimc
