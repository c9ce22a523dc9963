import Verif.Spec.Race
import Verif.Proofs.Conc
import Mathlib.Data.DFinsupp.WellFounded
import Mathlib.Data.Set.Basic

/-!
A program over shared memory, with single accesses as steps, simulates a program over values: every goroutine owns a set of
arrays, ownership moves with the messages.
-/

namespace GkrMimc

open Spec

variable {F M V V' : Type}

/-- The arrays of `A` have the same cells in `h'` and are allocated there. -/
def Agree (A : Set Nat) (h h' : Heap F) : Prop := ∀ a ∈ A, h'.cells a = h.cells a ∧ a < h'.next

theorem Agree.trans {A : Set Nat} {h1 h2 h3 : Heap F} (a : Agree A h1 h2) (b : Agree A h2 h3) : Agree A h1 h3 :=
  fun x hx => ⟨(b x hx).1.trans (a x hx).1, (b x hx).2⟩

theorem Agree.mono {A B : Set Nat} {h1 h2 : Heap F} (a : Agree A h1 h2) (s : B ⊆ A) : Agree B h1 h2 := fun x hx => a x (s hx)

/-- A goroutine that owns the arrays of `own` may make this access; `ro` are arrays that nobody writes. -/
def Allowed (ro own : Set Nat) : Access → Prop
  | .read a _ => a ∈ own ∪ ro
  | .write a _ => a ∈ own
  | .alloc => True

/-- The value program is about to panic, or `Q` holds whatever the others do to the arrays they own. -/
def Under (ro : Set Nat) (p : Prog M V') (own : Set Nat) (h : Heap F) (Q : Heap F → Prop) : Prop :=
  (∃ e, p = .crash e) ∨ ∀ h', Agree (own ∪ ro) h h' → Q h'

/-- `P`, which owns the arrays of `own` in memory `h`, behaves as `p`. `MR o h v v'`: message `v`, with the arrays of `o`, stands
for `v'`. -/
def GR (MR : Set Nat → Heap F → V → V' → Prop) (ro : Set Nat) : Prog (Heap F) V → Prog M V' → Set Nat → Heap F → Prop
  | .ret r, p, own, h => Under ro p own h fun h' => ∃ r', p = .ret r' ∧ MR own h' r r'
  | .crash _, p, _, _ => ∃ e, p = .crash e
  | .make cap K, p, own, h => Under ro p own h fun h' => ∃ k, p = .make cap k ∧ ∀ n, GR MR ro (K n) (k n) own h'
  | .send c v K, p, own, h => Under ro p own h fun h' =>
      ∃ v' k, p = .send c v' k ∧ ∃ o ⊆ own, MR o h' v v' ∧ GR MR ro K k (own \ o) h'
  | .recv c K, p, own, h => Under ro p own h fun h' =>
      ∃ k, p = .recv c k ∧ GR MR ro (K none) (k none) own h' ∧
        ∀ o v v', Disjoint o (own ∪ ro) → (∀ a ∈ o, a < h'.next) → MR o h' v v' →
          GR MR ro (K (some v)) (k (some v')) (own ∪ o) h'
  | .close c K, p, own, h => Under ro p own h fun h' => ∃ k, p = .close c k ∧ GR MR ro K k own h'
  | .go P K, p, own, h => Under ro p own h fun h' =>
      ∃ p' k, p = .go p' k ∧ ∃ o ⊆ own, GR MR ro P p' o h' ∧ GR MR ro K k (own \ o) h'
  | .wgNew n K, p, own, h => Under ro p own h fun h' => ∃ k, p = .wgNew n k ∧ ∀ w, GR MR ro (K w) (k w) own h'
  | .wgDone w K, p, own, h => Under ro p own h fun h' => ∃ k, p = .wgDone w k ∧ GR MR ro K k own h'
  | .wgWait w K, p, own, h => Under ro p own h fun h' => ∃ k, p = .wgWait w k ∧ GR MR ro K k own h'
  | .act _ _, p, _, _ => ∃ e, p = .crash e
  | .mem a f K, p, own, h => Under ro p own h fun h' =>
      Allowed ro own a ∧ h'.next ≤ (f h').next ∧ (∀ b ∉ own, b < h'.next → (f h').cells b = h'.cells b) ∧
      ∃ own', (∀ b ∈ own', b ∈ own ∨ h'.next ≤ b) ∧ (∀ b ∈ own', b < (f h').next) ∧ GR MR ro (K h') p own' (f h')

variable {MR : Set Nat → Heap F → V → V' → Prop} {ro : Set Nat}

theorem GR.crash {P : Prog (Heap F) V} {e : Abort} {own : Set Nat} {h : Heap F} :
    GR MR ro P (.crash e : Prog M V') own h := by
  cases P <;> first | exact .inl ⟨e, rfl⟩ | exact ⟨e, rfl⟩

theorem Under.agree {p : Prog M V'} {own : Set Nat} {h h' : Heap F} {Q : Heap F → Prop} (u : Under ro p own h Q)
    (a : Agree (own ∪ ro) h h') : Under ro p own h' Q := u.imp_right fun u x hx => u x (a.trans hx)

theorem GR.agree {P : Prog (Heap F) V} {p : Prog M V'} {own : Set Nat} {h h' : Heap F} (g : GR MR ro P p own h)
    (a : Agree (own ∪ ro) h h') : GR MR ro P p own h' := by
  cases P <;> first | exact Under.agree g a | exact g

/-! ### Configurations -/

/-- Who owns an array: nobody, all (read only), goroutine `i`, or message `n` of channel `c`. -/
inductive Owner where
  | free
  | ro
  | g (i : Nat)
  | m (c n : Nat)

/-- Configuration `s` over memory stands for configuration `t` over values. -/
structure CR (MR : Set Nat → Heap F → V → V' → Prop) (ro W : Set Nat) (h0 : Heap F) (s : Conf (Heap F) V) (t : Conf M V')
    (ow : Nat → Owner) (hd : Nat → Nat) : Prop where
  nG : s.nG = t.nG
  nC : s.nC = t.nC
  wgs : s.wgs = t.wgs
  nW : s.nW = t.nW
  alive : s.crashed = none
  alive' : t.crashed = none
  cap : ∀ c, (s.chans c).cap = (t.chans c).cap
  closed : ∀ c, (s.chans c).closed = (t.chans c).closed
  len : ∀ c, (s.chans c).buf.length = (t.chans c).buf.length
  msgs : ∀ c j v v', (s.chans c).buf[j]? = some v → (t.chans c).buf[j]? = some v' → MR {a | ow a = .m c (hd c + j)} s.mem v v'
  progs : ∀ i, GR MR ro (s.gs i) (t.gs i) {a | ow a = .g i} s.mem
  rest : ∀ i, s.nG ≤ i → ∃ r, s.gs i = .ret r
  ro : ∀ a, a ∈ ro ↔ ow a = .ro
  idle : ∀ a i, ow a = .g i → i < s.nG
  flight : ∀ a c n, ow a = .m c n → n < hd c + (s.chans c).buf.length
  alloc : ∀ a, ow a ≠ .free → a < s.mem.next
  next : h0.next ≤ s.mem.next
  frame : ∀ a < h0.next, a ∉ W → s.mem.cells a = h0.cells a ∧ (ow a = .free ∨ ow a = .ro)

/-- `MR` looks only at the arrays of the message. -/
def StableMsg (MR : Set Nat → Heap F → V → V' → Prop) : Prop := ∀ o h h' v v', MR o h v v' → Agree o h h' → MR o h' v v'

variable {W : Set Nat} {h0 : Heap F} {s s' : Conf (Heap F) V} {t : Conf M V'} {ow : Nat → Owner} {hd : Nat → Nat}

theorem CR.agree_refl (c : CR MR ro W h0 s t ow hd) (i : Nat) : Agree ({a | ow a = .g i} ∪ ro) s.mem s.mem := by
  intro a ha
  refine ⟨rfl, c.alloc a ?_⟩
  rcases ha with ha | ha
  · rw [show ow a = .g i from ha]; intro e; cases e
  · rw [(c.ro a).1 ha]; intro e; cases e

theorem Under.get {p : Prog M V'} {own : Set Nat} {h : Heap F} {Q : Heap F → Prop} (u : Under ro p own h Q)
    (hp : ∀ e, p ≠ .crash e) (a : Agree (own ∪ ro) h h) : Q h := by
  rcases u with ⟨e, he⟩ | u
  · exact absurd he (hp e)
  · exact u h a

/-- The value configuration is not about to panic. -/
def NoCrash (t : Conf M V') : Prop := ∀ t', Step t t' → t'.crashed = none

theorem NoCrash.prog (h : NoCrash t) (ha : t.crashed = none) (i : Nat) (e : Abort) : t.gs i ≠ .crash e := by
  intro hc
  have := h (t.panic e) ⟨ha, .inl ⟨i, by simp [exec, hc]⟩⟩
  cases this

/-- The arrays of the other goroutines do not change hands. -/
theorem set_other {ow' : Nat → Owner} {j : Nat} (h : ∀ a, ow' a = .g j ↔ ow a = .g j) :
    {a | ow' a = .g j} = {a | ow a = .g j} := Set.ext h

theorem CR.lt_nG (c : CR MR ro W h0 s t ow hd) {i : Nat} (h : ∀ r, s.gs i ≠ .ret r) : i < s.nG := by
  by_contra hc
  obtain ⟨r, hr⟩ := c.rest i (by omega)
  exact h r hr

/-- Goroutine `i` alone changes; nothing else. -/
theorem CR.local (c : CR MR ro W h0 s t ow hd) {i : Nat} {P : Prog (Heap F) V} {p : Prog M V'} (hi : i < s.nG)
    (g : GR MR ro P p {a | ow a = .g i} s.mem) : CR MR ro W h0 (s.goOn i P) (t.goOn i p) ow hd := by
  refine { c with progs := ?_, rest := ?_ }
  · intro j
    by_cases hj : j = i
    · subst hj; simpa [Conf.goOn] using g
    · simpa [Conf.goOn, hj] using c.progs j
  · intro j hj
    have : j ≠ i := by rintro rfl; exact absurd hj (by simpa [Conf.goOn] using hi)
    simpa [Conf.goOn, this] using c.rest j hj

theorem CR.make (c : CR MR ro W h0 s t ow hd) {i cap : Nat} {P : Prog (Heap F) V} {p : Prog M V'} (hi : i < s.nG)
    (g : GR MR ro P p {a | ow a = .g i} s.mem) :
    CR MR ro W h0 { s.setChan s.nC ⟨[], cap, false⟩ with gs := Function.update s.gs i P, nC := s.nC + 1 }
      { t.setChan t.nC ⟨[], cap, false⟩ with gs := Function.update t.gs i p, nC := t.nC + 1 } ow
      (Function.update hd s.nC (hd s.nC + (s.chans s.nC).buf.length)) := by
  have c' := c.local hi g
  have e := c.nC
  refine { c' with nC := by simp [e], cap := ?_, closed := ?_, len := ?_, msgs := ?_, flight := ?_ }
  · intro x
    by_cases hx : x = s.nC
    · subst hx; simp [Conf.setChan, ← e]
    · simpa [Conf.setChan, ← e, hx] using c.cap x
  · intro x
    by_cases hx : x = s.nC
    · subst hx; simp [Conf.setChan, ← e]
    · simpa [Conf.setChan, ← e, hx] using c.closed x
  · intro x
    by_cases hx : x = s.nC
    · subst hx; simp [Conf.setChan, ← e]
    · simpa [Conf.setChan, ← e, hx] using c.len x
  · intro x j v v'
    by_cases hx : x = s.nC
    · subst hx; simp [Conf.setChan, ← e]
    · simpa [Conf.setChan, ← e, hx] using c.msgs x j v v'
  · intro a x n ha
    have := c.flight a x n ha
    by_cases hx : x = s.nC
    · subst hx; simpa [Conf.setChan] using this
    · simpa [Conf.setChan, hx] using this

open Classical in
theorem CR.send (c : CR MR ro W h0 s t ow hd) {i x : Nat} {v : V} {v' : V'} {P : Prog (Heap F) V} {p : Prog M V'}
    (hi : i < s.nG) {o : Set Nat} (ho : o ⊆ {a | ow a = .g i}) (hm : MR o s.mem v v')
    (g : GR MR ro P p ({a | ow a = .g i} \ o) s.mem) :
    CR MR ro W h0 ((s.setChan x { s.chans x with buf := (s.chans x).buf ++ [v] }).goOn i P)
      ((t.setChan x { t.chans x with buf := (t.chans x).buf ++ [v'] }).goOn i p)
      (fun a => if a ∈ o then .m x (hd x + (s.chans x).buf.length) else ow a) hd := by
  have hog : ∀ a ∈ o, ow a = .g i := fun a ha => ho ha
  refine { c with
    cap := ?_, closed := ?_, len := ?_, msgs := ?_, progs := ?_, rest := ?_, ro := ?_, idle := ?_, flight := ?_
    alloc := ?_, frame := ?_ }
  · intro y
    by_cases hy : y = x
    · subst hy; simpa [Conf.setChan, Conf.goOn] using c.cap y
    · simpa [Conf.setChan, Conf.goOn, hy] using c.cap y
  · intro y
    by_cases hy : y = x
    · subst hy; simpa [Conf.setChan, Conf.goOn] using c.closed y
    · simpa [Conf.setChan, Conf.goOn, hy] using c.closed y
  · intro y
    by_cases hy : y = x
    · subst hy; simpa [Conf.setChan, Conf.goOn] using c.len y
    · simpa [Conf.setChan, Conf.goOn, hy] using c.len y
  · intro y j w w' h1 h2
    change MR _ s.mem w w'
    by_cases hy : y = x
    · subst hy
      simp only [Conf.setChan, Conf.goOn, Function.update_self] at h1 h2
      by_cases hj : j < (s.chans y).buf.length
      · rw [List.getElem?_append_left hj] at h1
        rw [List.getElem?_append_left (by rw [← c.len y]; exact hj)] at h2
        have := c.msgs y j w w' h1 h2
        convert this using 1
        ext a
        simp only [Set.mem_ofPred_eq]
        by_cases ha : a ∈ o
        · simp only [ha, if_true, hog a ha]
          constructor
          · intro e; injection e; omega
          · intro e; cases e
        · simp [ha]
      · have hj' : j = (s.chans y).buf.length := by
          have := (List.getElem?_eq_some_iff.1 h1).1
          simp at this; omega
        subst hj'
        rw [List.getElem?_append_right le_rfl] at h1
        rw [List.getElem?_append_right (by rw [c.len y])] at h2
        simp [c.len y] at h1 h2
        subst h1 h2
        convert hm using 1
        ext a
        simp only [Set.mem_ofPred_eq]
        by_cases ha : a ∈ o
        · simp [ha]
        · simp only [ha, if_false, iff_false]
          intro e
          have := c.flight a y _ e
          omega
    · simp only [Conf.setChan, Conf.goOn, Function.update_of_ne hy] at h1 h2
      have := c.msgs y j w w' h1 h2
      convert this using 1
      ext a
      simp only [Set.mem_ofPred_eq]
      by_cases ha : a ∈ o
      · simp only [ha, if_true, hog a ha]
        constructor
        · intro e; injection e with e _; exact absurd e.symm hy
        · intro e; cases e
      · simp [ha]
  · intro j
    by_cases hj : j = i
    · subst hj
      simp only [Conf.goOn, Conf.setChan, Function.update_self]
      convert g using 1
      ext a
      by_cases ha : a ∈ o <;> simp [ha]
    · simp only [Conf.goOn, Conf.setChan, Function.update_of_ne hj]
      convert c.progs j using 1
      ext a
      by_cases ha : a ∈ o
      · simp only [Set.mem_ofPred_eq, ha, if_true, hog a ha]
        constructor
        · intro e; cases e
        · intro e; injection e with e; exact absurd e.symm hj
      · simp [ha]
  · intro j hj
    have : j ≠ i := by rintro rfl; exact absurd hj (by simpa [Conf.goOn, Conf.setChan] using hi)
    simpa [Conf.goOn, Conf.setChan, this] using c.rest j hj
  · intro a
    rw [c.ro a]
    by_cases ha : a ∈ o
    · simp [ha, hog a ha]
    · simp [ha]
  · intro a j ha
    by_cases hao : a ∈ o
    · simp [hao] at ha
    · exact c.idle a j (by simpa [hao] using ha)
  · intro a y n ha
    by_cases hao : a ∈ o
    · simp only [hao, if_true, Owner.m.injEq] at ha
      obtain ⟨rfl, rfl⟩ := ha
      simp [Conf.goOn, Conf.setChan]
    · simp only [hao, if_false] at ha
      have := c.flight a y n ha
      by_cases hy : y = x
      · subst hy; simp [Conf.goOn, Conf.setChan]; omega
      · simpa [Conf.goOn, Conf.setChan, hy] using this
  · intro a ha
    by_cases hao : a ∈ o
    · exact c.alloc a (by rw [hog a hao]; intro e; cases e)
    · exact c.alloc a (by simpa [hao] using ha)
  · intro a ha hw
    obtain ⟨h1, h2⟩ := c.frame a ha hw
    refine ⟨h1, ?_⟩
    have : a ∉ o := by
      intro hao
      rw [hog a hao] at h2
      rcases h2 with h2 | h2 <;> cases h2
    simpa [this] using h2

open Classical in
theorem CR.recv (c : CR MR ro W h0 s t ow hd) {i x : Nat} {v : V} {v' : V'} {rest : List V} {rest' : List V'}
    {P : Prog (Heap F) V} {p : Prog M V'}
    (hi : i < s.nG) (e1 : (s.chans x).buf = v :: rest) (e2 : (t.chans x).buf = v' :: rest')
    (g : GR MR ro P p ({a | ow a = .g i} ∪ {a | ow a = .m x (hd x)}) s.mem) :
    CR MR ro W h0 ((s.setChan x { s.chans x with buf := rest }).goOn i P)
      ((t.setChan x { t.chans x with buf := rest' }).goOn i p)
      (fun a => if ow a = .m x (hd x) then .g i else ow a) (Function.update hd x (hd x + 1)) := by
  refine { c with
    cap := ?_, closed := ?_, len := ?_, msgs := ?_, progs := ?_, rest := ?_, ro := ?_, idle := ?_, flight := ?_
    alloc := ?_, frame := ?_ }
  · intro y
    by_cases hy : y = x
    · subst hy; simpa [Conf.setChan, Conf.goOn] using c.cap y
    · simpa [Conf.setChan, Conf.goOn, hy] using c.cap y
  · intro y
    by_cases hy : y = x
    · subst hy; simpa [Conf.setChan, Conf.goOn] using c.closed y
    · simpa [Conf.setChan, Conf.goOn, hy] using c.closed y
  · intro y
    by_cases hy : y = x
    · subst hy
      have := c.len y
      rw [e1, e2] at this
      simpa [Conf.setChan, Conf.goOn] using this
    · simpa [Conf.setChan, Conf.goOn, hy] using c.len y
  · intro y j w w' h1 h2
    change MR _ s.mem w w'
    by_cases hy : y = x
    · subst hy
      simp only [Conf.setChan, Conf.goOn, Function.update_self] at h1 h2
      have := c.msgs y (j + 1) w w' (by simpa [e1] using h1) (by simpa [e2] using h2)
      convert this using 1
      ext a
      simp only [Set.mem_ofPred_eq, Function.update_self]
      by_cases ha : ow a = .m y (hd y)
      · simp only [ha, if_true]
        constructor
        · intro e; cases e
        · intro e; injection e; omega
      · simp only [ha, if_false]
        rw [show hd y + 1 + j = hd y + (j + 1) by omega]
    · simp only [Conf.setChan, Conf.goOn, Function.update_of_ne hy] at h1 h2
      have := c.msgs y j w w' h1 h2
      convert this using 1
      ext a
      simp only [Set.mem_ofPred_eq, Function.update_of_ne hy]
      by_cases ha : ow a = .m x (hd x)
      · simp only [ha, if_true]
        constructor
        · intro e; cases e
        · intro e; injection e with e _; exact absurd e.symm hy
      · simp [ha]
  · intro j
    by_cases hj : j = i
    · subst hj
      simp only [Conf.goOn, Conf.setChan, Function.update_self]
      convert g using 1
      ext a
      by_cases ha : ow a = .m x (hd x) <;> simp [ha]
    · simp only [Conf.goOn, Conf.setChan, Function.update_of_ne hj]
      convert c.progs j using 1
      ext a
      by_cases ha : ow a = .m x (hd x)
      · simp only [Set.mem_ofPred_eq, ha, if_true]
        constructor
        · intro e; injection e with e; exact absurd e.symm hj
        · intro e; cases e
      · simp [ha]
  · intro j hj
    have : j ≠ i := by rintro rfl; exact absurd hj (by simpa [Conf.goOn, Conf.setChan] using hi)
    simpa [Conf.goOn, Conf.setChan, this] using c.rest j hj
  · intro a
    rw [c.ro a]
    by_cases ha : ow a = .m x (hd x)
    · simp [ha]
    · simp [ha]
  · intro a j ha
    by_cases hao : ow a = .m x (hd x)
    · simp only [hao, if_true, Owner.g.injEq] at ha
      subst ha; exact hi
    · exact c.idle a j (by simpa [hao] using ha)
  · intro a y n ha
    by_cases hao : ow a = .m x (hd x)
    · simp [hao] at ha
    · simp only [hao, if_false] at ha
      have := c.flight a y n ha
      by_cases hy : y = x
      · subst hy
        simp only [e1, List.length_cons] at this
        simp [Conf.goOn, Conf.setChan]; omega
      · simpa [Conf.goOn, Conf.setChan, hy] using this
  · intro a ha
    by_cases hao : ow a = .m x (hd x)
    · exact c.alloc a (by rw [hao]; intro e; cases e)
    · exact c.alloc a (by simpa [hao] using ha)
  · intro a ha hw
    obtain ⟨h1, h2⟩ := c.frame a ha hw
    refine ⟨h1, ?_⟩
    have : ow a ≠ .m x (hd x) := by
      intro hao
      rw [hao] at h2
      rcases h2 with h2 | h2 <;> cases h2
    simpa [this] using h2

open Classical in
theorem CR.spawn (c : CR MR ro W h0 s t ow hd) {i : Nat} {P K : Prog (Heap F) V} {p k : Prog M V'} (hi : i < s.nG)
    {o : Set Nat} (ho : o ⊆ {a | ow a = .g i}) (g1 : GR MR ro P p o s.mem)
    (g2 : GR MR ro K k ({a | ow a = .g i} \ o) s.mem) :
    CR MR ro W h0 { s with gs := Function.update (Function.update s.gs i K) s.nG P, nG := s.nG + 1 }
      { t with gs := Function.update (Function.update t.gs i k) t.nG p, nG := t.nG + 1 }
      (fun a => if a ∈ o then .g s.nG else ow a) hd := by
  have hog : ∀ a ∈ o, ow a = .g i := fun a ha => ho ha
  refine { c with
    nG := by simp [c.nG]
    msgs := ?_, progs := ?_, rest := ?_, ro := ?_, idle := ?_, flight := ?_, alloc := ?_, frame := ?_ }
  · intro y j w w' h1 h2
    change MR _ s.mem w w'
    convert c.msgs y j w w' h1 h2 using 1
    ext a
    by_cases ha : a ∈ o
    · simp [ha, hog a ha]
    · simp [ha]
  · intro j
    change GR MR ro (Function.update (Function.update s.gs i K) s.nG P j) (Function.update (Function.update t.gs i k) t.nG p j) _ s.mem
    rw [← c.nG]
    by_cases hj : j = s.nG
    · subst hj
      simp only [Function.update_self]
      convert g1 using 1
      ext a
      by_cases ha : a ∈ o
      · simp [ha]
      · simp only [Set.mem_ofPred_eq, ha, if_false, iff_false]
        intro e
        exact absurd (c.idle a _ e) (by omega)
    · rw [Function.update_of_ne hj, Function.update_of_ne hj]
      by_cases hji : j = i
      · subst hji
        simp only [Function.update_self]
        convert g2 using 1
        ext a
        by_cases ha : a ∈ o
        · simp only [Set.mem_ofPred_eq, ha, if_true, Owner.g.injEq, Set.mem_sdiff, not_true, and_false, iff_false]
          omega
        · simp [ha]
      · rw [Function.update_of_ne hji, Function.update_of_ne hji]
        convert c.progs j using 1
        ext a
        by_cases ha : a ∈ o
        · simp only [Set.mem_ofPred_eq, ha, if_true, hog a ha, Owner.g.injEq]
          constructor
          · intro e; exact absurd e.symm hj
          · intro e; exact absurd e.symm hji
        · simp [ha]
  · intro j hj
    simp only at hj ⊢
    rw [Function.update_of_ne (by omega), Function.update_of_ne (by omega)]
    exact c.rest j (by omega)
  · intro a
    rw [c.ro a]
    by_cases ha : a ∈ o
    · simp [ha, hog a ha]
    · simp [ha]
  · intro a j ha
    by_cases hao : a ∈ o
    · simp only [hao, if_true, Owner.g.injEq] at ha
      simp only; omega
    · have := c.idle a j (by simpa [hao] using ha)
      simp only; omega
  · intro a y n ha
    by_cases hao : a ∈ o
    · simp [hao] at ha
    · exact c.flight a y n (by simpa [hao] using ha)
  · intro a ha
    by_cases hao : a ∈ o
    · exact c.alloc a (by rw [hog a hao]; intro e; cases e)
    · exact c.alloc a (by simpa [hao] using ha)
  · intro a ha hw
    obtain ⟨h1, h2⟩ := c.frame a ha hw
    refine ⟨h1, ?_⟩
    have : a ∉ o := by
      intro hao
      rw [hog a hao] at h2
      rcases h2 with h2 | h2 <;> cases h2
    simpa [this] using h2

open Classical in
theorem CR.handOver (c : CR MR ro W h0 s t ow hd) {i j : Nat} {P K : Prog (Heap F) V} {p k : Prog M V'} (hi : i < s.nG)
    (hj : j < s.nG) (hij : i ≠ j) {o : Set Nat} (ho : o ⊆ {a | ow a = .g i}) (g1 : GR MR ro P p ({a | ow a = .g i} \ o) s.mem)
    (g2 : GR MR ro K k ({a | ow a = .g j} ∪ o) s.mem) :
    CR MR ro W h0 ((s.goOn i P).goOn j K) ((t.goOn i p).goOn j k) (fun a => if a ∈ o then .g j else ow a) hd := by
  have hog : ∀ a ∈ o, ow a = .g i := fun a ha => ho ha
  refine { c with
    msgs := ?_, progs := ?_, rest := ?_, ro := ?_, idle := ?_, flight := ?_, alloc := ?_, frame := ?_ }
  · intro y j' w w' h1 h2
    change MR _ s.mem w w'
    convert c.msgs y j' w w' h1 h2 using 1
    ext a
    by_cases ha : a ∈ o
    · simp [ha, hog a ha]
    · simp [ha]
  · intro x
    change GR MR ro (Function.update (Function.update s.gs i P) j K x) (Function.update (Function.update t.gs i p) j k x) _ s.mem
    by_cases hx : x = j
    · subst hx
      simp only [Function.update_self]
      convert g2 using 1
      ext a
      by_cases ha : a ∈ o <;> simp [ha]
    · rw [Function.update_of_ne hx, Function.update_of_ne hx]
      by_cases hxi : x = i
      · subst hxi
        simp only [Function.update_self]
        convert g1 using 1
        ext a
        by_cases ha : a ∈ o
        · simp only [Set.mem_ofPred_eq, ha, if_true, Owner.g.injEq, Set.mem_sdiff, not_true, and_false, iff_false]
          omega
        · simp [ha]
      · rw [Function.update_of_ne hxi, Function.update_of_ne hxi]
        convert c.progs x using 1
        ext a
        by_cases ha : a ∈ o
        · simp only [Set.mem_ofPred_eq, ha, if_true, hog a ha, Owner.g.injEq]
          constructor
          · intro e; exact absurd e.symm hx
          · intro e; exact absurd e.symm hxi
        · simp [ha]
  · intro x hx
    change ∃ r, Function.update (Function.update s.gs i P) j K x = .ret r
    have hx' : s.nG ≤ x := hx
    rw [Function.update_of_ne (by omega), Function.update_of_ne (by omega)]
    exact c.rest x hx'
  · intro a
    rw [c.ro a]
    by_cases ha : a ∈ o
    · simp [ha, hog a ha]
    · simp [ha]
  · intro a x ha
    change x < s.nG
    by_cases hao : a ∈ o
    · simp only [hao, if_true, Owner.g.injEq] at ha
      omega
    · exact c.idle a x (by simpa [hao] using ha)
  · intro a y n ha
    by_cases hao : a ∈ o
    · simp [hao] at ha
    · exact c.flight a y n (by simpa [hao] using ha)
  · intro a ha
    by_cases hao : a ∈ o
    · exact c.alloc a (by rw [hog a hao]; intro e; cases e)
    · exact c.alloc a (by simpa [hao] using ha)
  · intro a ha hw
    obtain ⟨h1, h2⟩ := c.frame a ha hw
    refine ⟨h1, ?_⟩
    have : a ∉ o := by
      intro hao
      rw [hog a hao] at h2
      rcases h2 with h2 | h2 <;> cases h2
    simpa [this] using h2

open Classical in
theorem CR.access (st : StableMsg MR) (c : CR MR ro W h0 s t ow hd) {i : Nat} {P : Prog (Heap F) V} (hi : i < s.nG) {h' : Heap F}
    (hn : s.mem.next ≤ h'.next) (hf : ∀ b ∉ {a | ow a = .g i}, b < s.mem.next → h'.cells b = s.mem.cells b)
    {own' : Set Nat} (h1 : ∀ b ∈ own', b ∈ {a | ow a = .g i} ∨ s.mem.next ≤ b) (h2 : ∀ b ∈ own', b < h'.next)
    (g : GR MR ro P (t.gs i) own' h') :
    CR MR ro W h0 { s with gs := Function.update s.gs i P, mem := h' } t
      (fun a => if a ∈ own' then .g i else if ow a = .g i then .free else ow a) hd := by
  have free : ∀ a, s.mem.next ≤ a → ow a = .free := by
    intro a ha
    by_contra hc
    exact absurd (c.alloc a hc) (by omega)
  have h1' : ∀ a ∈ own', ow a = .g i ∨ ow a = .free := fun a ha => (h1 a ha).imp id (free a)
  have other : ∀ a x, x ≠ .g i → x ≠ .free → ((if a ∈ own' then Owner.g i else if ow a = .g i then .free else ow a) = x ↔ ow a = x) := by
    intro a x hx hx'
    by_cases ha : a ∈ own'
    · rw [if_pos ha]
      constructor
      · intro e; exact absurd e.symm hx
      · intro e
        rcases h1' a ha with h | h
        · exact absurd (e.symm.trans h) hx
        · exact absurd (e.symm.trans h) hx'
    · rw [if_neg ha]
      by_cases hg : ow a = .g i
      · rw [if_pos hg, hg]
        constructor
        · intro e; exact absurd e.symm hx'
        · intro e; exact absurd e.symm hx
      · rw [if_neg hg]
  have agree : ∀ A : Set Nat, (∀ a ∈ A, ow a ≠ .free ∧ ow a ≠ .g i) → Agree A s.mem h' := by
    intro A hA a ha
    have := c.alloc a (hA a ha).1
    exact ⟨hf a (hA a ha).2 this, by omega⟩
  refine { c with
    msgs := ?_, progs := ?_, rest := ?_, ro := ?_, idle := ?_, flight := ?_, alloc := ?_, frame := ?_
    next := le_trans c.next hn }
  · intro y j w w' e1 e2
    change MR _ h' w w'
    have := c.msgs y j w w' e1 e2
    convert st _ _ _ _ _ this (agree _ ?_) using 1
    · ext a
      exact other a _ (by intro e; cases e) (by intro e; cases e)
    · intro a ha
      rw [show ow a = _ from ha]
      exact ⟨(by intro e; cases e), (by intro e; cases e)⟩
  · intro j
    change GR MR ro (Function.update s.gs i P j) _ _ h'
    by_cases hj : j = i
    · subst hj
      rw [Function.update_self]
      convert g using 1
      ext a
      by_cases ha : a ∈ own'
      · simp [ha]
      · by_cases hg : ow a = .g j <;> simp [ha, hg]
    · rw [Function.update_of_ne hj]
      convert (c.progs j).agree (agree _ ?_) using 1
      · ext a
        exact other a _ (by intro e; injection e; contradiction) (by intro e; cases e)
      · intro a ha
        rcases ha with ha | ha
        · rw [show ow a = _ from ha]
          exact ⟨(by intro e; cases e), (by intro e; injection e; contradiction)⟩
        · rw [(c.ro a).1 ha]
          exact ⟨(by intro e; cases e), (by intro e; cases e)⟩
  · intro j hj
    change ∃ r, Function.update s.gs i P j = .ret r
    have hj' : s.nG ≤ j := hj
    rw [Function.update_of_ne (by omega)]
    exact c.rest j hj'
  · intro a
    rw [c.ro a, other a _ (by intro e; cases e) (by intro e; cases e)]
  · intro a j ha
    change j < s.nG
    by_cases hj : j = i
    · subst hj; exact hi
    · exact c.idle a j ((other a _ (by intro e; injection e; contradiction) (by intro e; cases e)).1 ha)
  · intro a y n ha
    exact c.flight a y n ((other a _ (by intro e; cases e) (by intro e; cases e)).1 ha)
  · intro a ha
    change a < h'.next
    by_cases hao : a ∈ own'
    · exact h2 a hao
    · simp only [hao, if_false] at ha
      by_cases hg : ow a = .g i
      · simp [hg] at ha
      · rw [if_neg hg] at ha
        have := c.alloc a ha
        omega
  · intro a ha hw
    obtain ⟨e1, e2⟩ := c.frame a ha hw
    have hg : ow a ≠ .g i := by
      intro hg
      rw [hg] at e2
      rcases e2 with e2 | e2 <;> cases e2
    have hn0 : a < s.mem.next := lt_of_lt_of_le ha c.next
    refine ⟨(hf a hg hn0).trans e1, ?_⟩
    have : a ∉ own' := by
      intro hao
      rcases h1 a hao with h | h
      · exact hg h
      · omega
    simpa [this, hg] using e2

theorem CR.close (c : CR MR ro W h0 s t ow hd) {i x : Nat} {P : Prog (Heap F) V} {p : Prog M V'} (hi : i < s.nG)
    (g : GR MR ro P p {a | ow a = .g i} s.mem) :
    CR MR ro W h0 ((s.setChan x { s.chans x with closed := true }).goOn i P)
      ((t.setChan x { t.chans x with closed := true }).goOn i p) ow hd := by
  have c' := c.local hi g
  refine { c' with cap := ?_, closed := ?_, len := ?_, msgs := ?_, flight := ?_ }
  · intro y
    by_cases hy : y = x
    · subst hy; simpa [Conf.setChan, Conf.goOn] using c.cap y
    · simpa [Conf.setChan, Conf.goOn, hy] using c.cap y
  · intro y
    by_cases hy : y = x
    · subst hy; simp [Conf.setChan, Conf.goOn]
    · simpa [Conf.setChan, Conf.goOn, hy] using c.closed y
  · intro y
    by_cases hy : y = x
    · subst hy; simpa [Conf.setChan, Conf.goOn] using c.len y
    · simpa [Conf.setChan, Conf.goOn, hy] using c.len y
  · intro y j w w'
    by_cases hy : y = x
    · subst hy; simpa [Conf.setChan, Conf.goOn] using c.msgs y j w w'
    · simpa [Conf.setChan, Conf.goOn, hy] using c.msgs y j w w'
  · intro a y n ha
    have := c.flight a y n ha
    by_cases hy : y = x
    · subst hy; simpa [Conf.setChan, Conf.goOn] using this
    · simpa [Conf.setChan, Conf.goOn, hy] using this

theorem CR.msg_disjoint (c : CR MR ro W h0 s t ow hd) (i x n : Nat) :
    Disjoint {a | ow a = .m x n} ({a | ow a = .g i} ∪ ro) := by
  rw [Set.disjoint_left]
  intro a ha hb
  have ha : ow a = .m x n := ha
  rcases hb with hb | hb
  · rw [show ow a = .g i from hb] at ha; cases ha
  · rw [(c.ro a).1 hb] at ha; cases ha

theorem CR.msg_alloc (c : CR MR ro W h0 s t ow hd) (x n : Nat) : ∀ a ∈ {a | ow a = .m x n}, a < s.mem.next := by
  intro a ha
  exact c.alloc a (by rw [show ow a = .m x n from ha]; intro e; cases e)

/-- Every step over memory is a memory access that the values do not see, or a step over values. -/
theorem CR.step (st : StableMsg MR) (c : CR MR ro W h0 s t ow hd) (nc : NoCrash t) (hs : Step s s') :
    (∃ ow', CR MR ro W h0 s' t ow' hd ∧ ∃ i a f k, i < s.nG ∧ s.gs i = .mem a f k ∧ s'.gs = Function.update s.gs i (k s.mem) ∧
      s'.nG = s.nG) ∨
    ∃ t' ow' hd', Step t t' ∧ CR MR ro W h0 s' t' ow' hd' := by
  have panics : ∀ i e, exec t i ≠ some (t.panic e) := by
    intro i e he
    have := nc _ ⟨c.alive', .inl ⟨i, he⟩⟩
    cases this
  obtain ⟨_, ⟨i, hi⟩ | ⟨i, j, x, v, k, k', hij, hi, hj, hcap, hcl, rfl⟩⟩ := hs
  · have ok := nc.prog c.alive' i
    have gr := c.progs i
    have refl := c.agree_refl i
    have lt : i < s.nG := c.lt_nG (by intro r hr; simp [exec, hr] at hi)
    unfold exec at hi
    split at hi
    · cases hi
    · rename_i hp
      rw [hp] at gr
      obtain ⟨e, he⟩ := gr
      exact absurd he (ok e)
    · rename_i cap K hp
      rw [hp] at gr
      obtain ⟨k, ek, g⟩ := Under.get gr ok refl
      have := c.make (cap := cap) lt (g s.nC)
      cases hi
      refine .inr ⟨_, _, _, ⟨c.alive', .inl ⟨i, ?_⟩⟩, this⟩
      simp [exec, ek, c.nC]
    · rename_i x v K hp
      rw [hp] at gr
      obtain ⟨v', k, ek, o, ho, hm, g⟩ := Under.get gr ok refl
      by_cases hcl : (s.chans x).closed = true
      · exact absurd (by simp [exec, ek, ← c.closed x, hcl]) (panics i (.explicit "send on closed channel"))
      · by_cases hl : (s.chans x).buf.length < (s.chans x).cap
        · rw [if_neg hcl, if_pos hl] at hi
          cases hi
          refine .inr ⟨_, _, _, ⟨c.alive', .inl ⟨i, ?_⟩⟩, c.send lt ho hm g⟩
          have hcl' := c.closed x
          simp only [exec, ek]
          rw [if_neg (by rw [← hcl']; exact hcl), if_pos (by rw [← c.len x, ← c.cap x]; exact hl)]
        · simp [hcl, hl] at hi
    · rename_i x K hp
      rw [hp] at gr
      obtain ⟨k, ek, g1, g2⟩ := Under.get gr ok refl
      split at hi
      · rename_i v rest hb
        have hl := c.len x
        obtain ⟨v', rest', hb'⟩ : ∃ v' rest', (t.chans x).buf = v' :: rest' := by
          cases hx : (t.chans x).buf with
          | nil => rw [hb, hx] at hl; simp at hl
          | cons a l => exact ⟨a, l, rfl⟩
        have hm := c.msgs x 0 v v' (by simp [hb]) (by simp [hb'])
        have := g2 _ v v' (c.msg_disjoint i x _) (c.msg_alloc x _) hm
        cases hi
        refine .inr ⟨_, _, _, ⟨c.alive', .inl ⟨i, ?_⟩⟩, c.recv lt hb hb' (by simpa using this)⟩
        simp [exec, ek, hb']
      · rename_i hb
        by_cases hcl : (s.chans x).closed = true
        · simp only [hcl, if_true, Option.some.injEq] at hi
          subst hi
          have hb' : (t.chans x).buf = [] := by
            have := c.len x
            rw [hb] at this
            exact List.length_eq_zero_iff.1 this.symm
          refine .inr ⟨_, _, _, ⟨c.alive', .inl ⟨i, ?_⟩⟩, c.local lt g1⟩
          simp [exec, ek, hb', ← c.closed x, hcl]
        · simp [hcl] at hi
    · rename_i x K hp
      rw [hp] at gr
      obtain ⟨k, ek, g⟩ := Under.get gr ok refl
      by_cases hcl : (s.chans x).closed = true
      · exact absurd (by simp [exec, ek, ← c.closed x, hcl]) (panics i (.explicit "close of closed channel"))
      · simp only [hcl, Bool.false_eq_true, if_false, Option.some.injEq] at hi
        subst hi
        refine .inr ⟨_, _, _, ⟨c.alive', .inl ⟨i, ?_⟩⟩, c.close lt g⟩
        simp only [exec, ek]
        rw [if_neg (by rw [← c.closed x]; exact hcl)]
    · rename_i P K hp
      rw [hp] at gr
      obtain ⟨p', k, ek, o, ho, g1, g2⟩ := Under.get gr ok refl
      cases hi
      refine .inr ⟨_, _, _, ⟨c.alive', .inl ⟨i, ?_⟩⟩, c.spawn lt ho g1 g2⟩
      simp [exec, ek]
    · rename_i n K hp
      rw [hp] at gr
      obtain ⟨k, ek, g⟩ := Under.get gr ok refl
      cases hi
      have := c.local lt (g s.nW)
      refine .inr ⟨{ t with gs := Function.update t.gs i (k t.nW), wgs := Function.update t.wgs t.nW n, nW := t.nW + 1 }, ow, hd,
        ⟨c.alive', .inl ⟨i, ?_⟩⟩, ?_⟩
      · simp [exec, ek]
      · rw [c.nW] at this ⊢
        exact { this with wgs := by simp [c.wgs], nW := rfl }
    · rename_i w K hp
      rw [hp] at gr
      obtain ⟨k, ek, g⟩ := Under.get gr ok refl
      by_cases hw : s.wgs w = 0
      · exact absurd (by simp [exec, ek, ← c.wgs, hw]) (panics i (.explicit "sync: negative WaitGroup counter"))
      · simp only [hw, if_false, Option.some.injEq] at hi
        subst hi
        have := c.local lt g
        refine .inr ⟨{ t with gs := Function.update t.gs i k, wgs := Function.update t.wgs w (t.wgs w - 1) }, ow, hd,
          ⟨c.alive', .inl ⟨i, ?_⟩⟩, ?_⟩
        · simp only [exec, ek]
          rw [if_neg (by rw [← c.wgs]; exact hw)]
        · exact { this with wgs := by simp [c.wgs] }
    · rename_i w K hp
      rw [hp] at gr
      obtain ⟨k, ek, g⟩ := Under.get gr ok refl
      by_cases hw : s.wgs w = 0
      · simp only [hw, if_true, Option.some.injEq] at hi
        subst hi
        refine .inr ⟨_, _, _, ⟨c.alive', .inl ⟨i, ?_⟩⟩, c.local lt g⟩
        simp [exec, ek, ← c.wgs, hw]
      · simp [hw] at hi
    · rename_i hp
      rw [hp] at gr
      obtain ⟨e, he⟩ := gr
      exact absurd he (ok e)
    · rename_i a f K hp
      rw [hp] at gr
      obtain ⟨_, hn, hf, own', h1, h2, g⟩ := Under.get gr ok refl
      cases hi
      exact .inl ⟨_, c.access st lt hn hf h1 h2 g, i, a, f, K, lt, hp, rfl, rfl⟩
  · have lti : i < s.nG := c.lt_nG (by intro r hr; rw [hr] at hi; cases hi)
    have ltj : j < s.nG := c.lt_nG (by intro r hr; rw [hr] at hj; cases hj)
    have gi := c.progs i
    have gj := c.progs j
    rw [hi] at gi
    rw [hj] at gj
    obtain ⟨v', q, eq, o, ho, hm, g1⟩ := Under.get gi (nc.prog c.alive' i) (c.agree_refl i)
    obtain ⟨q', eq', _, g2⟩ := Under.get gj (nc.prog c.alive' j) (c.agree_refl j)
    have dj : Disjoint o ({a | ow a = .g j} ∪ ro) := by
      rw [Set.disjoint_left]
      intro a ha hb
      have ha : ow a = .g i := ho ha
      rcases hb with hb | hb
      · rw [show ow a = .g j from hb] at ha
        injection ha with ha
        exact hij ha.symm
      · rw [(c.ro a).1 hb] at ha; cases ha
    have al : ∀ a ∈ o, a < s.mem.next := fun a ha => c.alloc a (by rw [show ow a = .g i from ho ha]; intro e; cases e)
    refine .inr ⟨_, _, _, ⟨c.alive', .inr ⟨i, j, x, v', q, q', hij, eq, eq', ?_, ?_, rfl⟩⟩, c.handOver lti ltj hij ho g1 (g2 o v v' dj al hm)⟩
    · rw [← c.cap x]; exact hcap
    · rw [← c.closed x]; exact hcl

/-! ### Consequences -/

theorem CR.noRace (c : CR MR ro W h0 s t ow hd) (nc : NoCrash t) : ¬ Race s := by
  rintro ⟨i, j, a, f, k, b, g, l, hij, hi, hj, hc⟩
  have gi := c.progs i
  have gj := c.progs j
  rw [hi] at gi
  rw [hj] at gj
  have ai := (Under.get gi (nc.prog c.alive' i) (c.agree_refl i)).1
  have aj := (Under.get gj (nc.prog c.alive' j) (c.agree_refl j)).1
  have key : ∀ x i j, i ≠ j → x ∈ {a | ow a = .g i} → x ∉ {a | ow a = .g j} ∪ ro := by
    rintro x i j hij (h1 : ow x = .g i) (h2 | h2)
    · rw [show ow x = .g j from h2] at h1
      injection h1 with h1
      exact hij h1.symm
    · rw [(c.ro x).1 h2] at h1; cases h1
  cases a <;> cases b <;> simp only [Conflict, Allowed] at hc ai aj
  · obtain ⟨rfl, _⟩ := hc
    exact key _ j i (Ne.symm hij) aj ai
  · obtain ⟨rfl, _⟩ := hc
    exact key _ i j hij ai aj
  · obtain ⟨rfl, _⟩ := hc
    exact key _ i j hij ai (.inl aj)

theorem CR.stuck (c : CR MR ro W h0 s t ow hd) (nc : NoCrash t) (hs : Stuck s) : Stuck t := by
  have noexec : ∀ i, exec s i = none := by
    intro i
    by_contra hc
    obtain ⟨x, hx⟩ := Option.ne_none_iff_exists'.1 hc
    exact hs x ⟨c.alive, .inl ⟨i, hx⟩⟩
  rintro t' ⟨_, ⟨i, hi⟩ | ⟨i, j, x, v, k, k', hij, hi, hj, hcap, hcl, rfl⟩⟩
  · have ok := nc.prog c.alive' i
    have refl := c.agree_refl i
    have gr := c.progs i
    have ns := noexec i
    unfold exec at ns
    split at ns
    · rename_i hp
      rw [hp] at gr
      obtain ⟨r', er, _⟩ := Under.get gr ok refl
      simp [exec, er] at hi
    · cases ns
    · cases ns
    · rename_i x v K hp
      rw [hp] at gr
      obtain ⟨v', k, ek, _⟩ := Under.get gr ok refl
      by_cases hcl : (s.chans x).closed = true
      · simp [hcl] at ns
      · by_cases hl : (s.chans x).buf.length < (s.chans x).cap
        · simp [hcl, hl] at ns
        · rw [c.closed x] at hcl
          rw [c.len x, c.cap x] at hl
          simp [exec, ek, hcl, hl] at hi
    · rename_i x K hp
      rw [hp] at gr
      obtain ⟨k, ek, _⟩ := Under.get gr ok refl
      split at ns
      · cases ns
      · rename_i hb
        by_cases hcl : (s.chans x).closed = true
        · simp [hcl] at ns
        · have hb' : (t.chans x).buf = [] := by
            have := c.len x
            rw [hb] at this
            exact List.length_eq_zero_iff.1 this.symm
          rw [c.closed x] at hcl
          simp [exec, ek, hb', hcl] at hi
    · rename_i x K hp
      by_cases hcl : (s.chans x).closed = true <;> simp [hcl] at ns
    · cases ns
    · cases ns
    · rename_i w K hp
      by_cases hw : s.wgs w = 0 <;> simp [hw] at ns
    · rename_i w K hp
      rw [hp] at gr
      obtain ⟨k, ek, _⟩ := Under.get gr ok refl
      by_cases hw : s.wgs w = 0
      · simp [hw] at ns
      · rw [c.wgs] at hw
        simp [exec, ek, hw] at hi
    · cases ns
    · cases ns
  · -- both are about to communicate in `s`, too, or one of them can make another step
    have sync : ∀ i (p : Prog M V'), t.gs i = p → (∀ e, p ≠ .crash e) → ∀ a f K, s.gs i ≠ .mem a f K := by
      intro i p _ _ a f K hp
      have := noexec i
      simp [exec, hp] at this
    have gi := c.progs i
    have gj := c.progs j
    have refi := c.agree_refl i
    have refj := c.agree_refl j
    have oki := nc.prog c.alive' i
    have okj := nc.prog c.alive' j
    have ei : ∃ v0 K, s.gs i = .send x v0 K := by
      cases hp : s.gs i with
      | send y v0 K =>
        rw [hp] at gi
        obtain ⟨_, _, e, _⟩ := Under.get gi oki refi
        rw [hi] at e
        injection e with e1
        exact ⟨v0, K, by rw [e1]⟩
      | mem a f K => exact absurd hp (sync i _ hi (by intro e h; cases h) a f K)
      | crash e => rw [hp] at gi; obtain ⟨e, he⟩ := gi; exact absurd he (oki e)
      | act f K => rw [hp] at gi; obtain ⟨e, he⟩ := gi; exact absurd he (oki e)
      | ret r => rw [hp] at gi; obtain ⟨_, e, _⟩ := Under.get gi oki refi; rw [hi] at e; cases e
      | make _ _ => rw [hp] at gi; obtain ⟨_, e, _⟩ := Under.get gi oki refi; rw [hi] at e; cases e
      | recv _ _ => rw [hp] at gi; obtain ⟨_, e, _⟩ := Under.get gi oki refi; rw [hi] at e; cases e
      | close _ _ => rw [hp] at gi; obtain ⟨_, e, _⟩ := Under.get gi oki refi; rw [hi] at e; cases e
      | go _ _ => rw [hp] at gi; obtain ⟨_, _, e, _⟩ := Under.get gi oki refi; rw [hi] at e; cases e
      | wgNew _ _ => rw [hp] at gi; obtain ⟨_, e, _⟩ := Under.get gi oki refi; rw [hi] at e; cases e
      | wgDone _ _ => rw [hp] at gi; obtain ⟨_, e, _⟩ := Under.get gi oki refi; rw [hi] at e; cases e
      | wgWait _ _ => rw [hp] at gi; obtain ⟨_, e, _⟩ := Under.get gi oki refi; rw [hi] at e; cases e
    have ej : ∃ K, s.gs j = .recv x K := by
      cases hp : s.gs j with
      | recv y K =>
        rw [hp] at gj
        obtain ⟨_, e, _⟩ := Under.get gj okj refj
        rw [hj] at e
        injection e with e1
        exact ⟨K, by rw [e1]⟩
      | mem a f K => exact absurd hp (sync j _ hj (by intro e h; cases h) a f K)
      | crash e => rw [hp] at gj; obtain ⟨e, he⟩ := gj; exact absurd he (okj e)
      | act f K => rw [hp] at gj; obtain ⟨e, he⟩ := gj; exact absurd he (okj e)
      | ret r => rw [hp] at gj; obtain ⟨_, e, _⟩ := Under.get gj okj refj; rw [hj] at e; cases e
      | make _ _ => rw [hp] at gj; obtain ⟨_, e, _⟩ := Under.get gj okj refj; rw [hj] at e; cases e
      | send _ _ _ => rw [hp] at gj; obtain ⟨_, _, e, _⟩ := Under.get gj okj refj; rw [hj] at e; cases e
      | close _ _ => rw [hp] at gj; obtain ⟨_, e, _⟩ := Under.get gj okj refj; rw [hj] at e; cases e
      | go _ _ => rw [hp] at gj; obtain ⟨_, _, e, _⟩ := Under.get gj okj refj; rw [hj] at e; cases e
      | wgNew _ _ => rw [hp] at gj; obtain ⟨_, e, _⟩ := Under.get gj okj refj; rw [hj] at e; cases e
      | wgDone _ _ => rw [hp] at gj; obtain ⟨_, e, _⟩ := Under.get gj okj refj; rw [hj] at e; cases e
      | wgWait _ _ => rw [hp] at gj; obtain ⟨_, e, _⟩ := Under.get gj okj refj; rw [hj] at e; cases e
    obtain ⟨v0, K, ei⟩ := ei
    obtain ⟨K', ej⟩ := ej
    exact hs _ ⟨c.alive, .inr ⟨i, j, x, v0, K, K', hij, ei, ej, by rw [c.cap x]; exact hcap, by rw [c.closed x]; exact hcl, rfl⟩⟩

theorem CR.returned (c : CR MR ro W h0 s t ow hd) (nc : NoCrash t) (hs : Stuck s) (i : Nat) (hr : Returned t i) :
    Returned s i := by
  obtain ⟨r, hr⟩ := hr
  have gi := c.progs i
  have ref := c.agree_refl i
  have ok := nc.prog c.alive' i
  cases hp : s.gs i with
  | ret r => exact ⟨r, hp⟩
  | mem a f K => exact absurd ⟨c.alive, .inl ⟨i, by simp only [exec, hp]; rfl⟩⟩ (hs _)
  | crash e => rw [hp] at gi; obtain ⟨e, he⟩ := gi; exact absurd he (ok e)
  | act f K => rw [hp] at gi; obtain ⟨e, he⟩ := gi; exact absurd he (ok e)
  | make _ _ => rw [hp] at gi; obtain ⟨_, e, _⟩ := Under.get gi ok ref; rw [hr] at e; cases e
  | send _ _ _ => rw [hp] at gi; obtain ⟨_, _, e, _⟩ := Under.get gi ok ref; rw [hr] at e; cases e
  | recv _ _ => rw [hp] at gi; obtain ⟨_, e, _⟩ := Under.get gi ok ref; rw [hr] at e; cases e
  | close _ _ => rw [hp] at gi; obtain ⟨_, e, _⟩ := Under.get gi ok ref; rw [hr] at e; cases e
  | go _ _ => rw [hp] at gi; obtain ⟨_, _, e, _⟩ := Under.get gi ok ref; rw [hr] at e; cases e
  | wgNew _ _ => rw [hp] at gi; obtain ⟨_, e, _⟩ := Under.get gi ok ref; rw [hr] at e; cases e
  | wgDone _ _ => rw [hp] at gi; obtain ⟨_, e, _⟩ := Under.get gi ok ref; rw [hr] at e; cases e
  | wgWait _ _ => rw [hp] at gi; obtain ⟨_, e, _⟩ := Under.get gi ok ref; rw [hr] at e; cases e

/-! ### No infinite schedules -/

/-- The program after a memory access. -/
def SubProg (P Q : Prog (Heap F) V) : Prop := ∃ a f k h, Q = .mem a f k ∧ P = k h

theorem subProg_wf : WellFounded (SubProg (F := F) (V := V)) := by
  refine ⟨fun P => ?_⟩
  induction P with
  | mem a f k ih =>
    refine ⟨_, ?_⟩
    rintro Q ⟨a', f', k', h, e, rfl⟩
    injection e with _ _ e
    subst e
    exact ih h
  | _ => exact ⟨_, by rintro Q ⟨a', f', k', h, e, rfl⟩; cases e⟩

theorem ReachIn.head {V M : Type} {s0 s1 s : Conf M V} {n : Nat} (h : Step s0 s1) (r : ReachIn s1 n s) : ReachIn s0 (n + 1) s := by
  induction r with
  | zero => exact .step .zero h
  | step _ hs ih => exact .step ih hs

/-- Every value schedule from `t` has at most `N` steps and never panics. -/
def Tame (N : Nat) (t : Conf M V') : Prop := ∀ n t', ReachIn t n t' → n ≤ N ∧ NoCrash t'

theorem Tame.next {N : Nat} {t t' : Conf M V'} (h : Tame (N + 1) t) (hs : Step t t') : Tame N t' := by
  intro n t'' hr
  have := h _ _ (ReachIn.head hs hr)
  exact ⟨by omega, this.2⟩

theorem CR.acc (st : StableMsg MR) : ∀ (N : Nat) (s : Conf (Heap F) V) (t : Conf M V') (ow : Nat → Owner) (hd : Nat → Nat),
    CR MR ro W h0 s t ow hd → Tame N t → Acc (fun s' s => Step s s') s := by
  intro N
  induction N using Nat.strong_induction_on with
  | _ N ihN =>
    have inner : ∀ (n : Nat) (x : Fin n → Prog (Heap F) V) (s : Conf (Heap F) V) (t : Conf M V') (ow : Nat → Owner)
        (hd : Nat → Nat), CR MR ro W h0 s t ow hd → Tame N t → s.nG = n → (∀ i : Fin n, s.gs i = x i) →
        Acc (fun s' s => Step s s') s := by
      intro n x
      induction x using (Pi.Lex.wellFounded (ι := Fin n) (· < ·) (s := fun {_} => SubProg (F := F) (V := V))
        (fun _ => subProg_wf)).induction with
      | _ x ih =>
        intro s t ow hd c ht hn hx
        refine ⟨_, fun s' hs => ?_⟩
        rcases c.step st (ht 0 t .zero).2 hs with ⟨ow', c', i, a, f, k, hi, hp, hgs, hn'⟩ | ⟨t', ow', hd', hs', c'⟩
        · refine ih (fun j => s'.gs j) ⟨⟨i, by omega⟩, ?_, ?_⟩ s' t ow' hd c' ht (by omega) (fun _ => rfl)
          · intro j hj
            have : (j : Nat) ≠ i := by
              have : (j : Nat) < i := hj
              omega
            change s'.gs j = x j
            rw [hgs, Function.update_of_ne this, hx j]
          · refine ⟨a, f, k, s.mem, ?_, ?_⟩
            · rw [← hx ⟨i, by omega⟩]; exact hp
            · simp [hgs]
        · have h1 := (ht 1 t' (.step .zero hs')).1
          obtain ⟨N', rfl⟩ : ∃ N', N = N' + 1 := ⟨N - 1, by omega⟩
          exact ihN N' (by omega) s' t' ow' hd' c' (ht.next hs')
    intro s t ow hd c ht
    exact inner s.nG (fun i => s.gs i) s t ow hd c ht rfl (fun _ => rfl)

/-- What one or two goroutines can do next. -/
def nexts (s : Conf (Heap F) V) (i j : Nat) : List (Conf (Heap F) V) :=
  (match exec s i with
    | some s' => [s']
    | none => []) ++
  (match s.gs i, s.gs j with
    | .send _ v k, .recv _ k' => [(s.goOn i k).goOn j (k' (some v))]
    | _, _ => [])

theorem step_finite (hr : ∀ i, s.nG ≤ i → ∃ r, s.gs i = .ret r) : {s' | Step s s'}.Finite := by
  refine Set.Finite.subset ((Finset.range s.nG ×ˢ Finset.range s.nG).finite_toSet.biUnion
    (t := fun p => {x | x ∈ nexts s p.1 p.2}) (fun p _ => List.finite_toSet _)) ?_
  have lt : ∀ i, (∀ r, s.gs i ≠ .ret r) → i < s.nG := by
    intro i h
    by_contra hc
    obtain ⟨r, e⟩ := hr i (by omega)
    exact h r e
  rintro s' ⟨_, ⟨i, hi⟩ | ⟨i, j, x, v, k, k', hij, hi, hj, hcap, hcl, rfl⟩⟩
  · have h := lt i (by intro r e; simp [exec, e] at hi)
    simp only [Set.mem_iUnion]
    exact ⟨(i, i), by simp [h], by simp [nexts, hi]⟩
  · have h1 := lt i (by intro r e; rw [e] at hi; cases hi)
    have h2 := lt j (by intro r e; rw [e] at hj; cases hj)
    simp only [Set.mem_iUnion]
    exact ⟨(i, j), by simp [h1, h2], by simp [nexts, hi, hj]⟩

theorem CR.bound (st : StableMsg MR) {N : Nat} (c : CR MR ro W h0 s t ow hd) (ht : Tame N t) :
    ∃ B, ∀ n s', ReachIn s n s' → n ≤ B := by
  have := c.acc st N s t ow hd ht
  induction this generalizing t ow hd N with
  | intro s _ ih =>
    have fin := step_finite (s := s) c.rest
    have each : ∀ s' ∈ {s' | Step s s'}, ∃ B, ∀ n x, ReachIn s' n x → n ≤ B := by
      intro s' hs
      rcases c.step st (ht 0 t .zero).2 hs with ⟨ow', c', _⟩ | ⟨t', ow', hd', hs', c'⟩
      · exact ih s' hs c' ht
      · have h1 := (ht 1 t' (.step .zero hs')).1
        obtain ⟨N', rfl⟩ : ∃ N', N = N' + 1 := ⟨N - 1, by omega⟩
        exact ih s' hs c' (ht.next hs')
    choose! B hB using each
    obtain ⟨M, hM⟩ := (fin.image B).bddAbove
    refine ⟨M + 1, ?_⟩
    intro n s' hr
    have split : ∀ {m x}, ReachIn s m x → m = 0 ∨ ∃ y, Step s y ∧ ∃ l, m = l + 1 ∧ ReachIn y l x := by
      intro m x hr
      induction hr with
      | zero => exact .inl rfl
      | step h hs ih =>
        rcases ih with rfl | ⟨y, hy, l, rfl, hl⟩
        · cases h
          exact .inr ⟨_, hs, 0, rfl, .zero⟩
        · exact .inr ⟨y, hy, l + 1, rfl, .step hl hs⟩
    rcases split hr with rfl | ⟨y, hy, l, rfl, hl⟩
    · omega
    · have h1 := hB y hy l s' hl
      have h2 := hM (Set.mem_image_of_mem B hy)
      omega

theorem tame_of_good {sem nCore : Nat} {post : Conf M V' → Prop} {N : Nat} (g : GoodRun sem nCore post N t) : Tame N t := by
  intro n t' hr
  refine ⟨(g n t' hr).1, fun t'' hs => (g _ t'' (hr.step hs)).2.alive⟩

/-- All the schedules over memory are good if all the schedules over values are. -/
theorem CR.goodOf (st : StableMsg MR) {sem nCore N : Nat} {post : Conf M V' → Prop}
    (c : CR MR ro W s.mem s t ow hd) (g : GoodRun sem nCore post N t) :
    ∃ B, GoodMemRun W (fun s' => ∃ t' ow' hd', CR MR ro W s.mem s' t' ow' hd' ∧ NoCrash t' ∧ post t') B s := by
  obtain ⟨B, hB⟩ := c.bound st (tame_of_good g)
  refine ⟨B, fun n s' hr => ⟨hB n s' hr, ?_⟩⟩
  have key : ∀ n s', ReachIn s n s' → ∃ m t' ow' hd', ReachIn t m t' ∧ CR MR ro W s.mem s' t' ow' hd' := by
    intro n s' hr
    induction hr with
    | zero => exact ⟨0, t, ow, hd, .zero, c⟩
    | step _ hs ih =>
      obtain ⟨m, t', ow', hd', h1, c'⟩ := ih
      rcases c'.step st (tame_of_good g m t' h1).2 hs with ⟨ow2, c2, _⟩ | ⟨t2, ow2, hd2, hs', c2⟩
      · exact ⟨m, t', ow2, hd', h1, c2⟩
      · exact ⟨m + 1, t2, ow2, hd2, h1.step hs', c2⟩
  obtain ⟨m, t', ow', hd', h1, c'⟩ := key n s' hr
  have gt := (g m t' h1).2
  have nc := (tame_of_good g m t' h1).2
  refine ⟨c'.noRace nc, c'.alive, ?_, ?_, ?_, c'.next, fun a ha hw => (c'.frame a ha hw).1⟩
  · intro hs i
    exact c'.returned nc hs i (gt.live (c'.stuck nc hs) i)
  · rintro ⟨r, hr⟩
    have gi := c'.progs 0
    rw [hr] at gi
    obtain ⟨r', e, hm⟩ := Under.get gi (nc.prog c'.alive' 0) (c'.agree_refl 0)
    exact ⟨t', ow', hd', c', nc, gt.result ⟨r', e⟩⟩
  · intro i x v k hi
    have gi := c'.progs i
    rw [hi] at gi
    obtain ⟨v', k', e, _⟩ := Under.get gi (nc.prog c'.alive' i) (c'.agree_refl i)
    obtain ⟨t2, h1, h2⟩ := gt.sends i x v' k' e
    unfold exec at h1
    rw [e] at h1
    simp only at h1
    by_cases h3 : (t'.chans x).closed = true
    · rw [if_pos h3] at h1
      cases h1
      cases h2
    · rw [if_neg h3] at h1
      by_cases h4 : (t'.chans x).buf.length < (t'.chans x).cap
      · refine send_exec c'.alive hi ?_ ?_
        · rw [c'.closed x]; simpa using h3
        · rw [c'.len x, c'.cap x]; exact h4
      · rw [if_neg h4] at h1
        cases h1

/-- What the caller returns. -/
theorem CR.main {r : V} {r0 : V'} (c : CR MR ro W h0 s t ow hd) (nc : NoCrash t) (hr : s.gs 0 = .ret r) (h : t.gs 0 = .ret r0) :
    ∃ o, MR o s.mem r r0 := by
  have gi := c.progs 0
  rw [hr] at gi
  obtain ⟨r', e, hm⟩ := Under.get gi (nc.prog c.alive' 0) (c.agree_refl 0)
  rw [e] at h
  injection h with h
  subst h
  exact ⟨_, hm⟩

theorem CR.good (st : StableMsg MR) {sem nCore N : Nat} {r0 : V'}
    (c : CR MR ro W s.mem s t ow hd) (g : GoodRun sem nCore (fun t => t.gs 0 = .ret r0) N t) :
    ∃ B, GoodMemRun W (fun s => ∃ r o, s.gs 0 = .ret r ∧ MR o s.mem r r0) B s := by
  obtain ⟨B, hB⟩ := c.goodOf st g
  refine ⟨B, fun n s' hr => ⟨(hB n s' hr).1, ?_⟩⟩
  have gs := (hB n s' hr).2
  refine { gs with result := ?_ }
  rintro ⟨r, hr⟩
  obtain ⟨t', ow', hd', c', nc, ht⟩ := gs.result ⟨r, hr⟩
  obtain ⟨o, ho⟩ := c'.main nc hr ht
  exact ⟨r, o, hr, ho⟩

end GkrMimc
