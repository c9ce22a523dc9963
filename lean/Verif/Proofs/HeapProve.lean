import Verif.Model.HeapProve
import Verif.Proofs.HeapVerify

/-! The memory-level prover refines the value-level one, and writes only where it may. -/

set_option linter.unusedSectionVars false

namespace GkrMimc

variable {F : Type} {α β γ δ : Type}

/-- Both runs panic alike, or both return and the results are related. -/
def SimR (R : α → β → Prop) (x : Go α) (y : Go β) : Prop :=
  match x, y with
  | .ok a, .ok b => R a b
  | .error e, .error e' => e = e'
  | _, _ => False

theorem Sim.toR {P : α → Heap F → β → Prop} {x : Go (α × Heap F)} {y : Go β} (s : Sim P x y) :
    SimR (fun p b => P p.1 p.2 b) x y := by
  rcases x with e | ⟨a, h⟩ <;> rcases y with e' | b <;> exact s

theorem SimR.toSim {P : α → Heap F → β → Prop} {x : Go (α × Heap F)} {y : Go β} (s : SimR (fun p b => P p.1 p.2 b) x y) :
    Sim P x y := by
  rcases x with e | ⟨a, h⟩ <;> rcases y with e' | b <;> exact s

theorem SimR.bind {P : α → β → Prop} {Q : γ → δ → Prop} {x : Go α} {y : Go β} {f : α → Go γ} {g : β → Go δ}
    (s : SimR P x y) (k : ∀ a b, P a b → SimR Q (f a) (g b)) : SimR Q (x >>= f) (y >>= g) := by
  rcases x with e | a <;> rcases y with e' | b
  · exact s
  · exact s.elim
  · exact s.elim
  · exact k a b s

theorem SimR.mono {P Q : α → β → Prop} {x : Go α} {y : Go β} (s : SimR P x y) (k : ∀ a b, P a b → Q a b) : SimR Q x y := by
  rcases x with e | a <;> rcases y with e' | b
  · exact s
  · exact s.elim
  · exact s.elim
  · exact k a b s

theorem SimR.refl (x : Go α) : SimR (fun a b => a = b ∧ x = .ok a) x x := by
  rcases x with e | a
  · exact rfl
  · exact ⟨rfl, rfl⟩

/-- The same computation on both sides. -/
theorem SimR.pureBind {Q : γ → δ → Prop} {x : Go α} {f : α → Go γ} {g : α → Go δ}
    (k : ∀ a, x = .ok a → SimR Q (f a) (g a)) : SimR Q (x >>= f) (x >>= g) :=
  (SimR.refl x).bind (by rintro a b ⟨rfl, h⟩; exact k a h)

theorem SimR.forFrom {R : α → β → Prop} {f : Nat → α → Go α} {g : Nat → β → Go β} :
    ∀ (n k : Nat) (a : α) (b : β), (∀ i a b, k ≤ i → i < k + n → R a b → SimR R (f i a) (g i b)) → R a b →
      SimR R (GkrMimc.forFrom f k n a) (GkrMimc.forFrom g k n b)
  | 0, _, _, _, _, r => r
  | n + 1, k, a, b, step, r => by
    have := step k a b le_rfl (by omega) r
    rw [GkrMimc.forFrom, GkrMimc.forFrom]
    rcases hf : f k a with e | a' <;> rcases hg : g k b with e' | b' <;> rw [hf, hg] at this
    · exact this
    · exact this.elim
    · exact this.elim
    · exact SimR.forFrom n (k + 1) a' b' (fun i a b h1 h2 => step i a b (by omega) (by omega)) this

theorem SimR.forN {R : α → β → Prop} {f : Nat → α → Go α} {g : Nat → β → Go β} {n : Nat} {a : α} {b : β}
    (r : R a b) (step : ∀ i a b, i < n → R a b → SimR R (f i a) (g i b)) :
    SimR R (GkrMimc.forN n a f) (GkrMimc.forN n b g) :=
  SimR.forFrom n 0 a b (fun i a b _ h => step i a b (by omega)) r

theorem SimR.forEach {S : γ → δ → Prop} {R : α → β → Prop} {f : γ → α → Go α} {g : δ → β → Go β}
    {xs : List γ} {ys : List δ} (hs : List.Forall₂ S xs ys) (step : ∀ x y a b, S x y → R a b → SimR R (f x a) (g y b)) :
    ∀ (a : α) (b : β), R a b → SimR R (GkrMimc.forEach xs a f) (GkrMimc.forEach ys b g) := by
  induction hs with
  | nil => exact fun a b r => r
  | @cons x y xs ys p _ ih =>
    intro a b r
    have := step x y a b p r
    rw [GkrMimc.forEach, GkrMimc.forEach]
    rcases hf : f x a with e | a' <;> rcases hg : g y b with e' | b' <;> rw [hf, hg] at this
    · exact this
    · exact this.elim
    · exact this.elim
    · exact ih a' b' this

/-! ### Which arrays are written -/

/-- Only cells of the arrays of `ss` may have changed. -/
structure FrameOn (h : Heap F) (ss : List Slice) (h' : Heap F) : Prop where
  next : h.next ≤ h'.next
  extra : h'.extra = h.extra
  cells : ∀ a < h.next, (∀ s ∈ ss, 0 < s.cap → a ≠ s.arr) → h'.cells a = h.cells a

/-- The same array, the same capacity. -/
def SameArr (s u : Slice) : Prop := s.arr = u.arr ∧ s.cap = u.cap

/-- Every slice of `ss` is new or in an array of `base`. -/
def Cov (h : Heap F) (base ss : List Slice) : Prop :=
  ∀ s ∈ ss, 0 < s.cap → h.next ≤ s.arr ∨ ∃ u ∈ base, 0 < u.cap ∧ u.arr = s.arr

theorem Apart.symm {s u : Slice} (a : Apart s u) : Apart u s := fun h1 h2 e => a h2 h1 e.symm

theorem SameArr.apart {s s' u u' : Slice} (a : Apart s u) (h1 : SameArr s s') (h2 : SameArr u u') : Apart s' u' := by
  intro c1 c2 e
  exact a (by rw [h1.2]; exact c1) (by rw [h2.2]; exact c2) (by rw [h1.1, h2.1, e])

theorem FrameOn.refl (h : Heap F) (ss : List Slice) : FrameOn h ss h := ⟨le_rfl, rfl, fun _ _ _ => rfl⟩

theorem FrameOn.of_frame {h h' : Heap F} {ss : List Slice} (f : Frame h h') : FrameOn h ss h' :=
  ⟨f.next, f.extra, fun a ha _ => f.cells a ha⟩

theorem FrameOn.of_frameBut {h h' : Heap F} {s : Slice} (f : FrameBut h s h') : FrameOn h [s] h' :=
  ⟨f.next, f.extra, fun a ha hn => f.cells a ha (hn s (by simp))⟩

theorem FrameOn.trans_cov {h1 h2 h3 : Heap F} {base ss : List Slice} (a : FrameOn h1 base h2) (b : FrameOn h2 ss h3)
    (c : Cov h1 base ss) : FrameOn h1 base h3 := by
  refine ⟨a.next.trans b.next, b.extra.trans a.extra, fun x hx hn => ?_⟩
  rw [b.cells x (lt_of_lt_of_le hx a.next), a.cells x hx hn]
  intro s hs hc e
  rcases c s hs hc with h | ⟨u, hu, h1, h2⟩
  · omega
  · exact hn u hu h1 (by omega)

theorem Cov.of_subset {h : Heap F} {base ss : List Slice} (hs : ss ⊆ base) : Cov h base ss :=
  fun s hm hc => .inr ⟨s, hs hm, hc, rfl⟩

theorem Cov.of_outside {h : Heap F} {base ss : List Slice} (hs : ∀ s ∈ ss, Outside h s) : Cov h base ss :=
  fun s hm hc => .inl (hs s hm hc)

theorem Cov.append {h : Heap F} {base s1 s2 : List Slice} (a : Cov h base s1) (b : Cov h base s2) : Cov h base (s1 ++ s2) := by
  intro s hs
  rcases List.mem_append.1 hs with hs | hs
  · exact a s hs
  · exact b s hs

theorem Cov.same {h : Heap F} {base s1 s2 : List Slice} (a : Cov h base s1) (e : List.Forall₂ SameArr s1 s2) : Cov h base s2 := by
  induction e with
  | nil => exact fun s hs => absurd hs (by simp)
  | cons p _ ih =>
    intro s hs hc
    rcases List.mem_cons.1 hs with rfl | hs
    · rw [← p.1]
      exact a _ (by simp) (by rw [p.2]; exact hc)
    · exact ih (fun u hu => a u (by simp [hu])) s hs hc

theorem FrameOn.mono {h1 h2 : Heap F} {ss base : List Slice} (a : FrameOn h1 ss h2) (hs : ss ⊆ base) : FrameOn h1 base h2 :=
  (FrameOn.refl h1 base).trans_cov a (Cov.of_subset hs)

theorem FrameOn.toFrame {h1 h2 : Heap F} {ss : List Slice} (a : FrameOn h1 ss h2) {h0 : Heap F} (f : Frame h0 h1)
    (o : ∀ s ∈ ss, Outside h0 s) : Frame h0 h2 := by
  refine ⟨f.next.trans a.next, a.extra.trans f.extra, fun x hx => ?_⟩
  rw [a.cells x (lt_of_lt_of_le hx f.next), f.cells x hx]
  intro s hs hc
  have := o s hs hc
  omega

theorem Rep.frameOn {h h' : Heap F} {ss : List Slice} {u : Slice} {v : List F} (r : Rep h u v) (b : FrameOn h ss h')
    (ap : ∀ s ∈ ss, Apart s u) : Rep h' u v := by
  have hl := r.valid.len
  refine ⟨⟨hl, fun hc => lt_of_lt_of_le (r.valid.arr hc) b.next⟩, ?_⟩
  rw [← r.vals]
  apply tab_congr
  intro i hi
  simp only [Heap.get]
  rw [b.cells _ (r.valid.arr (by omega))]
  intro s hs hc e
  exact ap s hs hc (by omega) e.symm

theorem sameArr_refl (ss : List Slice) : List.Forall₂ SameArr ss ss := List.forall₂_same.2 fun _ _ => ⟨rfl, rfl⟩

theorem sameArr_trans {s1 s2 s3 : List Slice} (a : List.Forall₂ SameArr s1 s2) (b : List.Forall₂ SameArr s2 s3) :
    List.Forall₂ SameArr s1 s3 := by
  induction a generalizing s3 with
  | nil => exact b
  | cons p _ ih =>
    cases b with
    | cons q b => exact .cons ⟨p.1.trans q.1, p.2.trans q.2⟩ (ih b)

theorem sameArr_mem {s1 s2 : List Slice} (a : List.Forall₂ SameArr s1 s2) {u : Slice} (hu : u ∈ s2) : ∃ s ∈ s1, SameArr s u := by
  induction a with
  | nil => simp at hu
  | cons p _ ih =>
    rcases List.mem_cons.1 hu with rfl | hu
    · exact ⟨_, by simp, p⟩
    · obtain ⟨s, hs, h⟩ := ih hu
      exact ⟨s, by simp [hs], h⟩

theorem sameArr_pairwise {s1 s2 : List Slice} (a : List.Forall₂ SameArr s1 s2) (p : s1.Pairwise Apart) : s2.Pairwise Apart := by
  induction a with
  | nil => exact .nil
  | cons q b ih =>
    rw [List.pairwise_cons] at p ⊢
    refine ⟨?_, ih p.2⟩
    intro u hu
    obtain ⟨s, hs, h⟩ := sameArr_mem b hu
    exact SameArr.apart (p.1 s hs) q h

variable [Field F] [DecidableEq F]

/-- An operation on an owner of tables: it computes `g`, keeps the tables in their arrays and writes nowhere else. -/
def OpSpec (sl : α → List Slice) (R : Heap F → α → β → Prop) (f : α → Heap F → Go (α × Heap F)) (g : β → β) : Prop :=
  ∀ h a b, R h a b → (sl a).Pairwise Apart →
    ∃ a' h', f a h = .ok (a', h') ∧ R h' a' (g b) ∧ List.Forall₂ SameArr (sl a) (sl a') ∧ FrameOn h (sl a) h'

/-- A relation that depends only on the arrays of the owner. -/
def Stable (sl : α → List Slice) (R : Heap F → α → β → Prop) : Prop :=
  ∀ h h' ss a b, R h a b → FrameOn h ss h' → (∀ s ∈ ss, ∀ u ∈ sl a, Apart s u) → R h' a b

theorem forall₂_stable {sl : α → List Slice} {R : Heap F → α → β → Prop} (st : Stable sl R) {h h' : Heap F} {ss : List Slice}
    {as : List α} {bs : List β} (r : List.Forall₂ (R h) as bs) (f : FrameOn h ss h')
    (ap : ∀ s ∈ ss, ∀ u ∈ as.flatMap sl, Apart s u) : List.Forall₂ (R h') as bs := by
  induction r with
  | nil => exact .nil
  | cons p _ ih =>
    refine .cons (st _ _ _ _ _ p f fun s hs u hu => ap s hs u ?_) (ih fun s hs u hu => ap s hs u ?_)
    · simp [hu]
    · rw [List.flatMap_cons]; exact List.mem_append_right _ hu

theorem mapH_spec {sl : α → List Slice} {R : Heap F → α → β → Prop} {f : α → Heap F → Go (α × Heap F)} {g : β → β}
    (st : Stable sl R) (op : OpSpec sl R f g) : OpSpec (fun as : List α => as.flatMap sl) (fun h as bs => List.Forall₂ (R h) as bs)
      (mapH f) (fun bs => bs.map g) := by
  intro h as bs r
  induction as generalizing h bs with
  | nil =>
    cases r
    exact fun _ => ⟨[], h, rfl, .nil, .nil, FrameOn.refl h _⟩
  | cons a as ih =>
    cases r with
    | cons p r =>
      intro pw
      simp only [List.flatMap_cons] at pw ⊢
      rw [List.pairwise_append] at pw
      obtain ⟨pw1, pw2, pw3⟩ := pw
      obtain ⟨a', h1, e1, r1, s1, f1⟩ := op h a _ p pw1
      obtain ⟨as', h2, e2, r2, s2, f2⟩ := ih h1 _ (forall₂_stable st r f1 pw3) pw2
      refine ⟨a' :: as', h2, by rw [mapH, e1, ok_bind, e2]; rfl, ?_, ?_, ?_⟩
      · refine .cons (st _ _ _ _ _ r1 f2 ?_) r2
        intro s hs u hu
        obtain ⟨v, hv, hvu⟩ := sameArr_mem s1 hu
        exact SameArr.apart (pw3 v hv s hs).symm ⟨rfl, rfl⟩ hvu
      · exact List.rel_append s1 s2
      · exact (f1.mono (List.subset_append_left _ _)).trans_cov f2 (Cov.of_subset (List.subset_append_right _ _))

theorem rep_stable : Stable (fun s => [s]) (Rep (F := F)) := by
  intro h h' ss a b r f ap
  exact r.frameOn f fun s hs => ap s hs a (by simp)

theorem foldH_op (r : F) : OpSpec (fun s => [s]) Rep (fun t h => foldH h t r) (fun v => fold v r) := by
  intro h s v rv _
  have hl := rv.valid.len
  refine ⟨_, _, foldH_eq h s r hl, ⟨⟨by simp only; omega, rv.valid.arr⟩, ?_⟩, by simp [SameArr], ⟨le_rfl, rfl, ?_⟩⟩
  · rw [fold_vals, rv.vals]
  · intro a ha hn
    funext j
    simp only [foldHeap]
    by_cases hc : 0 < s.cap
    · have := hn s (by simp) hc
      simp [this]
    · have : s.len = 0 := by omega
      rw [if_neg (by omega), if_neg (by omega)]

/-! ### The sumcheck prover -/

/-- The tables of a sub-prover. -/
def SProverH.slices (w : SProverH F) : List Slice := w.vL :: w.vR :: w.eq :: w.statics

/-- A sub-prover with given contents. -/
structure WRep (h : Heap F) (w : SProverH F) (sp : SProver F) : Prop where
  vL : Rep h w.vL sp.vL
  vR : Rep h w.vR sp.vR
  eq : Rep h w.eq sp.eq
  statics : Reps h w.statics sp.statics
  toS : w.toS h = sp

theorem Reps.vals {h : Heap F} {ss : List Slice} {vs : List (List F)} (r : Reps h ss vs) : ss.map h.vals = vs := by
  induction r with
  | nil => rfl
  | cons p _ ih => rw [List.map_cons, p.vals, ih]

theorem reps_stable : Stable (fun ss : List Slice => ss) (Reps (F := F)) := by
  intro h h' ss as bs r f ap
  have := forall₂_stable (sl := fun s => [s]) rep_stable r f (by simpa using ap)
  exact this

theorem foldAll_op (r : F) : OpSpec (fun ss : List Slice => ss) Reps (mapH fun t h => foldH h t r) (fun v => v.map (fold · r)) := by
  have := mapH_spec rep_stable (foldH_op r)
  simpa [List.flatMap_singleton'] using this

theorem wrep_mk {h : Heap F} {w : SProverH F} {vL vR eq : List F} {st : List (List F)} (h1 : Rep h w.vL vL) (h2 : Rep h w.vR vR)
    (h3 : Rep h w.eq eq) (h4 : Reps h w.statics st) : WRep h w (newSProver vL vR eq w.gates st) :=
  ⟨h1, h2, h3, h4, by unfold SProverH.toS; rw [h1.vals, h2.vals, h3.vals, h4.vals]⟩

theorem wrep_eq {h : Heap F} {w : SProverH F} {sp : SProver F} (r : WRep h w sp) :
    sp = newSProver sp.vL sp.vR sp.eq w.gates sp.statics := by
  have := r.toS
  unfold SProverH.toS at this
  rw [r.vL.vals, r.vR.vals, r.eq.vals, r.statics.vals] at this
  exact this.symm

theorem wrep_stable : Stable SProverH.slices (WRep (F := F)) := by
  intro h h' ss w sp r f ap
  rw [wrep_eq r]
  refine wrep_mk (r.vL.frameOn f ?_) (r.vR.frameOn f ?_) (r.eq.frameOn f ?_) (reps_stable _ _ _ _ _ r.statics f ?_)
  · exact fun s hs => ap s hs _ (by simp [SProverH.slices])
  · exact fun s hs => ap s hs _ (by simp [SProverH.slices])
  · exact fun s hs => ap s hs _ (by simp [SProverH.slices])
  · exact fun s hs u hu => ap s hs _ (by simp [SProverH.slices, hu])

theorem slices_pairwise {w : SProverH F} (p : w.slices.Pairwise Apart) :
    (Apart w.vL w.vR ∧ Apart w.vL w.eq ∧ ∀ s ∈ w.statics, Apart w.vL s) ∧
    (Apart w.vR w.eq ∧ ∀ s ∈ w.statics, Apart w.vR s) ∧ (∀ s ∈ w.statics, Apart w.eq s) ∧ w.statics.Pairwise Apart := by
  simpa [SProverH.slices, List.pairwise_cons] using p

theorem foldHL_op (r : F) : OpSpec SProverH.slices WRep (fun w h => w.foldHL r h) (fun sp => sp.foldHL r) := by
  intro h w sp rw' pw
  obtain ⟨⟨p1, p2, p3⟩, ⟨p4, p5⟩, p6, p7⟩ := slices_pairwise pw
  obtain ⟨ss, h1, e1, r1, s1, f1⟩ := foldAll_op r h w.statics _ rw'.statics p7
  have rL := rw'.vL.frameOn f1 fun s hs => (p3 s hs).symm
  obtain ⟨v, h2, e2, r2, s2, f2⟩ := foldH_op r h1 w.vL _ rL (by simp)
  have s2' : SameArr w.vL v := by simpa using s2
  refine ⟨{ w with statics := ss, vL := v }, h2, by simp only [SProverH.foldHL, e1, e2, ok_bind]; rfl, ?_, ?_, ?_⟩
  · have : sp.foldHL r = newSProver (fold sp.vL r) sp.vR sp.eq w.gates (sp.statics.map (fold · r)) := by
      rw [wrep_eq rw']; rfl
    simp only [this]
    refine wrep_mk (w := { w with statics := ss, vL := v }) r2 ?_ ?_ ?_
    · exact (rw'.vR.frameOn f1 fun s hs => (p5 s hs).symm).frameOn f2 (by simpa using p1)
    · exact (rw'.eq.frameOn f1 fun s hs => (p6 s hs).symm).frameOn f2 (by simpa using p2)
    · refine reps_stable _ _ _ _ _ r1 f2 ?_
      intro s hs u hu
      obtain ⟨t, ht, htu⟩ := sameArr_mem s1 hu
      rw [List.mem_singleton.1 hs]
      exact SameArr.apart (p3 t ht) ⟨rfl, rfl⟩ htu
  · exact .cons s2' (.cons ⟨rfl, rfl⟩ (.cons ⟨rfl, rfl⟩ s1))
  · refine (f1.mono ?_).trans_cov f2 (Cov.of_subset ?_) <;> intro s hs <;> simp_all [SProverH.slices]

theorem foldHR_op (r : F) : OpSpec SProverH.slices WRep (fun w h => w.foldHR r h) (fun sp => sp.foldHR r) := by
  intro h w sp rw' pw
  obtain ⟨⟨p1, p2, p3⟩, ⟨p4, p5⟩, p6, p7⟩ := slices_pairwise pw
  obtain ⟨ss, h1, e1, r1, s1, f1⟩ := foldAll_op r h w.statics _ rw'.statics p7
  have rR := rw'.vR.frameOn f1 fun s hs => (p5 s hs).symm
  obtain ⟨v, h2, e2, r2, s2, f2⟩ := foldH_op r h1 w.vR _ rR (by simp)
  have s2' : SameArr w.vR v := by simpa using s2
  refine ⟨{ w with statics := ss, vR := v }, h2, by simp only [SProverH.foldHR, e1, e2, ok_bind]; rfl, ?_, ?_, ?_⟩
  · have : sp.foldHR r = newSProver sp.vL (fold sp.vR r) sp.eq w.gates (sp.statics.map (fold · r)) := by
      rw [wrep_eq rw']; rfl
    simp only [this]
    refine wrep_mk (w := { w with statics := ss, vR := v }) ?_ r2 ?_ ?_
    · exact (rw'.vL.frameOn f1 fun s hs => (p3 s hs).symm).frameOn f2 (by simpa using p1.symm)
    · exact (rw'.eq.frameOn f1 fun s hs => (p6 s hs).symm).frameOn f2 (by simpa using p4)
    · refine reps_stable _ _ _ _ _ r1 f2 ?_
      intro s hs u hu
      obtain ⟨t, ht, htu⟩ := sameArr_mem s1 hu
      rw [List.mem_singleton.1 hs]
      exact SameArr.apart (p5 t ht) ⟨rfl, rfl⟩ htu
  · exact .cons ⟨rfl, rfl⟩ (.cons s2' (.cons ⟨rfl, rfl⟩ s1))
  · refine (f1.mono ?_).trans_cov f2 (Cov.of_subset ?_) <;> intro s hs <;> simp_all [SProverH.slices]

theorem foldHPrime_op (r : F) : OpSpec SProverH.slices WRep (fun w h => w.foldHPrime r h) (fun sp => sp.foldHPrime r) := by
  intro h w sp rw' pw
  obtain ⟨⟨p1, p2, p3⟩, ⟨p4, p5⟩, p6, p7⟩ := slices_pairwise pw
  obtain ⟨a, h1, e1, r1, s1, f1⟩ := foldH_op r h w.vR _ rw'.vR (by simp)
  have s1' : SameArr w.vR a := by simpa using s1
  have rL := rw'.vL.frameOn f1 (by simpa using p1.symm)
  obtain ⟨b, h2, e2, r2, s2, f2⟩ := foldH_op r h1 w.vL _ rL (by simp)
  have s2' : SameArr w.vL b := by simpa using s2
  have rE := (rw'.eq.frameOn f1 (by simpa using p4)).frameOn f2 (by simpa using p2)
  obtain ⟨c, h3, e3, r3, s3, f3⟩ := foldH_op r h2 w.eq _ rE (by simp)
  have s3' : SameArr w.eq c := by simpa using s3
  refine ⟨{ w with vR := a, vL := b, eq := c }, h3, by simp only [SProverH.foldHPrime, e1, e2, e3, ok_bind]; rfl, ?_, ?_, ?_⟩
  · have : sp.foldHPrime r = newSProver (fold sp.vL r) (fold sp.vR r) (fold sp.eq r) w.gates sp.statics := by
      rw [wrep_eq rw']; rfl
    simp only [this]
    refine wrep_mk (w := { w with vR := a, vL := b, eq := c }) ?_ ?_ r3 ?_
    · exact r2.frameOn f3 (by simpa using SameArr.apart p2.symm ⟨rfl, rfl⟩ s2')
    · refine (r1.frameOn f2 ?_).frameOn f3 ?_
      · simpa using SameArr.apart p1 ⟨rfl, rfl⟩ s1'
      · simpa using SameArr.apart p4.symm ⟨rfl, rfl⟩ s1'
    · refine reps_stable _ _ _ _ _ (reps_stable _ _ _ _ _ (reps_stable _ _ _ _ _ rw'.statics f1 ?_) f2 ?_) f3 ?_ <;>
        simpa
  · exact .cons s2' (.cons s1' (.cons s3' (sameArr_refl _)))
  · refine ((f1.mono ?_).trans_cov f2 (Cov.of_subset ?_)).trans_cov f3 (Cov.of_subset ?_) <;> intro s hs <;>
      simp_all [SProverH.slices]

theorem workerFold_op (bG k : Nat) (r : F) :
    OpSpec SProverH.slices WRep (fun w h => workerFoldH bG k r w h) (fun sp => workerFold bG k sp r) := by
  unfold workerFoldH workerFold
  by_cases h1 : k < bG
  · simp only [h1, if_true]; exact foldHL_op r
  · by_cases h2 : k < 2 * bG
    · simp only [h1, h2, if_true, if_false]; exact foldHR_op r
    · simp only [h1, h2, if_false]; exact foldHPrime_op r

theorem deepCopies_spec : ∀ (ss : List Slice) (vs : List (List F)) (h : Heap F), Reps h ss vs →
    ∃ ss' h', mapH (fun t h => .ok (deepCopyH h t)) ss h = .ok (ss', h') ∧ Reps h' ss' vs ∧ (∀ s ∈ ss', Outside h s) ∧
      ss'.Pairwise Apart ∧ Frame h h'
  | [], _, h, .nil => ⟨[], h, rfl, .nil, by simp, .nil, Frame.refl h⟩
  | s :: ss, _, h, .cons (b := v) (l₂ := vs) r rs => by
    obtain ⟨f1, v1, o1, e1⟩ := deepCopy_spec (Frame.refl h) r.valid
    rcases e : deepCopyH h s with ⟨t, h1⟩
    rw [e] at f1 v1 o1 e1
    simp only at f1 v1 o1 e1
    obtain ⟨ss', h2, e2, r2, o2, p2, f2⟩ := deepCopies_spec ss vs h1 (Reps.frame rs f1)
    have rt : Rep h1 t v := ⟨v1, by rw [e1, r.vals]⟩
    refine ⟨t :: ss', h2, by simp only [mapH, e, ok_bind, e2]; rfl, .cons (rt.frame f2) r2, ?_, ?_, f1.trans f2⟩
    · intro u hu
      rcases List.mem_cons.1 hu with rfl | hu
      · exact o1
      · exact (o2 u hu).mono f1
    · exact .cons (fun u hu => (o2 u hu).apart' v1) p2

/-- The prover of a chunked instance with given contents. -/
structure MRep (h : Heap F) (p : MProverH F) (mp : MProver F) : Prop where
  vL : Reps h p.vL mp.vL
  vR : Reps h p.vR mp.vR
  eq : Reps h p.eq mp.eq
  statics : Reps h p.statics mp.statics
  gates : p.gates = mp.gates

/-- The tables that the workers get. -/
def MProverH.base (p : MProverH F) : List Slice := p.vL ++ p.vR ++ p.eq

/-- `w` has the tables of chunk `i`. -/
structure WorkerOf (p : MProverH F) (i : Nat) (w : SProverH F) : Prop where
  vL : idx p.vL i = .ok w.vL
  vR : idx p.vR i = .ok w.vR
  eq : idx p.eq i = .ok w.eq

theorem MRep.frame {h h' : Heap F} {p : MProverH F} {mp : MProver F} (r : MRep h p mp) (f : Frame h h') : MRep h' p mp :=
  ⟨Reps.frame r.vL f, Reps.frame r.vR f, Reps.frame r.eq f, Reps.frame r.statics f, r.gates⟩

theorem idx_mem {l : List α} {i : Nat} {a : α} (e : idx l i = .ok a) : a ∈ l := by
  by_cases hi : i < l.length
  · rw [idx_ok hi] at e
    cases e
    exact List.getElem_mem hi
  · rw [idx_err (by omega)] at e
    cases e

theorem pairwise_idx {R : α → α → Prop} {l : List α} (p : l.Pairwise R) {i j : Nat} {a b : α} (hij : i < j) (ha : idx l i = .ok a)
    (hb : idx l j = .ok b) : R a b := by
  by_cases hj : j < l.length
  · rw [idx_ok (by omega)] at ha
    rw [idx_ok hj] at hb
    cases ha
    cases hb
    exact List.pairwise_iff_getElem.1 p i j _ hj hij
  · rw [idx_err (by omega)] at hb
    cases hb

theorem Reps.valid {h : Heap F} {ss : List Slice} {vs : List (List F)} (r : Reps h ss vs) : ∀ s ∈ ss, Valid h s := by
  induction r with
  | nil => simp
  | cons p _ ih =>
    intro s hs
    rcases List.mem_cons.1 hs with rfl | hs
    · exact p.valid
    · exact ih s hs

theorem subProver_sim {h : Heap F} {p : MProverH F} {mp : MProver F} (R : MRep h p mp) (i : Nat) :
    Sim (fun w h' sp => WRep h' w sp ∧ WorkerOf p i w ∧ (∀ s ∈ w.statics, Outside h s) ∧ w.statics.Pairwise Apart ∧ Frame h h')
      (p.subProver i h) (mp.subProver i) := by
  unfold MProverH.subProver MProver.subProver
  obtain ⟨ss, h1, e1, r1, o1, p1, f1⟩ := deepCopies_spec _ _ _ R.statics
  rw [e1, ok_bind]
  rcases forall₂_idx R.vL i with ⟨a, av, ea, eav, ra⟩ | ⟨ea, eav⟩
  · rw [ea, eav, ok_bind, ok_bind]
    rcases forall₂_idx R.vR i with ⟨b, bv, eb, ebv, rb⟩ | ⟨eb, ebv⟩
    · rw [eb, ebv, ok_bind, ok_bind]
      rcases forall₂_idx R.eq i with ⟨c, cv, ec, ecv, rc⟩ | ⟨ec, ecv⟩
      · rw [ec, ecv, ok_bind, ok_bind]
        refine ⟨?_, ⟨ea, eb, ec⟩, o1, p1, f1⟩
        rw [← R.gates]
        exact wrep_mk (w := ⟨a, b, c, p.gates, ss⟩) (ra.frame f1) (rb.frame f1) (rc.frame f1) r1
      · rw [ec, ecv]; exact rfl
    · rw [eb, ebv]; exact rfl
  · rw [ea, eav]; exact rfl

theorem worker_pairwise {h : Heap F} {p : MProverH F} {i : Nat} {w : SProverH F} (hv : ∀ s ∈ p.base, Valid h s)
    (pw : p.base.Pairwise Apart) (k : WorkerOf p i w) (o : ∀ s ∈ w.statics, Outside h s) (ps : w.statics.Pairwise Apart) :
    w.slices.Pairwise Apart := by
  have mL : w.vL ∈ p.vL := idx_mem k.vL
  have mR : w.vR ∈ p.vR := idx_mem k.vR
  have mE : w.eq ∈ p.eq := idx_mem k.eq
  unfold MProverH.base at pw hv
  rw [List.pairwise_append, List.pairwise_append] at pw
  obtain ⟨⟨_, _, q1⟩, _, q2⟩ := pw
  simp only [SProverH.slices, List.pairwise_cons, List.mem_cons, forall_eq_or_imp]
  exact ⟨⟨q1 _ mL _ mR, q2 _ (by simp [mL]) _ mE, fun s hs => (o s hs).apart' (hv _ (by simp [mL]))⟩,
    ⟨q2 _ (by simp [mR]) _ mE, fun s hs => (o s hs).apart' (hv _ (by simp [mR]))⟩,
    fun s hs => (o s hs).apart' (hv _ (by simp [mE])), ps⟩

theorem workers_apart {h h1 : Heap F} {p : MProverH F} {i j : Nat} {w w' : SProverH F} (hv : ∀ s ∈ p.base, Valid h s)
    (pw : p.base.Pairwise Apart) (hij : i < j) (k : WorkerOf p i w) (k' : WorkerOf p j w') (f : Frame h h1)
    (o : ∀ s ∈ w.statics, Outside h s) (v : ∀ s ∈ w.statics, Valid h1 s) (o' : ∀ s ∈ w'.statics, Outside h1 s) :
    ∀ s ∈ w.slices, ∀ u ∈ w'.slices, Apart s u := by
  have mL : w.vL ∈ p.vL := idx_mem k.vL
  have mR : w.vR ∈ p.vR := idx_mem k.vR
  have mE : w.eq ∈ p.eq := idx_mem k.eq
  have mL' : w'.vL ∈ p.vL := idx_mem k'.vL
  have mR' : w'.vR ∈ p.vR := idx_mem k'.vR
  have mE' : w'.eq ∈ p.eq := idx_mem k'.eq
  unfold MProverH.base at pw hv
  rw [List.pairwise_append, List.pairwise_append] at pw
  obtain ⟨⟨q1, q2, q3⟩, q4, q5⟩ := pw
  have oh : ∀ s ∈ w'.statics, Outside h s := fun s hs => (o' s hs).mono f
  simp only [SProverH.slices, List.mem_cons, forall_eq_or_imp]
  have vL := hv w.vL (by simp [mL])
  have vR := hv w.vR (by simp [mR])
  have vE := hv w.eq (by simp [mE])
  have vL' := hv w'.vL (by simp [mL'])
  have vR' := hv w'.vR (by simp [mR'])
  have vE' := hv w'.eq (by simp [mE'])
  refine ⟨⟨pairwise_idx q1 hij k.vL k'.vL, q3 _ mL _ mR', q5 _ (by simp [mL]) _ mE', fun s hs => (oh s hs).apart' vL⟩,
    ⟨(q3 _ mL' _ mR).symm, pairwise_idx q2 hij k.vR k'.vR, q5 _ (by simp [mR]) _ mE', fun s hs => (oh s hs).apart' vR⟩,
    ⟨(q5 _ (by simp [mL']) _ mE).symm, (q5 _ (by simp [mR']) _ mE).symm, pairwise_idx q4 hij k.eq k'.eq,
      fun s hs => (oh s hs).apart' vE⟩, ?_⟩
  intro s hs
  exact ⟨(o s hs).apart vL', (o s hs).apart vR', (o s hs).apart vE', fun u hu => (o' u hu).apart' (v s hs)⟩

theorem WRep.valid {h : Heap F} {w : SProverH F} {sp : SProver F} (r : WRep h w sp) : ∀ s ∈ w.slices, Valid h s := by
  simp only [SProverH.slices, List.mem_cons, forall_eq_or_imp]
  exact ⟨r.vL.valid, r.vR.valid, r.eq.valid, Reps.valid r.statics⟩

theorem WRep.frame {h h' : Heap F} {w : SProverH F} {sp : SProver F} (r : WRep h w sp) (f : Frame h h') : WRep h' w sp :=
  wrep_stable h h' [] w sp r (FrameOn.of_frame f) (by simp)

theorem workers_sim {h0 : Heap F} {p : MProverH F} {mp : MProver F} (R : MRep h0 p mp) (pw : p.base.Pairwise Apart) :
    ∀ (n k : Nat) (h : Heap F), Frame h0 h →
    Sim (fun ws h' sps => List.Forall₂ (WRep h') ws sps ∧ (ws.flatMap SProverH.slices).Pairwise Apart ∧
        (∀ w ∈ ws, ∃ j, k ≤ j ∧ WorkerOf p j w ∧ ∀ s ∈ w.statics, Outside h s) ∧ Frame h h')
      (genH p.subProver k n h) (genM mp.subProver k n)
  | 0, k, h, _ => ⟨.nil, .nil, by simp, Frame.refl h⟩
  | n + 1, k, h, f0 => by
    rw [genH]
    have e : genM mp.subProver k (n + 1) = (mp.subProver k >>= fun y => genM mp.subProver (k + 1) n >>= fun ys => .ok (y :: ys)) := by
      rw [genM]
      cases mp.subProver k with
      | error e => rfl
      | ok y =>
        simp only [ok_bind]
        cases genM mp.subProver (k + 1) n <;> rfl
    rw [e]
    have R' := R.frame f0
    have hv : ∀ s ∈ p.base, Valid h s := by
      intro s hs
      unfold MProverH.base at hs
      rcases List.mem_append.1 hs with hs | hs
      · rcases List.mem_append.1 hs with hs | hs
        · exact Reps.valid R'.vL s hs
        · exact Reps.valid R'.vR s hs
      · exact Reps.valid R'.eq s hs
    refine (subProver_sim R' k).bind ?_
    rintro w h1 sp ⟨r1, k1, o1, p1, f1⟩
    refine (workers_sim R pw n (k + 1) h1 (f0.trans f1)).bind ?_
    rintro ws h2 sps ⟨r2, p2, k2, f2⟩
    refine ⟨.cons (r1.frame f2) r2, ?_, ?_, f1.trans f2⟩
    · rw [List.flatMap_cons, List.pairwise_append]
      refine ⟨worker_pairwise hv pw k1 o1 p1, p2, ?_⟩
      intro s hs u hu
      obtain ⟨w', hw', hu⟩ := List.mem_flatMap.1 hu
      obtain ⟨j, hj, kj, oj⟩ := k2 w' hw'
      refine workers_apart hv pw (by omega) k1 kj f1 o1 (fun s hs => r1.valid s ?_) oj s hs u hu
      simp [SProverH.slices, hs]
    · intro w' hw'
      rcases List.mem_cons.1 hw' with rfl | hw'
      · exact ⟨k, le_rfl, k1, o1⟩
      · obtain ⟨j, hj, kj, oj⟩ := k2 w' hw'
        exact ⟨j, by omega, kj, fun s hs => (oj s hs).mono f1⟩

/-! ### Rounds -/

theorem map_toS {h : Heap F} {ws : List (SProverH F)} {sps : List (SProver F)} (r : List.Forall₂ (WRep h) ws sps) :
    (ws.map fun w => w.toS h) = sps := by
  induction r with
  | nil => rfl
  | cons p _ ih => rw [List.map_cons, p.toS, ih]

theorem zip_flatMap {ws : List (SProverH F)} {ds : List γ} (h : ws.length = ds.length) :
    (ws.zip ds).flatMap (fun x => x.1.slices) = ws.flatMap SProverH.slices := by
  have : (ws.zip ds).flatMap (fun x => x.1.slices) = ((ws.zip ds).map Prod.fst).flatMap SProverH.slices := by
    rw [List.flatMap_map]
  rw [this, List.map_fst_zip h.le]

theorem forall₂_zip {R : α → β → Prop} {as : List α} {bs : List β} (r : List.Forall₂ R as bs) (ds : List γ) :
    List.Forall₂ (fun x y => R x.1 y.1 ∧ x.2 = y.2) (as.zip ds) (bs.zip ds) := by
  induction r generalizing ds with
  | nil => simp
  | cons p _ ih =>
    cases ds with
    | nil => simp
    | cons d ds => exact .cons ⟨p, rfl⟩ (ih ds)

theorem forall₂_zip' {R : α → β → Prop} {as : List α} {bs : List β} (r : List.Forall₂ R as bs) (ds : List γ) :
    List.Forall₂ (fun x y => x.1 = y.1 ∧ R x.2 y.2) (ds.zip as) (ds.zip bs) := by
  induction r generalizing ds with
  | nil => simp
  | cons p _ ih =>
    cases ds with
    | nil => simp
    | cons d ds => exact .cons ⟨rfl, p⟩ (ih ds)

/-- The folds of all workers at the end of a round. -/
theorem workersFold_op (k : Nat) (r : F) (dims : List (Nat × Nat)) {h : Heap F} {ws : List (SProverH F)} {sps : List (SProver F)}
    (rs : List.Forall₂ (WRep h) ws sps) (pw : (ws.flatMap SProverH.slices).Pairwise Apart) (hl : ws.length = dims.length) :
    ∃ xs h', mapH (fun x h => do
        let w ← workerFoldH x.2.1 k r x.1 h
        return ((w.1, x.2), w.2)) (ws.zip dims) h = .ok (xs, h') ∧
      List.Forall₂ (WRep h') (xs.map (·.1)) ((sps.zip dims).map fun x => workerFold x.2.1 k x.1 r) ∧
      List.Forall₂ SameArr (ws.flatMap SProverH.slices) ((xs.map (·.1)).flatMap SProverH.slices) ∧
      FrameOn h (ws.flatMap SProverH.slices) h' ∧ (xs.map (·.1)).length = dims.length := by
  have st : Stable (fun x : SProverH F × (Nat × Nat) => x.1.slices)
      (fun h (x : SProverH F × (Nat × Nat)) (y : SProver F × (Nat × Nat)) => WRep h x.1 y.1 ∧ x.2 = y.2) :=
    fun h h' ss a b r f ap => ⟨wrep_stable _ _ _ _ _ r.1 f ap, r.2⟩
  have op : OpSpec (fun x : SProverH F × (Nat × Nat) => x.1.slices)
      (fun h (x : SProverH F × (Nat × Nat)) (y : SProver F × (Nat × Nat)) => WRep h x.1 y.1 ∧ x.2 = y.2)
      (fun x h => do
        let w ← workerFoldH x.2.1 k r x.1 h
        return ((w.1, x.2), w.2))
      (fun y => (workerFold y.2.1 k y.1 r, y.2)) := by
    rintro h ⟨w, d⟩ ⟨sp, d'⟩ ⟨rw', hd⟩ pw
    simp only at hd rw' pw
    subst hd
    obtain ⟨w', h', e, r1, s1, f1⟩ := workerFold_op d.1 k r h w sp rw' pw
    refine ⟨(w', d), h', ?_, ⟨r1, rfl⟩, s1, f1⟩
    simp only at e
    simp only [e, ok_bind]
    rfl
  obtain ⟨xs, h', e, r1, s1, f1⟩ := mapH_spec st op h (ws.zip dims) (sps.zip dims) (forall₂_zip rs dims)
    (by simp only [zip_flatMap hl]; exact pw)
  simp only [zip_flatMap hl] at s1 f1
  refine ⟨xs, h', e, ?_, ?_, f1, ?_⟩
  · rw [List.forall₂_map_left_iff, List.forall₂_map_right_iff]
    rw [List.forall₂_map_right_iff] at r1
    exact List.Forall₂.imp (fun a b p => p.1) r1
  · rw [List.flatMap_map]
    exact s1
  · have := r1.length_eq
    simp only [List.length_map, List.length_zip] at this ⊢
    have := rs.length_eq
    omega

/-! ### Merging the workers -/

theorem consumeMergeProversH_sim {n : Nat} {h : Heap F} {l : List (Nat × SProverH F)} {lv : List (Nat × SProver F)}
    (r : List.Forall₂ (fun x y => x.1 = y.1 ∧ WRep h x.2 y.2) l lv) (pw : ∀ x ∈ l, x.2.slices.Pairwise Apart) :
    Sim (fun w h' sp => WRep h' w sp ∧ w.slices.Pairwise Apart ∧ (∃ x ∈ l, w.statics = x.2.statics) ∧
        (Outside h w.vL ∧ Outside h w.vR ∧ Outside h w.eq) ∧ Frame h h')
      (consumeMergeProversH n l h) (consumeMergeProvers n lv) := by
  unfold consumeMergeProversH consumeMergeProvers
  simp only
  obtain ⟨ra, oa, fa⟩ := make_rep h n
  generalize h.make n = a at ra oa fa
  obtain ⟨rb, ob, fb⟩ := make_rep a.2 n
  generalize a.2.make n = b at rb ob fb
  obtain ⟨rc, oc, fc⟩ := make_rep b.2 n
  generalize b.2.make n = c at rc oc fc
  have ab : Apart a.1 b.1 := ob.apart' ra.valid
  have ac : Apart a.1 c.1 := oc.apart' (ra.valid.frame fb)
  have bc : Apart b.1 c.1 := oc.apart' rb.valid
  have ob' := ob.mono fa
  have oc' := (oc.mono fb).mono fa
  cases r with
  | nil => exact rfl
  | @cons m mv ms msv pm pms =>
    simp only
    have key := SimR.forEach (xs := m :: ms) (ys := mv :: msv) (.cons pm pms)
      (R := fun (h' : Heap F) (s : List F × List F × List F) => Rep h' a.1 s.1 ∧ Rep h' b.1 s.2.1 ∧ Rep h' c.1 s.2.2 ∧ Frame h h')
      (f := fun ip h => do
        let x ← h.load ip.2.vL 0
        let h ← h.store a.1 ip.1 x
        let x ← h.load ip.2.vR 0
        let h ← h.store b.1 ip.1 x
        let x ← h.load ip.2.eq 0
        h.store c.1 ip.1 x)
      (g := fun ip s => do
        let l ← idx ip.2.vL 0
        let a ← setIdx s.1 ip.1 l
        let r ← idx ip.2.vR 0
        let b ← setIdx s.2.1 ip.1 r
        let e ← idx ip.2.eq 0
        let c ← setIdx s.2.2 ip.1 e
        return (a, b, c)) ?_ c.2
      (List.replicate n 0, List.replicate n 0, List.replicate n 0)
      ⟨(ra.frame fb).frame fc, rb.frame fc, rc, (fa.trans fb).trans fc⟩
    · have := (key.bind (Q := fun p sp => WRep p.2 p.1 sp ∧ p.1.slices.Pairwise Apart ∧
          (∃ x ∈ m :: ms, p.1.statics = x.2.statics) ∧
          (Outside h p.1.vL ∧ Outside h p.1.vR ∧ Outside h p.1.eq) ∧ Frame h p.2)
        (f := fun h => .ok ((⟨a.1, b.1, c.1, m.2.gates, m.2.statics⟩ : SProverH F), h))
        (g := fun s => .ok (newSProver s.1 s.2.1 s.2.2 mv.2.gates mv.2.statics)) ?_).toSim
        (P := fun w h' sp => WRep h' w sp ∧ w.slices.Pairwise Apart ∧ (∃ x ∈ m :: ms, w.statics = x.2.statics) ∧
        (Outside h w.vL ∧ Outside h w.vR ∧ Outside h w.eq) ∧ Frame h h')
      · exact this
      · rintro h' s ⟨r1, r2, r3, f⟩
        have eg : mv.2.gates = m.2.gates := by rw [wrep_eq pm.2]; rfl
        have vs : ∀ s ∈ m.2.statics, Valid h s := Reps.valid pm.2.statics
        refine ⟨?_, ?_, ⟨m, by simp, rfl⟩, ⟨oa, ob', oc'⟩, f⟩
        · rw [eg]
          exact wrep_mk (w := ⟨a.1, b.1, c.1, m.2.gates, m.2.statics⟩) r1 r2 r3 (Reps.frame pm.2.statics f)
        · simp only [SProverH.slices, List.pairwise_cons, List.mem_cons, forall_eq_or_imp]
          exact ⟨⟨ab, ac, fun s hs => oa.apart (vs s hs)⟩, ⟨bc, fun s hs => ob'.apart (vs s hs)⟩,
            fun s hs => oc'.apart (vs s hs), (slices_pairwise (pw m (by simp))).2.2.2⟩
    · rintro ⟨i, w⟩ ⟨i', sp⟩ h1 s ⟨rfl, rw'⟩ ⟨r1, r2, r3, f⟩
      simp only at rw' ⊢
      have stp : ∀ {d : Slice} {t : List F} {h1 : Heap F} (i : Nat) (x : F), Outside h d → Frame h h1 → Rep h1 d t →
          SimR (fun h2 t' => Rep h2 d t' ∧ Frame h h2 ∧ FrameBut h1 d h2) (h1.store d i x) (setIdx t i x) := by
        intro d t h1 i x o f r
        rcases store_sim r i x with ⟨h2, e1, e2, r', fr⟩ | ⟨e1, e2⟩
        · have := store_frameBut r.valid e1
          rw [e1, e2]
          exact ⟨r', fr h f o, this⟩
        · rw [e1, e2]; exact rfl
      rw [(rw'.vL.frame f).load]
      refine SimR.pureBind fun x _ => ?_
      refine (stp i x oa f r1).bind ?_
      rintro h2 t ⟨r1', f2, b2⟩
      rw [(rw'.vR.frame f2).load]
      refine SimR.pureBind fun x _ => ?_
      refine (stp i x ob' f2 (r2.frameBut b2 ab)).bind ?_
      rintro h3 t' ⟨r2', f3, b3⟩
      rw [(rw'.eq.frame f3).load]
      refine SimR.pureBind fun x _ => ?_
      rw [← bind_ok (h3.store c.1 i x)]
      refine (stp i x oc' f3 ((r3.frameBut b2 ac).frameBut b3 bc)).bind ?_
      rintro h4 t'' ⟨r3', f4, b4⟩
      exact ⟨(r1'.frameBut b3 ab.symm).frameBut b4 ac.symm, r2'.frameBut b4 bc.symm, r3', f4⟩

theorem newSlice_sim (h : Heap F) (l : List F) :
    Sim (fun s h' v => (Rep h' s v ∧ Outside h s) ∧ Frame h h') (newSlice h l) (.ok l) := by
  have := makeFill_sim h l.length (fun i => l.getD i 0)
  have e : (List.range l.length).map (fun i => l.getD i 0) = l := by
    apply List.ext_getElem (by simp)
    intro i h1 h2
    simp [List.getD_eq_getElem?_getD, h2]
  rw [e] at this
  exact this

/-- What `Prove` returns. -/
structure ORep (h : Heap F) (o : SumcheckOutH F) (v : SumcheckOut F) : Prop where
  coeffs : o.polyCoeffs = v.polyCoeffs
  qPrime : Rep h o.qPrime v.qPrime
  qL : Rep h o.qL v.qL
  qR : Rep h o.qR v.qR
  claims : o.finalClaims = v.finalClaims

theorem MRep.valid {h : Heap F} {p : MProverH F} {mp : MProver F} (R : MRep h p mp) : ∀ s ∈ p.base, Valid h s := by
  intro s hs
  unfold MProverH.base at hs
  rcases List.mem_append.1 hs with hs | hs
  · rcases List.mem_append.1 hs with hs | hs
    · exact Reps.valid R.vL s hs
    · exact Reps.valid R.vR s hs
  · exact Reps.valid R.eq s hs

theorem workers_cov {h : Heap F} {p : MProverH F} {ws : List (SProverH F)}
    (k : ∀ w ∈ ws, ∃ j, 0 ≤ j ∧ WorkerOf p j w ∧ ∀ s ∈ w.statics, Outside h s) :
    Cov h p.base (ws.flatMap SProverH.slices) := by
  intro s hs hc
  obtain ⟨w, hw, hs⟩ := List.mem_flatMap.1 hs
  obtain ⟨j, _, kj, oj⟩ := k w hw
  simp only [SProverH.slices, List.mem_cons] at hs
  rcases hs with rfl | rfl | rfl | hs
  · exact .inr ⟨_, by simp [MProverH.base, idx_mem kj.vL], hc, rfl⟩
  · exact .inr ⟨_, by simp [MProverH.base, idx_mem kj.vR], hc, rfl⟩
  · exact .inr ⟨_, by simp [MProverH.base, idx_mem kj.eq], hc, rfl⟩
  · exact .inl (oj s hs hc)

theorem Frame.cov {h h' : Heap F} {base ss : List Slice} (f : Frame h h') (c : Cov h' base ss) : Cov h base ss := by
  intro s hs hc
  have := f.next
  rcases c s hs hc with h | h
  · exact .inl (by omega)
  · exact .inr h

theorem SimR.idxBind {R : α → β → Prop} {xs : List α} {ys : List β} (r : List.Forall₂ R xs ys) (i : Nat)
    {Q : γ → δ → Prop} {f : α → Go γ} {g : β → Go δ} (k : ∀ x y, R x y → SimR Q (f x) (g y)) :
    SimR Q (idx xs i >>= f) (idx ys i >>= g) := by
  rcases forall₂_idx r i with ⟨x, y, h1, h2, h3⟩ | ⟨h1, h2⟩
  · rw [h1, h2]; exact k x y h3
  · rw [h1, h2]; exact rfl

theorem mapGo_len {f : α → Go β} : ∀ {xs : List α} {ys : List β}, mapGo f xs = .ok ys → xs.length = ys.length
  | [], ys, h => by cases h; rfl
  | x :: xs, ys, h => by
    rw [mapGo] at h
    rcases hf : f x with e | y
    · rw [hf] at h; cases h
    · rw [hf] at h
      rcases hx : mapGo f xs with e | ys'
      · rw [hx] at h; cases h
      · rw [hx] at h
        cases h
        simp [mapGo_len hx]

/-- `Prove` on memory: the result is that on values, and of the arrays that existed only those of the tables of `vL`, `vR` and
`eq` are written. -/
theorem mproveH_sim (H : List F → F) {h : Heap F} {p : MProverH F} {mp : MProver F} (R : MRep h p mp)
    (pw : p.base.Pairwise Apart) (nCore : Int) :
    SimR (fun o v => ORep o.2 o.1 v ∧ FrameOn h p.base o.2) (p.prove H nCore h) (mp.prove H nCore) := by
  unfold MProverH.prove MProver.prove
  simp only
  rw [R.eq.length_eq]
  refine SimR.idxBind R.eq 0 fun eq0 eq0v re => ?_
  refine SimR.idxBind R.vL 0 fun vL0 vL0v rl => ?_
  rw [re.len, rl.len]
  refine SimR.pureBind fun g _ => ?_
  refine SimR.pureBind fun _ _ => ?_
  refine (workers_sim R pw _ 0 h (Frame.refl h)).toR.bind ?_
  rintro ⟨ws, h1⟩ sps ⟨r1, p1, k1, f1⟩
  simp only at r1 p1 f1 ⊢
  rw [map_toS r1]
  refine SimR.pureBind fun dims hd => ?_
  have hdl : ws.length = dims.length := by
    rw [r1.length_eq]
    exact mapGo_len hd
  have cov := workers_cov k1
  split
  · exact rfl
  refine (SimR.forN (R := fun (s : (List (SProverH F) × Heap F) × List (List F) × List F)
      (t : List (SProver F) × List (List F) × List F) => s.2 = t.2 ∧ List.Forall₂ (WRep s.1.2) s.1.1 t.1 ∧
      (s.1.1.flatMap SProverH.slices).Pairwise Apart ∧ Cov h p.base (s.1.1.flatMap SProverH.slices) ∧
      s.1.1.length = dims.length ∧ FrameOn h p.base s.1.2)
      ⟨rfl, r1, p1, cov, hdl, FrameOn.of_frame f1⟩ ?_).bind ?_
  · rintro k ⟨⟨ws, h2⟩, c, q⟩ ⟨sps, c', q'⟩ _ ⟨hcq, r2, p2, cov2, l2, f2⟩
    simp only [Prod.mk.injEq] at hcq r2 p2 cov2 l2 f2 ⊢
    obtain ⟨rfl, rfl⟩ := hcq
    rw [map_toS r2]
    refine SimR.pureBind fun msgs _ => ?_
    refine SimR.pureBind fun evals _ => ?_
    refine SimR.pureBind fun c _ => ?_
    obtain ⟨xs, h3, e3, r3, s3, f3, l3⟩ := workersFold_op k (H c) dims r2 p2 l2
    rw [e3, ok_bind]
    exact ⟨rfl, r3, sameArr_pairwise s3 p2, cov2.same s3, l3, f2.trans_cov f3 cov2⟩
  rintro ⟨⟨ws, h2⟩, c, q⟩ ⟨sps, c', q'⟩ ⟨hcq, r2, p2, cov2, l2, f2⟩
  simp only [Prod.mk.injEq] at hcq r2 p2 cov2 l2 f2 ⊢
  obtain ⟨rfl, rfl⟩ := hcq
  have pws : ∀ w ∈ ws, w.slices.Pairwise Apart := by
    intro w hw
    exact (List.pairwise_flatMap.1 p2).1 w hw
  refine (consumeMergeProversH_sim (forall₂_zip' r2 _) ?_).toR.bind ?_
  · rintro ⟨i, w⟩ hx
    exact pws w (List.of_mem_zip hx).2
  rintro ⟨np, h3⟩ npv ⟨r3, p3, ⟨x, hx, e3⟩, ⟨o1, o2, o3⟩, f3⟩
  simp only at r3 p3 e3 o1 o2 o3 f3 ⊢
  have cov3 : Cov h p.base np.slices := by
    have hn := f2.next
    have hn' : ∀ {s : Slice}, Outside h2 s → Outside h s := fun o hc => hn.trans (o hc)
    intro s hs hc
    simp only [SProverH.slices, List.mem_cons] at hs
    rcases hs with rfl | rfl | rfl | hs
    · exact .inl (hn' o1 hc)
    · exact .inl (hn' o2 hc)
    · exact .inl (hn' o3 hc)
    · rw [e3] at hs
      exact cov2 s (List.mem_flatMap.2 ⟨x.2, (List.of_mem_zip (a := x.1) (b := x.2) hx).2, by simp [SProverH.slices, hs]⟩) hc
  have f03 : FrameOn h p.base h3 := f2.trans_cov (ss := []) (FrameOn.of_frame f3) (Cov.of_subset (by simp))
  unfold rounds
  refine (SimR.forN (R := fun (s : (SProverH F × Heap F) × List (List F) × List F) (t : SProver F × List (List F) × List F) =>
      s.2 = t.2 ∧ WRep s.1.2 s.1.1 t.1 ∧ s.1.1.slices.Pairwise Apart ∧ Cov h p.base s.1.1.slices ∧ FrameOn h p.base s.1.2)
      ⟨rfl, r3, p3, cov3, f03⟩ ?_).bind ?_
  · rintro k ⟨⟨w, h4⟩, c, q⟩ ⟨sp, c', q'⟩ _ ⟨hcq, r4, p4, cov4, f4⟩
    simp only [Prod.mk.injEq] at hcq r4 p4 cov4 f4 ⊢
    obtain ⟨rfl, rfl⟩ := hcq
    rw [r4.toS]
    refine SimR.pureBind fun e _ => ?_
    refine SimR.pureBind fun c _ => ?_
    obtain ⟨w', h5, e5, r5, s5, f5⟩ := foldHPrime_op (H c) h4 w sp r4 p4
    simp only at e5
    rw [e5, ok_bind]
    exact ⟨rfl, r5, sameArr_pairwise s5 p4, cov4.same s5, f4.trans_cov f5 cov4⟩
  rintro ⟨⟨w, h4⟩, c', q'⟩ ⟨sp, c'', q''⟩ ⟨hcq, r4, p4, cov4, f4⟩
  simp only [Prod.mk.injEq] at hcq r4 p4 cov4 f4 ⊢
  obtain ⟨rfl, rfl⟩ := hcq
  rw [r4.toS]
  refine SimR.pureBind fun fc _ => ?_
  have s1 := newSlice_sim h4 (q.drop (2 * log2Ceil (g : Int)) ++ q')
  rcases e5 : newSlice h4 (q.drop (2 * log2Ceil (g : Int)) ++ q') with e | ⟨a, h5⟩
  · rw [e5] at s1; exact s1.elim
  rw [e5] at s1
  obtain ⟨⟨ra, _⟩, fa⟩ := s1
  rw [ok_bind]
  have s2 := newSlice_sim h5 (q.take (log2Ceil (g : Int)))
  rcases e6 : newSlice h5 (q.take (log2Ceil (g : Int))) with e | ⟨b, h6⟩
  · rw [e6] at s2; exact s2.elim
  rw [e6] at s2
  obtain ⟨⟨rb, _⟩, fb⟩ := s2
  simp only [ok_bind]
  have s3 := newSlice_sim h6 ((q.drop (log2Ceil (g : Int))).take (log2Ceil (g : Int)))
  rcases e7 : newSlice h6 ((q.drop (log2Ceil (g : Int))).take (log2Ceil (g : Int))) with e | ⟨c3, h7⟩
  · rw [e7] at s3; exact s3.elim
  rw [e7] at s3
  obtain ⟨⟨rc, _⟩, fc'⟩ := s3
  simp only [ok_bind]
  refine ⟨⟨rfl, (ra.frame fb).frame fc', rb.frame fc', rc, rfl⟩, ?_⟩
  exact f4.trans_cov (ss := []) (FrameOn.of_frame ((fa.trans fb).trans fc')) (Cov.of_subset (by simp))

/-! ### The tables -/

theorem storeNew_sim {h0 h1 : Heap F} {d : Slice} {t : List F} (i : Nat) (x : F) (o : Outside h0 d) (f : Frame h0 h1)
    (r : Rep h1 d t) :
    SimR (fun h2 t' => Rep h2 d t' ∧ Frame h0 h2) (h1.store d i x) (setIdx t i x) := by
  rcases store_sim r i x with ⟨h2, e1, e2, r', fr⟩ | ⟨e1, e2⟩
  · rw [e1, e2]
    exact ⟨r', fr h0 f o⟩
  · rw [e1, e2]; exact rfl

theorem getFoldedEqTableH_sim {h : Heap F} {q : Slice} {qv : List F} (rq : Rep h q qv) :
    Sim (fun s h' t => (Rep h' s t ∧ Outside h s) ∧ Frame h h') (getFoldedEqTableH h q) (getFoldedEqTable qv) := by
  unfold getFoldedEqTableH getFoldedEqTable
  simp only
  rw [rq.len]
  obtain ⟨rm, om, fm⟩ := make_rep h (1 <<< q.len)
  generalize h.make (1 <<< q.len) = m at rm om fm
  refine SimR.toSim ?_
  refine (storeNew_sim 0 1 om fm rm).bind ?_
  rintro h1 t1 ⟨r1, f1⟩
  rw [← bind_ok (forN q.len t1 _)]
  refine (SimR.forN (R := fun h' t => Rep h' m.1 t ∧ Frame h h') ⟨r1, f1⟩ ?_).bind ?_
  · rintro i h2 t2 _ ⟨r2, f2⟩
    rw [(rq.frame f2).load]
    refine SimR.pureBind fun r _ => ?_
    refine SimR.forN (R := fun h' t => Rep h' m.1 t ∧ Frame h h') ⟨r2, f2⟩ ?_
    rintro j h3 t3 _ ⟨r3, f3⟩
    unfold foldedEqStepH foldedEqStep
    simp only
    rw [r3.load]
    refine SimR.pureBind fun x _ => ?_
    refine (storeNew_sim _ _ om f3 r3).bind ?_
    rintro h4 t4 ⟨r4, f4⟩
    rw [r4.load, r4.load]
    refine SimR.pureBind fun x _ => ?_
    refine SimR.pureBind fun y _ => ?_
    exact storeNew_sim _ _ om f4 r4
  · rintro h2 t2 ⟨r2, f2⟩
    exact ⟨⟨r2, om⟩, f2⟩

/-- Tables in arrays of their own that did not exist before. -/
structure Owned (h0 h : Heap F) (ss : List Slice) (vs : List (List F)) : Prop where
  reps : Reps h ss vs
  apart : ss.Pairwise Apart
  outside : ∀ s ∈ ss, Outside h0 s
  frame : Frame h0 h

theorem Owned.apart_idx {h0 h : Heap F} {ss : List Slice} {vs : List (List F)} (O : Owned h0 h ss vs) {i j : Nat} {a b : Slice}
    (hij : i ≠ j) (ha : idx ss i = .ok a) (hb : idx ss j = .ok b) : Apart a b := by
  rcases Nat.lt_or_gt_of_ne hij with h | h
  · exact pairwise_idx O.apart h ha hb
  · exact (pairwise_idx O.apart h hb ha).symm

theorem Owned.set {h0 h h' : Heap F} {ss : List Slice} {vs : List (List F)} (O : Owned h0 h ss vs) {k : Nat} {dst d : Slice}
    {v : List F} (hk : idx ss k = .ok dst) (b : FrameBut h dst h') (r : Rep h' d v) (w : Within h dst d) :
    ∃ ss' vs', setIdx ss k d = .ok ss' ∧ setIdx vs k v = .ok vs' ∧ Owned h0 h' ss' vs' := by
  have hl := O.reps.length_eq
  have hkl : k < ss.length := by
    by_contra hc
    rw [idx_err (by omega)] at hk
    cases hk
  have hidx : ∀ i (hi : i < ss.length), idx ss i = .ok ss[i] := fun i hi => idx_ok hi
  have hval : ∀ s ∈ ss, Valid h s := Reps.valid O.reps
  refine ⟨_, _, setIdx_ok hkl, setIdx_ok (hl ▸ hkl), ?_, ?_, ?_, b.frame O.frame (O.outside _ (idx_mem hk))⟩
  · refine List.forall₂_iff_get.2 ⟨by simp [hl], ?_⟩
    intro i h1 h2
    simp only [List.length_set] at h1 h2
    simp only [List.get_eq_getElem, List.getElem_set]
    by_cases e : k = i
    · simp only [e, if_true]; exact r
    · simp only [e, if_false]
      have := O.reps.get h1 h2
      exact Rep.frameBut this b (O.apart_idx e hk (hidx i h1))
  · refine List.pairwise_iff_getElem.2 ?_
    intro i j h1 h2 hij
    simp only [List.length_set] at h1 h2
    simp only [List.getElem_set]
    by_cases e1 : k = i
    · have e2 : k ≠ j := by omega
      simp only [e1, if_true]
      rw [if_neg (by omega)]
      exact w.apart (hval _ (List.getElem_mem h2)) (O.apart_idx e2 hk (hidx j h2))
    · simp only [e1, if_false]
      by_cases e2 : k = j
      · simp only [e2, if_true]
        exact (w.apart (hval _ (List.getElem_mem h1)) (O.apart_idx e1 hk (hidx i h1))).symm
      · simp only [e2, if_false]
        exact O.apart_idx (by omega) (hidx i h1) (hidx j h2)
  · intro s hs
    rcases List.mem_or_eq_of_mem_set hs with hs | rfl
    · exact O.outside s hs
    · exact w.outside O.frame (O.outside _ (idx_mem hk))

theorem chunkedEqStepH_sim {h0 : Heap F} (l i : Nat) (r : F) {nCore : Int} (hn : 1 ≤ nCore) (j : Nat)
    {s : List Slice × Heap F} {vs : List (List F)} (O : Owned h0 s.2 s.1 vs) :
    SimR (fun s' vs' => Owned h0 s'.2 s'.1 vs') (chunkedEqStepH l i r nCore j s) (chunkedEqStep l i r nCore j vs) := by
  obtain ⟨ss, h⟩ := s
  simp only at O
  unfold chunkedEqStepH chunkedEqStep
  simp only
  generalize hJ : j <<< (l - i) = J
  generalize hJN : J + 1 <<< (l - 1 - i) = JN
  have hne : JN ≠ J := by
    have : 1 <<< (l - 1 - i) = 2 ^ (l - 1 - i) := by simp [Nat.shiftLeft_eq]
    have := Nat.two_pow_pos (l - 1 - i)
    omega
  rcases forall₂_idx O.reps JN with ⟨dst, dv, e1, e1', rd⟩ | ⟨e1, e1'⟩
  swap
  · rw [e1, e1']; exact rfl
  rw [e1, e1', ok_bind, ok_bind]
  rcases forall₂_idx O.reps J with ⟨x, xv, e2, e2', rx⟩ | ⟨e2, e2'⟩
  swap
  · rw [e2, e2']; exact rfl
  rw [e2, e2', ok_bind, ok_bind]
  refine (mulH_sim hn rd.valid rx fun hc => (O.apart_idx hne e1 e2).noOverlap rx.valid le_rfl hc).toR.bind ?_
  rintro ⟨d, h1⟩ v ⟨r1, b1, w1⟩
  simp only at r1 b1 w1 ⊢
  obtain ⟨ss1, vs1, e3, e3', O1⟩ := O.set e1 b1 r1 w1
  rw [e3, e3', ok_bind, ok_bind]
  rcases forall₂_idx O1.reps J with ⟨le, lev, e4, e4', rl⟩ | ⟨e4, e4'⟩
  swap
  · rw [e4, e4']; exact rfl
  rw [e4, e4', ok_bind, ok_bind]
  rcases forall₂_idx O1.reps JN with ⟨ri, riv, e5, e5', rr⟩ | ⟨e5, e5'⟩
  swap
  · rw [e5, e5']; exact rfl
  rw [e5, e5', ok_bind, ok_bind]
  refine (subH_sim hn rl.valid rl rr (fun _ => noOverlap_self _ _)
    (fun hl hc => (O1.apart_idx hne.symm e4 e5).noOverlap rr.valid hl.ge hc)).toR.bind ?_
  rintro ⟨d', h2⟩ v' ⟨r2, b2, w2⟩
  simp only at r2 b2 w2 ⊢
  obtain ⟨ss2, vs2, e6, e6', O2⟩ := O1.set e4 b2 r2 w2
  rw [e6, e6', ok_bind]
  exact O2

theorem getChunkedEqTableH_sim {h : Heap F} {q : Slice} {qv : List F} (rq : Rep h q qv) (n : Nat) {nCore : Int} (hn : 1 ≤ nCore) :
    SimR (fun s ts => Owned h s.2 s.1 ts) (getChunkedEqTableH h q n nCore) (getChunkedEqTable qv n nCore) := by
  unfold getChunkedEqTableH getChunkedEqTable
  simp only
  rw [rq.len]
  by_cases hc : log2Ceil (n : Int) ≤ q.len
  swap
  · simp only [goSubBound, hc, if_false]
    exact rfl
  rw [goSubBound_ok hc, ok_bind, ok_bind]
  obtain ⟨t1, e1, _, r1⟩ := rq.sub (show q.len - log2Ceil (n : Int) ≤ q.len by omega) le_rfl
  obtain ⟨t2, e2, _, r2⟩ := rq.sub (show 0 ≤ q.len - log2Ceil (n : Int) by omega) (Nat.sub_le _ _)
  rw [e2, ok_bind]
  rw [List.drop_zero] at r2
  rw [List.take_of_length_le rq.len.le] at r1
  refine (getFoldedEqTableH_sim r2).toR.bind ?_
  rintro ⟨e0, h1⟩ ev ⟨⟨r3, o3⟩, f3⟩
  simp only at r3 o3 f3 ⊢
  have O0 : Owned h h1 (List.replicate n Slice.nil) (List.replicate n ([] : List F)) := by
    refine ⟨?_, ?_, ?_, f3⟩
    · refine List.forall₂_iff_get.2 ⟨by simp, ?_⟩
      intro i _ _
      simp only [List.get_eq_getElem, List.getElem_replicate]
      exact ⟨valid_nil _, vals_nil _⟩
    · refine List.pairwise_iff_getElem.2 ?_
      intro i j _ _ _ h1
      simp [Slice.nil] at h1
    · intro s hs
      rw [List.eq_of_mem_replicate hs]
      exact outside_nil h
  rcases forall₂_idx O0.reps 0 with ⟨x, y, e4, _, _⟩ | ⟨e4, _⟩
  swap
  · have : n = 0 := by
      by_contra hne
      rw [idx_ok (by simp; omega)] at e4
      cases e4
    subst this
    exact rfl
  have hnil : x = Slice.nil := List.eq_of_mem_replicate (idx_mem e4)
  have fb : FrameBut h1 x h1 := FrameBut.of_frame (Frame.refl h1)
  have hk : 0 < n := by
    by_contra hne
    rw [idx_err (by simp; omega)] at e4
    cases e4
  -- the first table is stored in the list
  have O1 : Owned h h1 ((List.replicate n Slice.nil).set 0 e0) ((List.replicate n ([] : List F)).set 0 ev) := by
    refine ⟨?_, ?_, ?_, f3⟩
    · refine List.forall₂_iff_get.2 ⟨by simp, ?_⟩
      intro i _ _
      simp only [List.get_eq_getElem, List.getElem_set, List.getElem_replicate]
      split
      · exact r3
      · exact ⟨valid_nil _, vals_nil _⟩
    · refine List.pairwise_iff_getElem.2 ?_
      intro i j _ _ hij _ h2
      simp only [List.getElem_set, List.getElem_replicate] at h2
      rw [if_neg (by omega)] at h2
      simp [Slice.nil] at h2
    · intro s hs
      rcases List.mem_or_eq_of_mem_set hs with hs | rfl
      · exact O0.outside s hs
      · exact o3
  rw [setIdx_ok (by simpa using hk), setIdx_ok (by simpa using hk), ok_bind, ok_bind, e1, ok_bind]
  rw [sliceFrom, if_pos (by rw [rq.len]; omega), ok_bind]
  rw [r1.len]
  refine SimR.forN (R := fun (s : List Slice × Heap F) ts => Owned h s.2 s.1 ts) O1 ?_
  rintro i s ts _ O
  rw [(r1.frame O.frame).load]
  refine SimR.pureBind fun r _ => ?_
  refine SimR.forN (R := fun (s : List Slice × Heap F) ts => Owned h s.2 s.1 ts) O ?_
  rintro j s ts _ O
  exact chunkedEqStepH_sim _ _ _ hn _ O

/-! ### Static tables -/

theorem Owned.cons {h0 h1 h2 : Heap F} {s : Slice} {v : List F} {ss : List Slice} {vs : List (List F)} (r : Rep h1 s v)
    (o : Outside h0 s) (f : Frame h0 h1) (O : Owned h1 h2 ss vs) : Owned h0 h2 (s :: ss) (v :: vs) := by
  refine ⟨.cons (r.frame O.frame) O.reps, .cons (fun u hu => (O.outside u hu).apart' r.valid) O.apart, ?_, f.trans O.frame⟩
  intro u hu
  rcases List.mem_cons.1 hu with rfl | hu
  · exact o
  · exact (O.outside u hu).mono f

theorem genH_owned {f : Nat → Heap F → Go (Slice × Heap F)} {g : Nat → Go (List F)} {h0 : Heap F}
    (step : ∀ i h, Frame h0 h → Sim (fun s h' t => (Rep h' s t ∧ Outside h s) ∧ Frame h h') (f i h) (g i)) :
    ∀ (n k : Nat) (h : Heap F), Frame h0 h →
      SimR (fun s ts => Owned h s.2 s.1 ts) (genH f k n h) (genM g k n)
  | 0, k, h, _ => ⟨.nil, .nil, by simp, Frame.refl h⟩
  | n + 1, k, h, f0 => by
    rw [genH]
    have e : genM g k (n + 1) = (g k >>= fun y => genM g (k + 1) n >>= fun ys => .ok (y :: ys)) := by
      rw [genM]
      cases g k with
      | error e => rfl
      | ok y =>
        simp only [ok_bind]
        cases genM g (k + 1) n <;> rfl
    rw [e]
    refine (step k h f0).toR.bind ?_
    rintro ⟨a, h1⟩ b ⟨⟨p, o⟩, f1⟩
    refine (genH_owned step n (k + 1) h1 (f0.trans f1)).bind ?_
    rintro ⟨as, h2⟩ bs O
    exact Owned.cons p o f1 O

theorem getStaticTableH_owned {h : Heap F} (l : Layer F) {q : Slice} {qv : List F} (rq : Rep h q qv) :
    SimR (fun s ts => Owned h s.2 s.1 ts) (getStaticTableH h l q) (getStaticTable l qv) := by
  unfold getStaticTableH getStaticTable
  rw [mapGo_eq_gen]
  refine genH_owned ?_ _ _ _ (Frame.refl h)
  intro i h1 f1
  refine Sim.pureBind fun gate _ => ?_
  refine (rawStaticTableH_sim h1 l gate).bind ?_
  rintro s h2 t ⟨⟨r, o⟩, f2⟩
  exact foldAllH_sim f2 r o (rq.frame f1)

theorem forFrom_err {σ : Type} {body : Nat → σ → Go σ} {e : Abort} : ∀ (m k n : Nat) (s : σ), m < n →
    (∀ i, k ≤ i → i < k + m → ∀ s, ∃ s', body i s = .ok s') → (∀ s, body (k + m) s = .error e) →
    forFrom body k n s = .error e
  | 0, k, n + 1, s, _, _, h2 => by rw [forFrom, show body k s = .error e from h2 s]
  | m + 1, k, n + 1, s, hm, h1, h2 => by
    obtain ⟨s', hs⟩ := h1 k le_rfl (by omega) s
    rw [forFrom, hs]
    exact forFrom_err m (k + 1) n s' (by omega) (fun i hi hi' => h1 i (by omega) (by omega))
      (by rw [show k + 1 + m = k + (m + 1) by omega]; exact h2)

theorem genM_err {g : Nat → Go β} {e : Abort} : ∀ (m k n : Nat), m < n →
    (∀ i, k ≤ i → i < k + m → ∃ s', g i = .ok s') → g (k + m) = .error e → genM g k n = .error e
  | 0, k, n + 1, _, _, h2 => by rw [genM, show g k = .error e from h2]
  | m + 1, k, n + 1, hm, h1, h2 => by
    obtain ⟨s', hs⟩ := h1 k le_rfl (by omega)
    rw [genM, hs]
    simp only
    rw [genM_err m (k + 1) n (by omega) (fun i hi hi' => h1 i (by omega) (by omega))
      (by rw [show k + 1 + m = k + (m + 1) by omega]; exact h2)]

theorem linearCombinationH_sim {h : Heap F} {a b : Slice} {av bv : List F} (x y : F) (ra : Rep h a av) (rb : Rep h b bv)
    (ap : Apart a b) :
    SimR (fun s v => s.1 = b ∧ Rep s.2 b v ∧ FrameOn h [a, b] s.2) (linearCombinationH h a b x y) (linearCombination av bv x y) := by
  have la := ra.valid.len
  have lb := rb.valid.len
  by_cases hl : b.len ≤ a.len
  · rw [linearCombinationH_spec hl]
    · have e : linearCombination av bv x y = .ok (tab b.len fun i => h.get b i * y + h.get a i * x) := by
        unfold linearCombination
        rw [rb.len]
        apply gen_ok
        intro i hi
        rw [← ra.load, ← rb.load, load_ok (by omega), load_ok hi]
        rfl
      rw [e]
      refine ⟨rfl, ⟨⟨lb, rb.valid.arr⟩, fillHeap_vals (fillHeap h a (fun i => h.get a i * x) b.len) b
        (fun i => h.get b i * y + h.get a i * x)⟩, le_rfl, rfl, ?_⟩
      intro c hc hn
      funext j
      simp only [List.mem_cons, List.not_mem_nil, or_false, forall_eq_or_imp, forall_eq] at hn
      simp only [fillHeap]
      rw [if_neg, if_neg]
      · rintro ⟨rfl, h1, h2⟩
        exact hn.1 (by omega) rfl
      · rintro ⟨rfl, h1, h2⟩
        exact hn.2 (by omega) rfl
    · intro e
      by_cases hb : 0 < b.len
      · exact absurd e (ap (by omega) (by omega))
      · omega
  · have e1 : linearCombination av bv x y = .error .index := by
      unfold linearCombination gen
      rw [rb.len]
      refine genM_err a.len 0 b.len (by omega) ?_ ?_
      · intro i _ hi
        rw [idx_ok (by rw [ra.len]; omega), idx_ok (by rw [rb.len]; omega)]
        exact ⟨_, rfl⟩
      · rw [idx_err (by rw [ra.len]; omega)]; rfl
    have e2 : linearCombinationH h a b x y = .error .index := by
      unfold linearCombinationH forN
      rw [forFrom_err (e := .index) a.len 0 b.len h (by omega)]
      · rfl
      · intro i _ hi m
        have e1 : ∀ h : Heap F, h.load a i = .ok (h.get a i) := fun h => load_ok (by omega)
        have e2 : ∀ h : Heap F, h.load b i = .ok (h.get b i) := fun h => load_ok (by omega)
        have e3 : ∀ (h : Heap F) v, h.store a i v = .ok (h.put a i v) := fun h v => store_ok (by omega)
        have e4 : ∀ (h : Heap F) v, h.store b i v = .ok (h.put b i v) := fun h v => store_ok (by omega)
        simp only [e1, e2, e3, e4, ok_bind]
        exact ⟨_, rfl⟩
      · intro m
        simp [Heap.load]
    rw [e1, e2]
    exact rfl

/-- The loop over the gates in `GetBookKeepingTablesForIntermediateRound`. -/
theorem linCombs_sim {L R : List Slice} {Lv Rv : List (List F)} (x y : F) (hL : L.length = Lv.length) (hR : R.length = Rv.length)
    (pw : (L ++ R).Pairwise Apart) : ∀ (n k : Nat) (h : Heap F),
    (∀ j s v, k ≤ j → idx L j = .ok s → idx Lv j = .ok v → Rep h s v) →
    (∀ j s v, k ≤ j → idx R j = .ok s → idx Rv j = .ok v → Rep h s v) →
    SimR (fun o vs => Reps o.2 o.1 vs ∧ (∀ s ∈ o.1, ∃ j, k ≤ j ∧ idx R j = .ok s) ∧ o.1.Pairwise Apart ∧
        FrameOn h (L.drop k ++ R.drop k) o.2)
      (genH (fun i h => do
        let a ← idx L i
        let b ← idx R i
        linearCombinationH h a b x y) k n h)
      (genM (fun i => do
        let a ← idx Lv i
        let b ← idx Rv i
        linearCombination a b x y) k n)
  | 0, k, h, _, _ => ⟨.nil, by simp, .nil, FrameOn.refl h _⟩
  | n + 1, k, h, rL, rR => by
    rw [genH]
    have e : ∀ g : Nat → Go (List F), genM g k (n + 1) = (g k >>= fun y => genM g (k + 1) n >>= fun ys => .ok (y :: ys)) := by
      intro g
      rw [genM]
      cases g k with
      | error e => rfl
      | ok y =>
        simp only [ok_bind]
        cases genM g (k + 1) n <;> rfl
    rw [e]
    obtain ⟨pL, pR, pLR⟩ := List.pairwise_append.1 pw
    by_cases hk : k < L.length
    swap
    · rw [idx_err (show L.length ≤ k by omega), idx_err (show Lv.length ≤ k by omega)]
      exact rfl
    have eL : idx L k = .ok L[k] := idx_ok hk
    have eLv : idx Lv k = .ok (Lv[k]'(hL ▸ hk)) := idx_ok (hL ▸ hk)
    rw [eL, eLv, ok_bind, ok_bind]
    by_cases hk' : k < R.length
    swap
    · rw [idx_err (show R.length ≤ k by omega), idx_err (show Rv.length ≤ k by omega)]
      exact rfl
    have eR : idx R k = .ok R[k] := idx_ok hk'
    have eRv : idx Rv k = .ok (Rv[k]'(hR ▸ hk')) := idx_ok (hR ▸ hk')
    rw [eR, eRv, ok_bind, ok_bind]
    have ab : Apart L[k] R[k] := pLR _ (List.getElem_mem hk) _ (List.getElem_mem hk')
    refine (linearCombinationH_sim x y (rL k _ _ le_rfl eL eLv) (rR k _ _ le_rfl eR eRv) ab).bind ?_
    rintro ⟨b, h1⟩ v ⟨rfl, r1, f1⟩
    simp only at r1 f1 ⊢
    have apL : ∀ j s, k < j → idx L j = .ok s → ∀ u ∈ [L[k], R[k]], Apart u s := by
      intro j s hj hs
      simp only [List.mem_cons, List.not_mem_nil, or_false, forall_eq_or_imp, forall_eq]
      exact ⟨pairwise_idx pL hj eL hs, (pLR _ (idx_mem hs) _ (List.getElem_mem hk')).symm⟩
    have apR : ∀ j s, k < j → idx R j = .ok s → ∀ u ∈ [L[k], R[k]], Apart u s := by
      intro j s hj hs
      simp only [List.mem_cons, List.not_mem_nil, or_false, forall_eq_or_imp, forall_eq]
      exact ⟨pLR _ (List.getElem_mem hk) _ (idx_mem hs), pairwise_idx pR hj eR hs⟩
    refine (linCombs_sim x y hL hR pw n (k + 1) h1
      (fun j s v hj hs hv => (rL j s v (by omega) hs hv).frameOn f1 (apL j s hj hs))
      (fun j s v hj hs hv => (rR j s v (by omega) hs hv).frameOn f1 (apR j s hj hs))).bind ?_
    rintro ⟨ss, h2⟩ vs ⟨r2, m2, p2, f2⟩
    simp only at r2 m2 p2 f2
    have mem_drop : ∀ {l : List Slice} {s : Slice}, s ∈ l.drop (k + 1) → ∃ j, k < j ∧ idx l j = .ok s := by
      intro l s hs
      obtain ⟨i, hi, rfl⟩ := List.mem_iff_getElem.1 hs
      simp only [List.length_drop] at hi
      exact ⟨k + 1 + i, by omega, by rw [idx_ok (by omega)]; simp⟩
    refine ⟨.cons (r1.frameOn f2 ?_) r2, ?_, ?_, ?_⟩
    · intro u hu
      rcases List.mem_append.1 hu with hu | hu
      · obtain ⟨j, hj, hs⟩ := mem_drop hu
        exact (apL j u hj hs _ (by simp)).symm
      · obtain ⟨j, hj, hs⟩ := mem_drop hu
        exact (apR j u hj hs _ (by simp)).symm
    · intro s hs
      rcases List.mem_cons.1 hs with rfl | hs
      · exact ⟨k, le_rfl, eR⟩
      · obtain ⟨j, hj, hs⟩ := m2 s hs
        exact ⟨j, by omega, hs⟩
    · refine .cons ?_ p2
      intro u hu
      obtain ⟨j, hj, hs⟩ := m2 u hu
      exact apR j u (by omega) hs _ (by simp)
    · have dL := List.drop_eq_getElem_cons hk
      have dR := List.drop_eq_getElem_cons hk'
      refine (f1.mono ?_).trans_cov f2 (Cov.of_subset ?_)
      · intro u hu
        simp only [List.mem_cons, List.not_mem_nil, or_false] at hu
        rw [dL, dR]
        rcases hu with rfl | rfl
        · exact List.mem_append_left _ List.mem_cons_self
        · exact List.mem_append_right _ List.mem_cons_self
      · intro u hu
        rw [dL, dR]
        rcases List.mem_append.1 hu with hu | hu
        · exact List.mem_append_left _ (List.mem_cons_of_mem _ hu)
        · exact List.mem_append_right _ (List.mem_cons_of_mem _ hu)

/-! ### The GKR prover -/

/-- The assignment has given contents. The slices may overlap. -/
abbrev ARep (h : Heap F) (as : List (List Slice)) (vs : List (List (List F))) : Prop := List.Forall₂ (Reps h) as vs

theorem ARep.frame {h h' : Heap F} {as : List (List Slice)} {vs : List (List (List F))} (r : ARep h as vs) (f : Frame h h') :
    ARep h' as vs := List.Forall₂.imp (fun _ _ r => Reps.frame r f) r

theorem layerCopy_sim {h : Heap F} {as : List (List Slice)} {vs : List (List (List F))} (r : ARep h as vs) (layer : Nat)
    (nCore : Int) : SimR (fun s ts => Owned h s.2 s.1 ts) (layerAsBKTWithCopyH as layer nCore h) (layerAsBKTWithCopy vs layer nCore) := by
  unfold layerAsBKTWithCopyH layerAsBKTWithCopy
  refine SimR.idxBind r layer fun x y rxy => ?_
  rw [rxy.length_eq]
  refine SimR.pureBind fun _ _ => ?_
  obtain ⟨ss, h1, e1, r1, o1, p1, f1⟩ := deepCopies_spec _ _ _ rxy
  rw [e1]
  exact ⟨r1, p1, o1, f1⟩

theorem Owned.apart_next {h0 h1 h2 : Heap F} {a b : List Slice} {av bv : List (List F)} (A : Owned h0 h1 a av)
    (B : Owned h1 h2 b bv) : ∀ s ∈ a, ∀ u ∈ b, Apart s u :=
  fun s hs u hu => (B.outside u hu).apart' (Reps.valid A.reps s hs)

theorem Owned.later {h0 h1 h2 : Heap F} {a : List Slice} {av : List (List F)} (A : Owned h0 h1 a av) (f : Frame h1 h2) :
    Owned h0 h2 a av := ⟨Reps.frame A.reps f, A.apart, A.outside, A.frame.trans f⟩

theorem Owned.earlier {h h0 h1 : Heap F} {a : List Slice} {av : List (List F)} (A : Owned h0 h1 a av) (f : Frame h h0) :
    Owned h h1 a av := ⟨A.reps, A.apart, fun s hs => (A.outside s hs).mono f, f.trans A.frame⟩

/-- A prover all of whose tables are new. -/
structure Fresh (h h' : Heap F) (p : MProverH F) (mp : MProver F) : Prop where
  rep : MRep h' p mp
  apart : p.base.Pairwise Apart
  outside : ∀ s ∈ p.base, Outside h s
  frame : Frame h h'
  statics : ∀ s ∈ p.base, ∀ u ∈ p.statics, Apart s u

theorem base_owned {h h1 h2 h3 : Heap F} {p : MProverH F} {l r e : List (List F)} (L : Owned h h1 p.vL l) (R : Owned h1 h2 p.vR r)
    (E : Owned h2 h3 p.eq e) : p.base.Pairwise Apart ∧ ∀ s ∈ p.base, Outside h s := by
  unfold MProverH.base
  rw [List.pairwise_append, List.pairwise_append]
  refine ⟨⟨⟨L.apart, R.apart, L.apart_next R⟩, E.apart, ?_⟩, ?_⟩
  · intro s hs u hu
    rcases List.mem_append.1 hs with hs | hs
    · exact (L.later R.frame).apart_next E s hs u hu
    · exact R.apart_next E s hs u hu
  · intro s hs
    rcases List.mem_append.1 hs with hs | hs
    · rcases List.mem_append.1 hs with hs | hs
      · exact L.outside s hs
      · exact (R.outside s hs).mono L.frame
    · exact (E.outside s hs).mono (L.frame.trans R.frame)

theorem initialRound_sim {h : Heap F} {p : GkrProverH F} {g : GkrProver F} (hc : p.circuit = g.circuit)
    (ra : ARep h p.assignment g.assignment) {qp q : Slice} {qpv qv : List F} (rp : Rep h qp qpv) (rq : Rep h q qv)
    {nCore : Int} (hn : 1 ≤ nCore) :
    SimR (fun o mp => Fresh h o.2 o.1 mp) (p.initialRound qp q nCore h) (g.initialRound qpv qv nCore) := by
  unfold GkrProverH.initialRound GkrProver.initialRound
  simp only
  rw [hc]
  refine SimR.pureBind fun l _ => ?_
  refine (getStaticTableH_owned l rq).bind ?_
  rintro ⟨ss, h1⟩ sv S
  refine (layerCopy_sim (ra.frame S.frame) _ nCore).bind ?_
  rintro ⟨vL, h2⟩ vLv L
  refine (layerCopy_sim ((ra.frame S.frame).frame L.frame) _ nCore).bind ?_
  rintro ⟨vR, h3⟩ vRv R
  simp only at S L R ⊢
  rw [L.reps.length_eq]
  refine (getChunkedEqTableH_sim (((rp.frame S.frame).frame L.frame).frame R.frame) _ hn).bind ?_
  rintro ⟨eq, h4⟩ eqv E
  simp only at E
  obtain ⟨b1, b2⟩ := base_owned (p := ⟨vL, vR, eq, l.gates, ss⟩) L R E
  refine ⟨⟨?_, ?_, E.reps, ?_, rfl⟩, b1, fun s hs => (b2 s hs).mono S.frame, ?_,
    fun s hs u hu => (b2 s hs).apart (Reps.valid S.reps u hu)⟩
  · exact Reps.frame (Reps.frame L.reps R.frame) E.frame
  · exact Reps.frame R.reps E.frame
  · exact Reps.frame (Reps.frame (Reps.frame S.reps L.frame) R.frame) E.frame
  · exact ((S.frame.trans L.frame).trans R.frame).trans E.frame

theorem intermediateRound_sim {h : Heap F} {p : GkrProverH F} {g : GkrProver F} (hc : p.circuit = g.circuit)
    (ra : ARep h p.assignment g.assignment) (layer : Nat) {qp qL qR : Slice} {qpv qLv qRv : List F} (rp : Rep h qp qpv)
    (rL : Rep h qL qLv) (rR : Rep h qR qRv) (x y : F) {nCore : Int} (hn : 1 ≤ nCore) :
    SimR (fun o mp => Fresh h o.2 o.1 mp) (p.intermediateRound layer qp qL qR x y nCore h)
      (g.intermediateRound layer qpv qLv qRv x y nCore) := by
  unfold GkrProverH.intermediateRound GkrProver.intermediateRound
  refine (layerCopy_sim ra _ nCore).bind ?_
  rintro ⟨vL, h2⟩ vLv L
  refine (layerCopy_sim (ra.frame L.frame) _ nCore).bind ?_
  rintro ⟨vR, h3⟩ vRv R
  simp only at L R ⊢
  rw [L.reps.length_eq]
  refine (getChunkedEqTableH_sim ((rp.frame L.frame).frame R.frame) _ hn).bind ?_
  rintro ⟨eq, h4⟩ eqv E
  simp only at E ⊢
  rw [hc]
  refine SimR.pureBind fun l _ => ?_
  have f4 := (L.frame.trans R.frame).trans E.frame
  refine (getStaticTableH_owned l (rL.frame f4)).bind ?_
  rintro ⟨sL, h5⟩ sLv SL
  simp only at SL
  refine (getStaticTableH_owned l ((rR.frame f4).frame SL.frame)).bind ?_
  rintro ⟨sR, h6⟩ sRv SR
  simp only at SR ⊢
  rw [SL.reps.length_eq]
  have SL6 := SL.later SR.frame
  have key := linCombs_sim (L := sL) (R := sR) (Lv := sLv) (Rv := sRv) x y SL.reps.length_eq SR.reps.length_eq
    (List.pairwise_append.2 ⟨SL.apart, SR.apart, SL.apart_next SR⟩) sLv.length 0 h6 ?_ ?_
  · refine key.bind ?_
    rintro ⟨ss, h7⟩ sv ⟨r7, m7, p7, f7⟩
    simp only [List.drop_zero] at r7 m7 p7 f7
    have f47 : Frame h4 h7 := by
      refine f7.toFrame (SL.frame.trans SR.frame) ?_
      intro s hs
      rcases List.mem_append.1 hs with hs | hs
      · exact SL.outside s hs
      · exact (SR.outside s hs).mono SL.frame
    obtain ⟨b1, b2⟩ := base_owned (p := ⟨vL, vR, eq, l.gates, ss⟩) L R E
    have v4 : ∀ s ∈ (⟨vL, vR, eq, l.gates, ss⟩ : MProverH F).base, Valid h4 s := by
      intro s hs
      simp only [MProverH.base, List.mem_append] at hs
      rcases hs with (hs | hs) | hs
      · exact Reps.valid (Reps.frame (Reps.frame L.reps R.frame) E.frame) s hs
      · exact Reps.valid (Reps.frame R.reps E.frame) s hs
      · exact Reps.valid E.reps s hs
    refine ⟨⟨?_, ?_, ?_, r7, rfl⟩, b1, b2, f4.trans f47, ?_⟩
    · exact Reps.frame (Reps.frame (Reps.frame L.reps R.frame) E.frame) f47
    · exact Reps.frame (Reps.frame R.reps E.frame) f47
    · exact Reps.frame E.reps f47
    · intro s hs u hu
      obtain ⟨j, _, hj⟩ := m7 u hu
      exact ((SR.outside u (idx_mem hj)).mono SL.frame).apart' (v4 s hs)
  · intro j s v _ hs hv
    rcases forall₂_idx SL6.reps j with ⟨s', v', e1, e2, r⟩ | ⟨e1, _⟩
    · rw [e1] at hs
      rw [e2] at hv
      cases hs
      cases hv
      exact r
    · rw [e1] at hs
      cases hs
  · intro j s v _ hs hv
    rcases forall₂_idx SR.reps j with ⟨s', v', e1, e2, r⟩ | ⟨e1, _⟩
    · rw [e1] at hs
      rw [e2] at hv
      cases hs
      cases hv
      exact r
    · rw [e1] at hs
      cases hs

/-- One sumcheck of the prover. -/
theorem Fresh.prove_sim (H : List F → F) {h h' : Heap F} {p : MProverH F} {mp : MProver F} (f : Fresh h h' p mp) (nCore : Int) :
    SimR (fun o v => ORep o.2 o.1 v ∧ Frame h o.2) (p.prove H nCore h') (mp.prove H nCore) :=
  (mproveH_sim H f.rep f.apart nCore).mono fun _ _ r => ⟨r.1, r.2.toFrame f.frame f.outside⟩

/-- The part of an output that becomes part of the proof. -/
def OEq (o : SumcheckOutH F) (v : SumcheckOut F) : Prop := o.polyCoeffs = v.polyCoeffs ∧ o.finalClaims = v.finalClaims

theorem proveLayers_sim (H : List F → F) {p : GkrProverH F} {g : GkrProver F} (hc : p.circuit = g.circuit) {nCore : Int}
    (hn : 1 ≤ nCore) : ∀ (k : Nat) (h : Heap F) (o : SumcheckOutH F) (v : SumcheckOut F), ARep h p.assignment g.assignment →
      ORep h o v → SimR (fun r t => List.Forall₂ OEq r.1 t ∧ Frame h r.2) (p.proveLayers H nCore k o h) (g.proveLayers H nCore k v)
  | 0, h, _, _, _, _ => ⟨.nil, Frame.refl h⟩
  | k + 1, h, o, v, ra, ro => by
    rw [GkrProverH.proveLayers, GkrProver.proveLayers, ro.claims]
    refine SimR.pureBind fun cl _ => ?_
    refine SimR.pureBind fun cr _ => ?_
    refine (intermediateRound_sim hc ra k ro.qPrime ro.qL ro.qR _ _ hn).bind ?_
    rintro ⟨mp, h1⟩ mpv fr
    refine (fr.prove_sim H nCore).bind ?_
    rintro ⟨o', h2⟩ v' ⟨r2, f2⟩
    simp only at r2 f2 ⊢
    refine (proveLayers_sim H hc hn k h2 o' v' (ra.frame f2) r2).bind ?_
    rintro ⟨rest, h3⟩ restv ⟨r3, f3⟩
    exact ⟨List.rel_append r3 (.cons ⟨r2.coeffs, r2.claims⟩ .nil), f2.trans f3⟩

theorem forall₂_OEq {os : List (SumcheckOutH F)} {vs : List (SumcheckOut F)} (r : List.Forall₂ OEq os vs) (i : Nat) :
    os.map (·.polyCoeffs) = vs.map (·.polyCoeffs) ∧
    mapGo (fun o : SumcheckOutH F => idx o.finalClaims i) os = mapGo (fun o : SumcheckOut F => idx o.finalClaims i) vs := by
  induction r with
  | nil => exact ⟨rfl, rfl⟩
  | cons p _ ih =>
    rw [List.map_cons, List.map_cons, mapGo, mapGo, ih.1, ih.2, p.1, p.2]
    exact ⟨rfl, rfl⟩

/-- `Prove` on memory returns the proof of `Prove` on values, and changes no cell that existed before. -/
theorem gkrProveH_sim (H : List F → F) {h : Heap F} {p : GkrProverH F} {g : GkrProver F} (hc : p.circuit = g.circuit)
    (hb : p.bN = g.bN) (ra : ARep h p.assignment g.assignment) {nCore : Int} (hn : 1 ≤ nCore) :
    Sim (fun a h' b => a = b ∧ Frame h h') (p.prove H nCore h) (g.prove H nCore) := by
  unfold GkrProverH.prove GkrProver.prove
  simp only
  rw [hc, hb]
  refine SimR.toSim ?_
  refine SimR.pureBind fun l _ => ?_
  unfold getInitialQPrimeAndQH getInitialQPrimeAndQ
  have s1 := makeFill_sim h l.bGOutputs fun i => ((i + 1 : Nat) : F)
  rcases e1 : makeFill h l.bGOutputs fun i => ((i + 1 : Nat) : F) with e | ⟨q, h1⟩
  · rw [e1] at s1; exact s1.elim
  rw [e1] at s1
  obtain ⟨⟨rq, _⟩, f1⟩ := s1
  have s2 := makeFill_sim h1 g.bN fun i => ((i + 1 : Nat) : F)
  rcases e2 : makeFill h1 g.bN fun i => ((i + 1 : Nat) : F) with e | ⟨qp, h2⟩
  · rw [e2] at s2; exact s2.elim
  rw [e2] at s2
  obtain ⟨⟨rqp, _⟩, f2⟩ := s2
  simp only [ok_bind, e2, go_pure]
  have f12 := f1.trans f2
  refine (initialRound_sim hc (ra.frame f12) rqp (rq.frame f2) hn).bind ?_
  rintro ⟨mp, h3⟩ mpv fr
  refine (fr.prove_sim H nCore).bind ?_
  rintro ⟨o, h4⟩ v ⟨r4, f4⟩
  simp only at r4 f4 ⊢
  refine (proveLayers_sim H hc hn _ h4 o v ((ra.frame f12).frame f4) r4).bind ?_
  rintro ⟨rest, h5⟩ restv ⟨r5, f5⟩
  simp only at r5 f5 ⊢
  have r := List.rel_append r5 (.cons (show OEq o v from ⟨r4.coeffs, r4.claims⟩) .nil : List.Forall₂ OEq [o] [v])
  rw [(forall₂_OEq r 0).2, (forall₂_OEq r 1).2, (forall₂_OEq r 0).1]
  refine SimR.pureBind fun cl _ => ?_
  refine SimR.pureBind fun cr _ => ?_
  exact ⟨rfl, (f12.trans f4).trans f5⟩

/-! ### The number of cores -/

theorem semSection_ok {n : Int} (hn : 1 ≤ n) (jobs : Nat) : semaphoreSection n jobs = .ok () := by
  unfold semaphoreSection
  rw [if_neg (by omega), if_neg (by omega)]

theorem tableMul_cores (dst x : Table F) (l : F) {n : Int} (hn : 1 ≤ n) : tableMul dst l x n = tableMul dst l x 1 := by
  rw [tableMul_eq _ _ _ hn, tableMul_eq _ _ _ le_rfl]

theorem tableSub_cores (dst l r : Table F) {n : Int} (hn : 1 ≤ n) : tableSub dst l r n = tableSub dst l r 1 := by
  by_cases h : r.length = l.length
  · rw [tableSub_eq _ _ _ hn h, tableSub_eq _ _ _ le_rfl h]
  · unfold tableSub
    simp only [ne_eq, h, not_false_eq_true, if_true]
    rw [intoChunkRanges_eq (show n ≠ 0 by omega), intoChunkRanges_eq (show (1 : Int) ≠ 0 by omega), ok_bind, ok_bind,
      show newSemaphore n = .ok () by simp [newSemaphore]; omega, show newSemaphore 1 = .ok () by simp [newSemaphore]]

theorem getChunkedEqTable_cores (q : List F) (m : Nat) {n : Int} (hn : 1 ≤ n) :
    getChunkedEqTable q m n = getChunkedEqTable q m 1 := by
  unfold getChunkedEqTable chunkedEqStep
  simp only [tableMul_cores _ _ _ hn, tableSub_cores _ _ _ hn]

theorem layerAsBKTWithCopy_cores (vs : List (List (List F))) (l : Nat) {n : Int} (hn : 1 ≤ n) :
    layerAsBKTWithCopy vs l n = layerAsBKTWithCopy vs l 1 := by
  unfold layerAsBKTWithCopy
  simp only [semSection_ok hn, semSection_ok (le_refl (1 : Int))]

theorem mprove_cores (H : List F → F) (mp : MProver F) {n : Int} (hn : 1 ≤ n) : mp.prove H n = mp.prove H 1 := by
  unfold MProver.prove
  simp only [semSection_ok hn, semSection_ok (le_refl (1 : Int))]

theorem proveLayers_cores (H : List F → F) (g : GkrProver F) {n : Int} (hn : 1 ≤ n) : ∀ (k : Nat) (v : SumcheckOut F),
    g.proveLayers H n k v = g.proveLayers H 1 k v
  | 0, _ => rfl
  | k + 1, v => by
    rw [GkrProver.proveLayers, GkrProver.proveLayers]
    unfold GkrProver.intermediateRound
    simp only [layerAsBKTWithCopy_cores _ _ hn, getChunkedEqTable_cores _ _ hn, mprove_cores H _ hn, proveLayers_cores H g hn k]

/-- On values `Prove` does not depend on the number of cores. -/
theorem gkrProve_cores (H : List F → F) (g : GkrProver F) {n : Int} (hn : 1 ≤ n) : g.prove H n = g.prove H 1 := by
  unfold GkrProver.prove GkrProver.initialRound
  simp only [layerAsBKTWithCopy_cores _ _ hn, getChunkedEqTable_cores _ _ hn, mprove_cores H _ hn, proveLayers_cores H g hn]

end GkrMimc
