import Verif.Proofs.Race
import Verif.Proofs.HeapProve
import Verif.Model.ConcHeap

/-! The building blocks of the concurrent programs over memory, against those over values. -/

namespace GkrMimc

open Spec

set_option linter.unusedSectionVars false

variable {F : Type}

/-- The array of a slice (unless it is empty) is in `A`. -/
def Owns (A : Set Nat) (s : Slice) : Prop := 0 < s.cap → s.arr ∈ A

theorem Owns.mono {A B : Set Nat} {s : Slice} (o : Owns A s) (h : A ⊆ B) : Owns B s := fun hc => h (o hc)

theorem Agree.valid {A : Set Nat} {h h' : Heap F} (a : Agree A h h') {s : Slice} (v : Valid h s) (o : Owns A s) : Valid h' s :=
  ⟨v.len, fun hc => (a _ (o hc)).2⟩

theorem Rep.agree {A : Set Nat} {h h' : Heap F} {s : Slice} {v : List F} (r : Rep h s v) (o : Owns A s) (a : Agree A h h') :
    Rep h' s v := by
  have hl := r.valid.len
  refine ⟨a.valid r.valid o, ?_⟩
  rw [← r.vals]
  apply tab_congr
  intro i hi
  simp only [Heap.get]
  rw [(a _ (o (by omega))).1]

theorem Reps.agree {A : Set Nat} {h h' : Heap F} {ss : List Slice} {vs : List (List F)} (r : Reps h ss vs)
    (o : ∀ s ∈ ss, Owns A s) (a : Agree A h h') : Reps h' ss vs := by
  induction r with
  | nil => exact .nil
  | cons p _ ih => exact .cons (p.agree (o _ (by simp)) a) (ih fun s hs => o s (by simp [hs]))

variable [Field F] [DecidableEq F]

theorem WRep.agree {A : Set Nat} {h h' : Heap F} {w : SProverH F} {sp : SProver F} (r : WRep h w sp)
    (o : ∀ s ∈ w.slices, Owns A s) (a : Agree A h h') : WRep h' w sp := by
  rw [wrep_eq r]
  exact wrep_mk (r.vL.agree (o _ (by simp [SProverH.slices])) a) (r.vR.agree (o _ (by simp [SProverH.slices])) a)
    (r.eq.agree (o _ (by simp [SProverH.slices])) a) (Reps.agree r.statics (fun s hs => o _ (by simp [SProverH.slices, hs])) a)

/-- A sub-prover with given contents, whose tables are apart and owned. -/
structure WInv (own : Set Nat) (h : Heap F) (w : SProverH F) (sp : SProver F) : Prop where
  rep : WRep h w sp
  apart : w.slices.Pairwise Apart
  owns : ∀ s ∈ w.slices, Owns own s

theorem WInv.agree {own A : Set Nat} {h h' : Heap F} {w : SProverH F} {sp : SProver F} (i : WInv own h w sp)
    (a : Agree A h h') (hA : own ⊆ A) : WInv own h' w sp := ⟨i.rep.agree (fun s hs => (i.owns s hs).mono hA) a, i.apart, i.owns⟩

theorem WInv.mono {own own' : Set Nat} {h : Heap F} {w : SProverH F} {sp : SProver F} (i : WInv own h w sp) (s : own ⊆ own') :
    WInv own' h w sp := ⟨i.rep, i.apart, fun u hu => (i.owns u hu).mono s⟩

/-- Message `v`, with the arrays of `o`, stands for `v'`. -/
def MsgRel (o : Set Nat) (h : Heap F) : MsgH F → Msg F → Prop
  | .tok, .tok => True
  | .elem x, .elem y => x = y
  | .slice s, .vec xs => Rep h s xs ∧ Owns o s
  | .prover i w, .prover j sp => i = j ∧ WInv o h w sp
  | .out x, .out y => x = y
  | _, _ => False

theorem msgRel_stable : StableMsg (MsgRel (F := F)) := by
  intro o h h' v v' m a
  cases v <;> cases v' <;> first | exact m | exact ⟨m.1.agree m.2 a, m.2⟩ | exact ⟨m.1, m.2.agree a subset_rfl⟩

/-! ### Single accesses -/

variable {ro own : Set Nat} {h : Heap F} {p : Prog Unit (Msg F)}

theorem gr_load {s : Slice} {i : Nat} {K : F → Prog (Heap F) (MsgH F)} (hi : i < s.len) (hl : s.len ≤ s.cap)
    (ho : Owns (own ∪ ro) s) (g : GR MsgRel ro (K (h.get s i)) p own h) : GR MsgRel ro (loadP s i K) p own h := by
  unfold loadP
  rw [if_pos hi]
  refine .inr fun h' a => ⟨ho (by omega), le_rfl, fun _ _ _ => rfl, own, fun b hb => .inl hb, fun b hb => (a b (.inl hb)).2, ?_⟩
  have : h'.get s i = h.get s i := by
    simp only [Heap.get]
    rw [(a _ (ho (by omega))).1]
  change GR MsgRel ro (K (h'.get s i)) p own h'
  rw [this]
  exact g.agree a

theorem put_agree {A : Set Nat} {h' : Heap F} (a : Agree A h h') (s : Slice) (i : Nat) (v : F) :
    Agree A (h.put s i v) (h'.put s i v) := by
  intro b hb
  refine ⟨?_, (a b hb).2⟩
  funext j
  rw [put_cells, put_cells, (a b hb).1]

theorem gr_store {s : Slice} {i : Nat} {v : F} {K : Prog (Heap F) (MsgH F)} (hi : i < s.len) (hl : s.len ≤ s.cap)
    (ho : Owns own s) (g : GR MsgRel ro K p own (h.put s i v)) : GR MsgRel ro (storeP s i v K) p own h := by
  unfold storeP
  rw [if_pos hi]
  refine .inr fun h' a => ⟨ho (by omega), le_rfl, ?_, own, fun b hb => .inl hb, fun b hb => (a b (.inl hb)).2, ?_⟩
  · intro b hb _
    funext j
    rw [put_cells, if_neg]
    rintro ⟨rfl, _⟩
    exact hb (ho (by omega))
  · exact g.agree (put_agree a s i v)

theorem gr_make {n : Nat} {K : Slice → Prog (Heap F) (MsgH F)}
    (g : ∀ h', Agree (own ∪ ro) h h' → GR MsgRel ro (K (h'.make n).1) p (insert h'.next own) (h'.make n).2) :
    GR MsgRel ro (makeP n K) p own h := by
  refine .inr fun h' a => ⟨trivial, Nat.le_succ _, ?_, insert h'.next own, ?_, ?_, g h' a⟩
  · intro b _ hb
    exact Function.update_of_ne (by omega) _ _
  · rintro b (rfl | hb)
    · exact .inr le_rfl
    · exact .inl hb
  · rintro b (rfl | hb)
    · exact Nat.lt_succ_self _
    · exact Nat.lt_succ_of_lt (a b (.inl hb)).2

/-! ### Local computations and loops -/

theorem gr_liftGo {α : Type} {x : Go α} {K : α → Prog (Heap F) (MsgH F)} {k : α → Prog Unit (Msg F)}
    (g : ∀ a, x = .ok a → GR MsgRel ro (K a) (k a) own h) : GR MsgRel ro (liftGo x K) (liftGo x k) own h := by
  cases hx : x with
  | ok a => exact g a hx
  | error e => exact ⟨e, rfl⟩

theorem gr_liftRight {α : Type} {x : Go α} {P : Prog (Heap F) (MsgH F)} {k : α → Prog Unit (Msg F)}
    (g : ∀ a, x = .ok a → GR MsgRel ro P (k a) own h) : GR MsgRel ro P (liftGo x k) own h := by
  cases hx : x with
  | ok a => exact g a hx
  | error e => exact GR.crash

theorem gr_liftLeft {α : Type} {x : Go α} {a : α} {K : α → Prog (Heap F) (MsgH F)} (hx : x = .ok a)
    (g : GR MsgRel ro (K a) p own h) : GR MsgRel ro (liftGo x K) p own h := by
  rw [hx]; exact g

/-- A loop of memory accesses, memory after `j` turns is `hs j`. -/
theorem gr_loop {body : Nat → Unit → (Unit → Prog (Heap F) (MsgH F)) → Prog (Heap F) (MsgH F)} {K : Unit → Prog (Heap F) (MsgH F)}
    (hs : Nat → Heap F) : ∀ (n j : Nat),
    (∀ i, j ≤ i → i < j + n → ∀ P : Unit → Prog (Heap F) (MsgH F), GR MsgRel ro (P ()) p own (hs (i + 1)) →
      GR MsgRel ro (body i () P) p own (hs i)) →
    GR MsgRel ro (K ()) p own (hs (j + n)) → GR MsgRel ro (loopP body K j n ()) p own (hs j) := by
  intro n
  induction n with
  | zero => intro j _ g; exact g
  | succ n ih =>
    intro j hb g
    refine hb j le_rfl (by omega) _ (ih (j + 1) (fun i h1 h2 => hb i (by omega) (by omega)) ?_)
    rw [show j + 1 + n = j + (n + 1) by omega]
    exact g

theorem gr_read {s : Slice} {K : List F → Prog (Heap F) (MsgH F)} (hl : s.len ≤ s.cap) (ho : Owns (own ∪ ro) s)
    (g : GR MsgRel ro (K (h.vals s)) p own h) : GR MsgRel ro (readP s K) p own h := by
  have key : ∀ n j, j + n = s.len → GR MsgRel ro (loopP (fun i xs next => loadP s i fun x => next (xs ++ [x])) K j n (tab j (h.get s)))
      p own h := by
    intro n
    induction n with
    | zero =>
      intro j hj
      rw [vals_eq, show s.len = j by omega] at g
      exact g
    | succ n ih =>
      intro j hj
      refine gr_load (F := F) (s := s) (i := j) (K := fun x => loopP _ K (j + 1) n (tab j (h.get s) ++ [x])) (by omega) hl ho ?_
      have := ih (j + 1) (by omega)
      rw [tab_succ'] at this
      exact this
  exact key s.len 0 (by omega)

/-! ### polynomial/book_keeping.go -/

theorem foldHeap_zero (s : Slice) (r : F) : foldHeap h s r 0 = h := by
  refine Heap.ext' ?_ rfl rfl
  intro a j
  simp only [foldHeap]
  rw [if_neg (by omega), if_neg (by omega)]

theorem gr_fold {s : Slice} {r : F} {K : Slice → Prog (Heap F) (MsgH F)} (hs : s.len ≤ s.cap) (ho : Owns own s)
    (g : ∀ s' h', foldH h s r = .ok (s', h') → GR MsgRel ro (K s') p own h') : GR MsgRel ro (foldP s r K) p own h := by
  have g' := g _ _ (foldH_eq h s r hs)
  unfold foldP
  simp only
  refine gr_liftLeft (slice_sub_ok (by omega) (by omega)) (gr_liftLeft (slice_sub_ok (by omega) hs) ?_)
  have ho' : Owns (own ∪ ro) s := ho.mono Set.subset_union_left
  have := gr_loop (ro := ro) (own := own) (p := p) (body := fun i _ next =>
      loadP ⟨s.arr, s.off + s.len / 2, s.len - s.len / 2, s.cap - s.len / 2⟩ i fun t =>
      loadP ⟨s.arr, s.off + 0, s.len / 2 - 0, s.cap - 0⟩ i fun b =>
      storeP ⟨s.arr, s.off + s.len / 2, s.len - s.len / 2, s.cap - s.len / 2⟩ i (t - b) <|
      loadP ⟨s.arr, s.off + s.len / 2, s.len - s.len / 2, s.cap - s.len / 2⟩ i fun t =>
      storeP ⟨s.arr, s.off + s.len / 2, s.len - s.len / 2, s.cap - s.len / 2⟩ i (t * r) <|
      loadP ⟨s.arr, s.off + 0, s.len / 2 - 0, s.cap - 0⟩ i fun b =>
      loadP ⟨s.arr, s.off + s.len / 2, s.len - s.len / 2, s.cap - s.len / 2⟩ i fun t =>
      storeP ⟨s.arr, s.off + 0, s.len / 2 - 0, s.cap - 0⟩ i (b + t) (next ()))
    (K := fun _ => liftGo (s.sub 0 (s.len / 2)) K) (foldHeap h s r) (s.len / 2) 0 ?_ ?_
  · rw [foldHeap_zero] at this
    simpa using this
  · intro i _ hi P gP
    rw [Nat.zero_add] at hi
    have l1 : i < s.len - s.len / 2 := by omega
    have o1 : Owns (own ∪ ro) ⟨s.arr, s.off + s.len / 2, s.len - s.len / 2, s.cap - s.len / 2⟩ := fun _ => ho' (by omega)
    have o2 : Owns (own ∪ ro) ⟨s.arr, s.off + 0, s.len / 2 - 0, s.cap - 0⟩ := fun _ => ho' (by omega)
    have o3 : Owns own ⟨s.arr, s.off + s.len / 2, s.len - s.len / 2, s.cap - s.len / 2⟩ := fun _ => ho (by omega)
    have o4 : Owns own ⟨s.arr, s.off + 0, s.len / 2 - 0, s.cap - 0⟩ := fun _ => ho (by omega)
    have c1 : s.len - s.len / 2 ≤ s.cap - s.len / 2 := by omega
    have c2 : s.len / 2 - 0 ≤ s.cap - 0 := by omega
    refine gr_load l1 c1 o1 (gr_load (by simpa using hi) c2 o2 (gr_store l1 c1 o3 (gr_load l1 c1 o1 (gr_store l1 c1 o3
      (gr_load (by simpa using hi) c2 o2 (gr_load l1 c1 o1 (gr_store (by simpa using hi) c2 o4 ?_)))))))
    refine Eq.mp ?_ gP
    congr 1
    simp only [Heap.get, put_cells]
    have d1 : (foldHeap h s r i).cells s.arr (s.off + s.len / 2 + i) = h.cells s.arr (s.off + s.len / 2 + i) := by
      simp only [foldHeap]
      rw [if_neg (by omega), if_neg (by omega)]
    have d2 : (foldHeap h s r i).cells s.arr (s.off + i) = h.cells s.arr (s.off + i) := by
      simp only [foldHeap]
      rw [if_neg (by omega), if_neg (by omega)]
    refine Heap.ext' ?_ rfl rfl
    intro a j
    have n1 : ¬ s.off + i = s.off + s.len / 2 + i := by omega
    have n2 : ¬ s.off + s.len / 2 + i = s.off + i := by omega
    simp only [put_cells, Nat.add_zero, n1, and_false, if_false, if_true, d1, d2, and_self]
    by_cases ha : a = s.arr
    · subst ha
      by_cases h1 : j = s.off + i
      · subst h1
        simp only [foldHeap, true_and, if_true]
        rw [if_pos (by omega), show s.off + i + s.len / 2 = s.off + s.len / 2 + i by omega]
      · by_cases h2 : j = s.off + s.len / 2 + i
        · subst h2
          simp only [foldHeap, true_and, if_true, h1, if_false]
          rw [if_neg (by omega), if_pos (by omega), show s.off + s.len / 2 + i - s.len / 2 = s.off + i by omega]
        · simp only [h1, h2, and_false, if_false, foldHeap, true_and]
          have q1 : (s.off ≤ j ∧ j < s.off + (i + 1)) ↔ (s.off ≤ j ∧ j < s.off + i) := by omega
          have q2 : (s.off + s.len / 2 ≤ j ∧ j < s.off + s.len / 2 + (i + 1)) ↔
            (s.off + s.len / 2 ≤ j ∧ j < s.off + s.len / 2 + i) := by omega
          simp only [q1, q2]
    · simp [foldHeap, ha]
  · refine gr_liftLeft (slice_sub_ok (by omega) (by omega)) ?_
    simpa using g'

/-! ### sumcheck/prover.go -/

theorem gr_mapFold {r : F} : ∀ {ss : List Slice} {h : Heap F} {K : List Slice → Prog (Heap F) (MsgH F)},
    (∀ s ∈ ss, s.len ≤ s.cap ∧ Owns own s) →
    (∀ ss' h', mapH (fun t h => foldH h t r) ss h = .ok (ss', h') → GR MsgRel ro (K ss') p own h') →
    GR MsgRel ro (mapP (fun t => foldP t r) ss K) p own h
  | [], _, _, _, g => g _ _ rfl
  | s :: ss, h, K, hs, g => by
    refine gr_fold (hs s (by simp)).1 (hs s (by simp)).2 fun s' h' e => ?_
    refine gr_mapFold (fun u hu => hs u (by simp [hu])) fun ss' h'' e' => g _ _ ?_
    simp only [mapH, e, ok_bind, e']
    rfl

theorem WInv.le {w : SProverH F} {sp : SProver F} (i : WInv own h w sp) {s : Slice} (hs : s ∈ w.slices) : s.len ≤ s.cap :=
  (i.rep.valid s hs).len

/-- A fold over memory behaves as the fold of values. -/
def FoldSim (foldXP : SProverH F → F → (SProverH F → Prog (Heap F) (MsgH F)) → Prog (Heap F) (MsgH F))
    (foldX : SProver F → F → SProver F) : Prop :=
  ∀ ro own h w sp r (p : Prog Unit (Msg F)) K, WInv own h w sp →
    (∀ h' w', WInv own h' w' (foldX sp r) → (∀ b ∉ own, b < h.next → h'.cells b = h.cells b) → h.next ≤ h'.next →
      GR MsgRel ro (K w') p own h') → GR MsgRel ro (foldXP w r K) p own h

theorem winv_op {f : SProverH F → Heap F → Go (SProverH F × Heap F)} {g : SProver F → SProver F} (o : OpSpec SProverH.slices WRep f g)
    {w : SProverH F} {sp : SProver F} (i : WInv own h w sp) {w' : SProverH F} {h' : Heap F} (e : f w h = .ok (w', h')) :
    WInv own h' w' (g sp) ∧ (∀ b ∉ own, b < h.next → h'.cells b = h.cells b) ∧ h.next ≤ h'.next := by
  obtain ⟨w1, h1, e1, r1, s1, f1⟩ := o h w sp i.rep i.apart
  rw [e1] at e
  cases e
  refine ⟨⟨r1, sameArr_pairwise s1 i.apart, ?_⟩, ?_, f1.next⟩
  · intro u hu hc
    obtain ⟨s, hs, e⟩ := sameArr_mem s1 hu
    rw [← e.1]
    exact i.owns s hs (by rw [e.2]; exact hc)
  · intro b hb hn
    refine f1.cells b hn fun s hs hc e => hb ?_
    rw [e]
    exact i.owns s hs hc

theorem foldHL_sim : FoldSim (F := F) SProverH.foldHLP SProver.foldHL := by
  intro ro own h w sp r p K i g
  refine gr_mapFold (fun s hs => ⟨i.le (by simp [SProverH.slices, hs]), i.owns s (by simp [SProverH.slices, hs])⟩) fun ss h1 e1 => ?_
  refine gr_fold (i.le (by simp [SProverH.slices])) (i.owns _ (by simp [SProverH.slices])) fun v h2 e2 => ?_
  have e : w.foldHL r h = .ok ({ w with statics := ss, vL := v }, h2) := by
    simp only [SProverH.foldHL, e1, ok_bind, e2]; rfl
  obtain ⟨a, b, c⟩ := winv_op (foldHL_op r) i e
  exact g _ _ a b c

theorem foldHR_sim : FoldSim (F := F) SProverH.foldHRP SProver.foldHR := by
  intro ro own h w sp r p K i g
  refine gr_mapFold (fun s hs => ⟨i.le (by simp [SProverH.slices, hs]), i.owns s (by simp [SProverH.slices, hs])⟩) fun ss h1 e1 => ?_
  refine gr_fold (i.le (by simp [SProverH.slices])) (i.owns _ (by simp [SProverH.slices])) fun v h2 e2 => ?_
  have e : w.foldHR r h = .ok ({ w with statics := ss, vR := v }, h2) := by
    simp only [SProverH.foldHR, e1, ok_bind, e2]; rfl
  obtain ⟨a, b, c⟩ := winv_op (foldHR_op r) i e
  exact g _ _ a b c

theorem foldHPrime_sim : FoldSim (F := F) SProverH.foldHPrimeP SProver.foldHPrime := by
  intro ro own h w sp r p K i g
  refine gr_fold (i.le (by simp [SProverH.slices])) (i.owns _ (by simp [SProverH.slices])) fun a h1 e1 => ?_
  refine gr_fold (i.le (by simp [SProverH.slices])) (i.owns _ (by simp [SProverH.slices])) fun b h2 e2 => ?_
  refine gr_fold (i.le (by simp [SProverH.slices])) (i.owns _ (by simp [SProverH.slices])) fun c h3 e3 => ?_
  have e : w.foldHPrime r h = .ok ({ w with vR := a, vL := b, eq := c }, h3) := by
    simp only [SProverH.foldHPrime, e1, ok_bind, e2, e3]; rfl
  obtain ⟨a, b, c⟩ := winv_op (foldHPrime_op r) i e
  exact g _ _ a b c

theorem gr_mapRead : ∀ {ss : List Slice} {K : List (List F) → Prog (Heap F) (MsgH F)},
    (∀ s ∈ ss, s.len ≤ s.cap ∧ Owns (own ∪ ro) s) → GR MsgRel ro (K (ss.map h.vals)) p own h →
    GR MsgRel ro (mapP readP ss K) p own h
  | [], _, _, g => g
  | s :: ss, K, hs, g => by
    refine gr_read (hs s (by simp)).1 (hs s (by simp)).2 ?_
    exact gr_mapRead (K := fun ys => K (h.vals s :: ys)) (fun u hu => hs u (by simp [hu])) g

theorem gr_readW {w : SProverH F} {sp : SProver F} {K : SProver F → Prog (Heap F) (MsgH F)} (r : WRep h w sp)
    (o : ∀ s ∈ w.slices, Owns (own ∪ ro) s) (g : GR MsgRel ro (K sp) p own h) : GR MsgRel ro (w.readP K) p own h := by
  have hl : ∀ s ∈ w.slices, s.len ≤ s.cap := fun s hs => (r.valid s hs).len
  refine gr_read (hl _ (by simp [SProverH.slices])) (o _ (by simp [SProverH.slices])) ?_
  refine gr_read (hl _ (by simp [SProverH.slices])) (o _ (by simp [SProverH.slices])) ?_
  refine gr_read (hl _ (by simp [SProverH.slices])) (o _ (by simp [SProverH.slices])) ?_
  refine gr_mapRead (fun s hs => ⟨hl _ (by simp [SProverH.slices, hs]), o _ (by simp [SProverH.slices, hs])⟩) ?_
  rw [← r.toS] at g
  exact g

/-! ### New slices -/

theorem tab_fill {l : List F} : tab l.length (fun i => l.getD i 0) = l := by
  apply List.ext_getElem
  · simp
  · intro i h1 h2
    simp [List.getElem?_eq_getElem h2]

/-- A new slice that a loop of stores fills. -/
theorem gr_fill {n : Nat} {f : Nat → F} {body : Slice → Nat → Unit → (Unit → Prog (Heap F) (MsgH F)) → Prog (Heap F) (MsgH F)}
    {K : Slice → Prog (Heap F) (MsgH F)}
    (hb : ∀ a h' d i P, a ∉ own ∪ ro → Agree (own ∪ ro) h h' → d.arr = a → d.len = n → d.cap = n → i < n →
      GR MsgRel ro (P ()) p (insert a own) (h'.put d i (f i)) → GR MsgRel ro (body d i () P) p (insert a own) h')
    (g : ∀ a h' d, a ∉ own ∪ ro → a < h'.next → Agree (own ∪ ro) h h' → d.arr = a → Rep h' d (tab n f) →
      GR MsgRel ro (K d) p (insert a own) h') :
    GR MsgRel ro (makeP n fun d => loopP (body d) (fun _ => K d) 0 n ()) p own h := by
  refine gr_make fun h' ag => ?_
  have hno : h'.next ∉ own ∪ ro := fun hc => absurd (ag _ hc).2 (lt_irrefl _)
  obtain ⟨rd, od, fd⟩ := make_rep h' n
  set d := (h'.make n).1 with hd
  have hda : d.arr = h'.next := rfl
  have hdl : d.len = n := rfl
  have hdc : d.cap = n := rfl
  have hseq : ∀ j, j ≤ n → Agree (own ∪ ro) h (fillHeap (h'.make n).2 d f j) := by
    intro j hj b hb
    have hne : b ≠ h'.next := fun e => hno (e ▸ hb)
    refine ⟨?_, Nat.lt_succ_of_lt (ag b hb).2⟩
    rw [← (ag b hb).1, ← fd.cells b (ag b hb).2]
    funext k
    simp only [fillHeap]
    rw [if_neg]
    rintro ⟨e, _⟩
    exact hne (e.trans hda)
  have := gr_loop (ro := ro) (own := insert h'.next own) (p := p) (body := body d) (K := fun _ => K d)
    (fillHeap (h'.make n).2 d f) n 0 ?_ ?_
  · rw [fillHeap_zero] at this
    exact this
  · intro i _ hi P gP
    refine hb _ _ d i P hno (hseq i (by omega)) hda hdl hdc (by omega) ?_
    rw [fillHeap_succ]
    exact gP
  · refine g _ _ d hno (Nat.lt_succ_self _) (hseq _ (by omega)) hda ⟨⟨le_rfl, fun _ => Nat.lt_succ_self _⟩, ?_⟩
    have := fillHeap_vals (h'.make n).2 d f
    rw [hdl] at this
    rw [Nat.zero_add]
    exact this

theorem gr_newSlice {l : List F} {K : Slice → Prog (Heap F) (MsgH F)}
    (g : ∀ a h' d, a ∉ own ∪ ro → a < h'.next → Agree (own ∪ ro) h h' → d.arr = a → Rep h' d l → GR MsgRel ro (K d) p (insert a own) h') :
    GR MsgRel ro (newSliceP l K) p own h := by
  refine gr_fill (body := fun d i _ next => storeP d i (l.getD i 0) (next ())) (f := fun i => l.getD i 0) ?_ ?_
  · intro a h' d i P _ _ hda hdl hdc hi gP
    exact gr_store (by omega) (by omega) (fun _ => by rw [hda]; exact Set.mem_insert _ _) gP
  · rw [tab_fill]
    exact g

theorem gr_deepCopy {s : Slice} {l : List F} {K : Slice → Prog (Heap F) (MsgH F)} (r : Rep h s l) (o : Owns (own ∪ ro) s)
    (g : ∀ a h' d, a ∉ own ∪ ro → a < h'.next → Agree (own ∪ ro) h h' → d.arr = a → Rep h' d l → GR MsgRel ro (K d) p (insert a own) h') :
    GR MsgRel ro (deepCopyP s K) p own h := by
  have hl := r.valid.len
  refine gr_fill (body := fun d i _ next => loadP s i fun x => storeP d i x (next ())) (f := h.get s) ?_ ?_
  · intro a h' d i P hna ag hda hdl hdc hi gP
    refine gr_load hi r.valid.len (o.mono (Set.union_subset_union_left _ (Set.subset_insert _ _))) ?_
    have : h'.get s i = h.get s i := by
      simp only [Heap.get]
      rw [(ag _ (o (by omega))).1]
    rw [this]
    exact gr_store (by omega) (by omega) (fun _ => by rw [hda]; exact Set.mem_insert _ _) gP
  · have : tab s.len (h.get s) = l := r.vals
    rw [this]
    exact g

theorem Owns.apart {A B : Set Nat} {s u : Slice} (a : Owns A s) (b : Owns B u) (d : ∀ x ∈ A, x ∉ B) : Apart s u := by
  intro h1 h2 e
  exact d _ (a h1) (e ▸ b h2)

/-- The copies of the static tables. -/
theorem gr_deepCopies : ∀ {ss : List Slice} {vs : List (List F)} {own : Set Nat} {h : Heap F}
    {K : List Slice → Prog (Heap F) (MsgH F)}, Reps h ss vs → (∀ s ∈ ss, Owns (own ∪ ro) s) → (∀ a ∈ own ∪ ro, a < h.next) →
    (∀ own' h' ds, own ⊆ own' → Agree (own ∪ ro) h h' → Reps h' ds vs → ds.Pairwise Apart → (∀ d ∈ ds, Owns (own' \ (own ∪ ro)) d) →
      GR MsgRel ro (K ds) p own' h') →
    GR MsgRel ro (mapP deepCopyP ss K) p own h
  | [], _, own, h, K, .nil, _, ha, g => g own h [] subset_rfl (fun a hx => ⟨rfl, ha a hx⟩) .nil .nil (by simp)
  | s :: ss, _, own, h, K, .cons (b := v) (l₂ := vs) r rs, ho, _, g => by
    refine gr_deepCopy r (ho s (by simp)) fun a h1 d hna hc ag hda rd => ?_
    have hsub : own ∪ ro ⊆ insert a own ∪ ro := Set.union_subset_union_left _ (Set.subset_insert _ _)
    refine gr_deepCopies (Reps.agree rs (fun u hu => ho u (by simp [hu])) ag) (fun u hu => (ho u (by simp [hu])).mono hsub) ?_ ?_
    · rintro b ((rfl | hb) | hb)
      · exact hc
      · exact (ag b (.inl hb)).2
      · exact (ag b (.inr hb)).2
    · intro own' h' ds hs ag' rds pw od
      have oda : Owns {a} d := fun _ => hda
      refine g own' h' (d :: ds) (fun b hb => hs (.inr hb)) (ag.trans (ag'.mono hsub)) (.cons ?_ rds) (.cons ?_ pw) ?_
      · exact rd.agree (oda.mono (by rintro _ rfl; exact .inl (.inl rfl))) ag'
      · intro u hu
        refine oda.apart (od u hu) ?_
        rintro _ rfl hx
        exact hx.2 (.inl (.inl rfl))
      · intro u hu
        rcases List.mem_cons.1 hu with rfl | hu
        · exact oda.mono (by rintro _ rfl; exact ⟨hs (.inl rfl), hna⟩)
        · exact (od u hu).mono fun x hx => ⟨hx.1, fun hy => hx.2 (hsub hy)⟩

/-! ### Messages -/

theorem gr_recv {c : Nat} {K : Option (MsgH F) → Prog (Heap F) (MsgH F)} {k : Option (Msg F) → Prog Unit (Msg F)}
    (g0 : ∀ h', Agree (own ∪ ro) h h' → GR MsgRel ro (K none) (k none) own h')
    (g : ∀ h' o v v', Agree (own ∪ ro) h h' → Disjoint o (own ∪ ro) → (∀ a ∈ o, a < h'.next) → MsgRel o h' v v' →
      GR MsgRel ro (K (some v)) (k (some v')) (own ∪ o) h') :
    GR MsgRel ro (.recv c K) (.recv c k) own h :=
  .inr fun h' a => ⟨k, rfl, g0 h' a, fun o v v' => g h' o v v' a⟩

theorem gr_acquire {c : Nat} {K : Prog (Heap F) (MsgH F)} {k : Prog Unit (Msg F)}
    (g : ∀ own' h', own ⊆ own' → Agree (own ∪ ro) h h' → (∀ a ∈ own' ∪ ro, a < h'.next) → GR MsgRel ro K k own' h') :
    GR MsgRel ro (acquireP c K) (acquireP c k) own h := by
  refine gr_recv (fun h' a => g own h' subset_rfl a fun b hb => (a b hb).2) fun h' o _ _ a _ hn _ =>
    g _ h' Set.subset_union_left a ?_
  rintro b ((hb | hb) | hb)
  · exact (a b (.inl hb)).2
  · exact hn b hb
  · exact (a b (.inr hb)).2

theorem gr_recvElem {c : Nat} {K : F → Prog (Heap F) (MsgH F)} {k : F → Prog Unit (Msg F)}
    (g : ∀ own' h' x, own ⊆ own' → Agree (own ∪ ro) h h' → GR MsgRel ro (K x) (k x) own' h') :
    GR MsgRel ro (recvElemH c K) (recvElem c k) own h := by
  refine gr_recv (fun h' a => g own h' 0 subset_rfl a) fun h' o v v' a d hn m => ?_
  have g' := fun x => g (own ∪ o) h' x Set.subset_union_left a
  cases v <;> cases v' <;> first | exact m.elim | exact g' 0 | (obtain rfl : _ = _ := m; exact g' _)

theorem gr_recvSlice {c : Nat} {K : Slice → Prog (Heap F) (MsgH F)} {k : List F → Prog Unit (Msg F)}
    (g : ∀ own' h' s xs, own ⊆ own' → Agree (own ∪ ro) h h' → Rep h' s xs → Owns (own' \ own) s → GR MsgRel ro (K s) (k xs) own' h') :
    GR MsgRel ro (recvSliceH c K) (recvVec c k) own h := by
  have nil : ∀ h' : Heap F, Rep h' Slice.nil [] := fun h' => ⟨⟨le_rfl, fun hc => absurd hc (lt_irrefl _)⟩, rfl⟩
  have nilO : ∀ A, Owns A Slice.nil := fun _ hc => absurd hc (lt_irrefl _)
  refine gr_recv (fun h' a => g own h' _ _ subset_rfl a (nil h') (nilO _)) fun h' o v v' a d hn m => ?_
  have g' := fun s xs => g (own ∪ o) h' s xs Set.subset_union_left a
  cases v <;> cases v' <;> first | exact m.elim | exact g' _ _ (nil h') (nilO _) | skip
  refine g' _ _ m.1 (m.2.mono fun x hx => ⟨.inr hx, fun hy => Set.disjoint_left.1 d hx (.inl hy)⟩)

theorem gr_recvProver {c : Nat} {K : Nat → SProverH F → Prog (Heap F) (MsgH F)} {k : Nat → SProver F → Prog Unit (Msg F)}
    (g0 : ∃ e, k 0 ⟨[], [], [], [], [], 0, 0, 0⟩ = .crash e)
    (g : ∀ own' h' i w sp, own ⊆ own' → Agree (own ∪ ro) h h' → WInv (own' \ own) h' w sp → GR MsgRel ro (K i w) (k i sp) own' h') :
    GR MsgRel ro (recvProverH c K) (recvProver c k) own h := by
  obtain ⟨e, he⟩ := g0
  have nil : ∀ P (A : Set Nat) (h' : Heap F), GR MsgRel ro P (k 0 ⟨[], [], [], [], [], 0, 0, 0⟩) A h' := fun P A h' => by
    rw [he]; exact GR.crash
  refine gr_recv (fun h' a => nil _ _ _) fun h' o v v' a d hn m => ?_
  have g' := fun i w sp => g (own ∪ o) h' i w sp Set.subset_union_left a
  cases v <;> cases v' <;> first | exact m.elim | exact nil _ _ _ | skip
  obtain ⟨rfl, m⟩ := m
  exact g' _ _ _ (m.mono fun x hx => ⟨.inr hx, fun hy => Set.disjoint_left.1 d hx (.inl hy)⟩)

theorem gr_send {c : Nat} {v : MsgH F} {v' : Msg F} {K : Prog (Heap F) (MsgH F)} {k : Prog Unit (Msg F)} (o : Set Nat) (ho : o ⊆ own)
    (m : MsgRel o h v v') (g : ∀ h', Agree (own ∪ ro) h h' → GR MsgRel ro K k (own \ o) h') :
    GR MsgRel ro (.send c v K) (.send c v' k) own h :=
  .inr fun h' a => ⟨v', k, rfl, o, ho, msgRel_stable _ _ _ _ _ m (a.mono fun _ hx => .inl (ho hx)), g h' a⟩

/-- Send a message without arrays. -/
theorem gr_sendPlain {c : Nat} {v : MsgH F} {v' : Msg F} {K : Prog (Heap F) (MsgH F)} {k : Prog Unit (Msg F)}
    (m : MsgRel ∅ h v v') (g : ∀ h', Agree (own ∪ ro) h h' → GR MsgRel ro K k own h') :
    GR MsgRel ro (.send c v K) (.send c v' k) own h :=
  gr_send ∅ (Set.empty_subset _) m fun h' a => by rw [Set.sdiff_empty]; exact g h' a

theorem gr_close {c : Nat} {K : Prog (Heap F) (MsgH F)} {k : Prog Unit (Msg F)}
    (g : ∀ h', Agree (own ∪ ro) h h' → GR MsgRel ro K k own h') : GR MsgRel ro (.close c K) (.close c k) own h :=
  .inr fun h' a => ⟨k, rfl, g h' a⟩

theorem gr_make' {n : Nat} {K : Nat → Prog (Heap F) (MsgH F)} {k : Nat → Prog Unit (Msg F)}
    (g : ∀ c h', Agree (own ∪ ro) h h' → GR MsgRel ro (K c) (k c) own h') : GR MsgRel ro (.make n K) (.make n k) own h :=
  .inr fun h' a => ⟨k, rfl, fun c => g c h' a⟩

theorem gr_go {P K : Prog (Heap F) (MsgH F)} {p k : Prog Unit (Msg F)} (o : Set Nat) (ho : o ⊆ own)
    (g : ∀ h', Agree (own ∪ ro) h h' → GR MsgRel ro P p o h' ∧ GR MsgRel ro K k (own \ o) h') :
    GR MsgRel ro (.go P K) (.go p k) own h :=
  .inr fun h' a => ⟨p, k, rfl, o, ho, g h' a⟩

theorem gr_ret {r : MsgH F} {r' : Msg F} (m : MsgRel own h r r') : GR MsgRel ro (.ret r) (.ret r' : Prog Unit (Msg F)) own h :=
  .inr fun _ a => ⟨r', rfl, msgRel_stable _ _ _ _ _ m (a.mono Set.subset_union_left)⟩

/-- Two loops with an invariant. -/
theorem gr_loopRel {σ τ : Type} {body : Nat → σ → (σ → Prog (Heap F) (MsgH F)) → Prog (Heap F) (MsgH F)}
    {body' : Nat → τ → (τ → Prog Unit (Msg F)) → Prog Unit (Msg F)} {K : σ → Prog (Heap F) (MsgH F)} {k : τ → Prog Unit (Msg F)}
    (I : Nat → Set Nat → Heap F → σ → τ → Prop) :
    ∀ (n j : Nat), (∀ i, j ≤ i → i < j + n → ∀ own h s t, I i own h s t → ∀ P p,
      (∀ own' h' s' t', I (i + 1) own' h' s' t' → GR MsgRel ro (P s') (p t') own' h') →
        GR MsgRel ro (body i s P) (body' i t p) own h) →
    (∀ own h s t, I (j + n) own h s t → GR MsgRel ro (K s) (k t) own h) →
    ∀ own h s t, I j own h s t → GR MsgRel ro (loopP body K j n s) (loopP body' k j n t) own h := by
  intro n
  induction n with
  | zero => intro j _ g own h s t i; exact g own h s t i
  | succ n ih =>
    intro j hb g own h s t i
    refine hb j le_rfl (by omega) own h s t i _ _ fun own' h' s' t' i' =>
      ih (j + 1) (fun i h1 h2 => hb i (by omega) (by omega)) ?_ own' h' s' t' i'
    rw [show j + 1 + n = j + (n + 1) by omega]
    exact g

/-- A loop over memory against a loop over values that is a local computation. -/
theorem gr_loopGo {σ τ : Type} {body : Nat → σ → (σ → Prog (Heap F) (MsgH F)) → Prog (Heap F) (MsgH F)} {f : Nat → τ → Go τ}
    {K : σ → Prog (Heap F) (MsgH F)} {k : τ → Prog Unit (Msg F)} (I : Set Nat → Heap F → σ → τ → Prop)
    (hb : ∀ i own h s t, I own h s t → ∀ P t' (q : Prog Unit (Msg F)), f i t = .ok t' →
      (∀ own' h' s', I own' h' s' t' → GR MsgRel ro (P s') q own' h') → GR MsgRel ro (body i s P) q own h)
    (g : ∀ own h s t, I own h s t → GR MsgRel ro (K s) (k t) own h) :
    ∀ (n j : Nat) own h s t, I own h s t → GR MsgRel ro (loopP body K j n s) (liftGo (forFrom f j n t) k) own h := by
  intro n
  induction n with
  | zero => intro j own h s t i; exact g own h s t i
  | succ n ih =>
    intro j own h s t i
    cases hf : f j t with
    | error e =>
      simp only [forFrom, hf, liftGo]
      exact GR.crash
    | ok t' =>
      simp only [forFrom, hf]
      exact hb j own h s t i _ t' _ hf fun own' h' s' i' => ih (j + 1) own' h' s' t' i'

theorem gr_newSem {n : Int} {K : Nat → Prog (Heap F) (MsgH F)} {k : Nat → Prog Unit (Msg F)}
    (g : ∀ c h', Agree (own ∪ ro) h h' → GR MsgRel ro (K c) (k c) own h') :
    GR MsgRel ro (newSemaphoreP .tok n K) (newSemaphoreP .tok n k) own h := by
  unfold newSemaphoreP
  split
  · exact ⟨_, rfl⟩
  · refine gr_make' fun c h1 a1 => ?_
    refine gr_loopRel (fun _ own' h' _ _ => own' = own ∧ Agree (own ∪ ro) h h') _ _ ?_ ?_ own h1 () () ⟨rfl, a1⟩
    · rintro i _ _ own' h' _ _ ⟨rfl, a⟩ P p gP
      exact gr_sendPlain trivial fun h2 a2 => gP _ _ _ _ ⟨rfl, a.trans a2⟩
    · rintro own' h' _ _ ⟨rfl, a⟩
      exact g c h' a

end GkrMimc
