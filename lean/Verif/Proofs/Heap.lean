import Verif.Spec.Heap
import Verif.Proofs.Tables

/-! Lemmas on the memory-level model. -/

set_option linter.unusedSectionVars false

namespace GkrMimc

open Finset

variable {F : Type}

theorem Frame.refl (h : Heap F) : Frame h h := ⟨le_rfl, rfl, fun _ _ => rfl⟩

theorem Frame.trans {h1 h2 h3 : Heap F} (a : Frame h1 h2) (b : Frame h2 h3) : Frame h1 h3 :=
  ⟨a.next.trans b.next, b.extra.trans a.extra, fun x hx => (b.cells x (lt_of_lt_of_le hx a.next)).trans (a.cells x hx)⟩

theorem Valid.frame {h h' : Heap F} {s : Slice} (v : Valid h s) (f : Frame h h') : Valid h' s :=
  ⟨v.len, fun hc => lt_of_lt_of_le (v.arr hc) f.next⟩

theorem vals_eq (h : Heap F) (s : Slice) : h.vals s = tab s.len (h.get s) := rfl

@[simp] theorem vals_length (h : Heap F) (s : Slice) : (h.vals s).length = s.len := by simp [vals_eq]

theorem Frame.get {h h' : Heap F} {s : Slice} (f : Frame h h') (v : Valid h s) {i : Nat} (hi : i < s.len) :
    h'.get s i = h.get s i := by
  have := v.len
  unfold Heap.get
  rw [f.cells _ (v.arr (by omega))]

theorem Frame.vals {h h' : Heap F} {s : Slice} (f : Frame h h') (v : Valid h s) : h'.vals s = h.vals s :=
  tab_congr fun _ hi => f.get v hi

theorem load_ok {h : Heap F} {s : Slice} {i : Nat} (hi : i < s.len) : h.load s i = .ok (h.get s i) := by
  simp [Heap.load, hi]

theorem store_ok {h : Heap F} {s : Slice} {i : Nat} {v : F} (hi : i < s.len) : h.store s i v = .ok (h.put s i v) := by
  simp [Heap.store, hi]

theorem load_idx (h : Heap F) (s : Slice) (i : Nat) : h.load s i = idx (h.vals s) i := by
  by_cases hi : i < s.len
  · rw [load_ok hi, vals_eq, idx_tab hi]
  · rw [idx_err (by simp; omega)]; simp [Heap.load, hi]

theorem put_cells (h : Heap F) (s : Slice) (i : Nat) (v : F) (a j : Nat) :
    (h.put s i v).cells a j = if a = s.arr ∧ j = s.off + i then v else h.cells a j := by
  unfold Heap.put
  by_cases ha : a = s.arr
  · subst ha
    by_cases hj : j = s.off + i
    · subst hj; simp
    · simp [hj]
  · simp [ha]

theorem put_get (h : Heap F) (s t : Slice) (i j : Nat) (v : F) :
    (h.put s i v).get t j = if t.arr = s.arr ∧ t.off + j = s.off + i then v else h.get t j := by
  unfold Heap.get; rw [put_cells]

@[simp] theorem put_next (h : Heap F) (s : Slice) (i : Nat) (v : F) : (h.put s i v).next = h.next := rfl
@[simp] theorem put_extra (h : Heap F) (s : Slice) (i : Nat) (v : F) : (h.put s i v).extra = h.extra := rfl

theorem Heap.ext' {h h' : Heap F} (h1 : ∀ a j, h.cells a j = h'.cells a j) (h2 : h.next = h'.next) (h3 : h.extra = h'.extra) :
    h = h' := by
  obtain ⟨c, n, e⟩ := h
  obtain ⟨c', n', e'⟩ := h'
  simp only at h1 h2 h3
  obtain rfl : c = c' := funext fun a => funext fun j => h1 a j
  subst h2 h3
  rfl

theorem slice_sub_ok {s : Slice} {a b : Nat} (h1 : a ≤ b) (h2 : b ≤ s.cap) :
    s.sub a b = .ok ⟨s.arr, s.off + a, b - a, s.cap - a⟩ := by
  simp [Slice.sub, h1, h2]

variable [Field F]

/-- Memory after `k` iterations of the loop of `Fold`. -/
def foldHeap (h : Heap F) (s : Slice) (r : F) (k : Nat) : Heap F where
  cells := fun a j =>
    if a = s.arr ∧ s.off ≤ j ∧ j < s.off + k then
      h.cells a j + (h.cells a (j + s.len / 2) - h.cells a j) * r
    else if a = s.arr ∧ s.off + s.len / 2 ≤ j ∧ j < s.off + s.len / 2 + k then
      (h.cells a j - h.cells a (j - s.len / 2)) * r
    else h.cells a j
  next := h.next
  extra := h.extra

theorem foldH_eq (h : Heap F) (s : Slice) (r : F) (hs : s.len ≤ s.cap) :
    foldH h s r = .ok (⟨s.arr, s.off, s.len / 2, s.cap⟩, foldHeap h s r (s.len / 2)) := by
  unfold foldH
  simp only
  rw [slice_sub_ok (by omega) (by omega), ok_bind, slice_sub_ok (by omega) hs, ok_bind]
  have := forN_eq (σ := Heap F) (body := fun i h => do
      let t ← h.load ⟨s.arr, s.off + s.len / 2, s.len - s.len / 2, s.cap - s.len / 2⟩ i
      let b ← h.load ⟨s.arr, s.off + 0, s.len / 2 - 0, s.cap - 0⟩ i
      let h ← h.store ⟨s.arr, s.off + s.len / 2, s.len - s.len / 2, s.cap - s.len / 2⟩ i (t - b)
      let t ← h.load ⟨s.arr, s.off + s.len / 2, s.len - s.len / 2, s.cap - s.len / 2⟩ i
      let h ← h.store ⟨s.arr, s.off + s.len / 2, s.len - s.len / 2, s.cap - s.len / 2⟩ i (t * r)
      let b ← h.load ⟨s.arr, s.off + 0, s.len / 2 - 0, s.cap - 0⟩ i
      let t ← h.load ⟨s.arr, s.off + s.len / 2, s.len - s.len / 2, s.cap - s.len / 2⟩ i
      h.store ⟨s.arr, s.off + 0, s.len / 2 - 0, s.cap - 0⟩ i (b + t)) (foldHeap h s r) (s.len / 2) (by
    intro i hi
    have e1 : ∀ h : Heap F, h.load ⟨s.arr, s.off + s.len / 2, s.len - s.len / 2, s.cap - s.len / 2⟩ i =
      .ok (h.cells s.arr (s.off + s.len / 2 + i)) := fun h => load_ok (by simp only; omega)
    have e2 : ∀ h : Heap F, h.load ⟨s.arr, s.off + 0, s.len / 2 - 0, s.cap - 0⟩ i =
      .ok (h.cells s.arr (s.off + i)) := fun h => load_ok (by simp only; omega)
    have e3 : ∀ (h : Heap F) v, h.store ⟨s.arr, s.off + s.len / 2, s.len - s.len / 2, s.cap - s.len / 2⟩ i v =
      .ok (h.put ⟨s.arr, s.off + s.len / 2, s.len - s.len / 2, s.cap - s.len / 2⟩ i v) :=
        fun h v => store_ok (by simp only; omega)
    have e4 : ∀ (h : Heap F) v, h.store ⟨s.arr, s.off + 0, s.len / 2 - 0, s.cap - 0⟩ i v =
      .ok (h.put ⟨s.arr, s.off + 0, s.len / 2 - 0, s.cap - 0⟩ i v) := fun h v => store_ok (by simp only; omega)
    simp only [e1, e2, e3, e4, ok_bind]
    congr 1
    have c1 : (foldHeap h s r i).cells s.arr (s.off + s.len / 2 + i) = h.cells s.arr (s.off + s.len / 2 + i) := by
      simp only [foldHeap]
      rw [if_neg (by omega), if_neg (by omega)]
    have c2 : (foldHeap h s r i).cells s.arr (s.off + i) = h.cells s.arr (s.off + i) := by
      simp only [foldHeap]
      rw [if_neg (by omega), if_neg (by omega)]
    refine Heap.ext' ?_ rfl rfl
    intro a j
    have n1 : ¬ s.off + i = s.off + s.len / 2 + i := by omega
    have n2 : ¬ s.off + s.len / 2 + i = s.off + i := by omega
    simp only [put_cells, Nat.add_zero, n1, and_false, if_false, true_and, if_true, c1, c2, and_self]
    by_cases ha : a = s.arr
    · subst ha
      by_cases h1 : j = s.off + i
      · subst h1
        simp only [foldHeap, true_and, if_true]
        rw [if_pos (by omega), show s.off + i + s.len / 2 = s.off + s.len / 2 + i by omega]
      · by_cases h2 : j = s.off + s.len / 2 + i
        · subst h2
          simp only [foldHeap, true_and, if_true, h1, if_false]
          rw [if_neg (by omega), if_pos (by omega), show s.off + s.len / 2 + i - s.len / 2 = s.off + i by omega]
        · simp only [h1, h2, and_false, if_false, foldHeap, true_and]
          have q1 : (s.off ≤ j ∧ j < s.off + (i + 1)) ↔ (s.off ≤ j ∧ j < s.off + i) := by omega
          have q2 : (s.off + s.len / 2 ≤ j ∧ j < s.off + s.len / 2 + (i + 1)) ↔
            (s.off + s.len / 2 ≤ j ∧ j < s.off + s.len / 2 + i) := by omega
          simp only [q1, q2]
    · simp [foldHeap, ha])
  have h0 : foldHeap h s r 0 = h := by
    refine Heap.ext' ?_ rfl rfl
    intro a j
    simp only [foldHeap]
    rw [if_neg (by omega), if_neg (by omega)]
  rw [h0] at this
  simp only [Nat.sub_zero] at this ⊢
  rw [this, ok_bind, ok_bind]
  rfl

theorem fold_vals (h : Heap F) (s : Slice) (r : F) (c : Nat) :
    (foldHeap h s r (s.len / 2)).vals ⟨s.arr, s.off, s.len / 2, c⟩ = fold (h.vals s) r := by
  unfold fold
  simp only
  rw [vals_length, vals_eq, vals_eq, tab_take (by omega), tab_drop]
  have : tab (s.len - s.len / 2) (fun i => h.get s (s.len / 2 + i)) =
      tab (s.len / 2) (fun i => h.get s (s.len / 2 + i)) ++
        tab (s.len - s.len / 2 - s.len / 2) (fun i => h.get s (s.len / 2 + (s.len / 2 + i))) := by
    rw [← tab_add]; congr 1; omega
  rw [this]
  rw [show tab (s.len / 2) (h.get s) = tab (s.len / 2) (h.get s) ++ [] by simp, List.zipWith_append (by simp)]
  simp only [List.zipWith_nil_left, List.append_nil]
  rw [zipWith_tab]
  apply tab_congr
  intro i hi
  simp only [Heap.get, foldHeap]
  rw [if_pos ⟨trivial, by omega, by omega⟩, show s.off + i + s.len / 2 = s.off + (s.len / 2 + i) by omega]

/-- Nothing that exists in `h0` can be written through the header `s`. -/
def Outside (h0 : Heap F) (s : Slice) : Prop := 0 < s.cap → h0.next ≤ s.arr

theorem Frame.of_fold {h0 h : Heap F} {s : Slice} {r : F} {k : Nat} (f : Frame h0 h) (o : Outside h0 s) (hs : s.len ≤ s.cap)
    (hk : k ≤ s.len / 2) : Frame h0 (foldHeap h s r k) := by
  refine ⟨f.next, f.extra, ?_⟩
  intro a ha
  funext j
  simp only [foldHeap]
  have : a = s.arr → s.len / 2 = 0 := by
    intro e
    by_contra hc
    have := o (by omega)
    omega
  rw [if_neg (by intro ⟨e, h1, h2⟩; have := this e; omega), if_neg (by intro ⟨e, h1, h2⟩; have := this e; omega), f.cells a ha]

theorem make_frame {h0 h : Heap F} (f : Frame h0 h) (n : Nat) : Frame h0 (h.make n).2 := by
  refine ⟨le_trans f.next (Nat.le_succ _), f.extra, ?_⟩
  intro a ha
  have := f.next
  simp only [Heap.make, Heap.alloc]
  rw [Function.update_of_ne (by omega), f.cells a ha]

theorem copy_cells (h : Heap F) (dst src : Slice) (a j : Nat) : (h.copy dst src).cells a j =
    if a = dst.arr ∧ dst.off ≤ j ∧ j < dst.off + min dst.len src.len then h.get src (j - dst.off) else h.cells a j := by
  simp only [Heap.copy]
  by_cases ha : a = dst.arr
  · subst ha; simp
  · simp [ha]

theorem copy_frame {h0 h : Heap F} (f : Frame h0 h) (dst src : Slice) (o : Outside h0 dst) (hd : dst.len ≤ dst.cap) :
    Frame h0 (h.copy dst src) := by
  refine ⟨f.next, f.extra, ?_⟩
  intro a ha
  funext j
  rw [copy_cells, if_neg, f.cells a ha]
  rintro ⟨rfl, h1, h2⟩
  have := o (by omega)
  omega

theorem deepCopy_spec {h0 h : Heap F} {s : Slice} (f : Frame h0 h) (v : Valid h s) :
    Frame h0 (deepCopyH h s).2 ∧ Valid (deepCopyH h s).2 (deepCopyH h s).1 ∧ Outside h0 (deepCopyH h s).1 ∧
    (deepCopyH h s).2.vals (deepCopyH h s).1 = h.vals s := by
  have hf := make_frame f s.len
  refine ⟨copy_frame hf _ _ ?_ le_rfl, ⟨le_rfl, fun _ => Nat.lt_succ_self _⟩, ?_, ?_⟩
  · exact fun _ => f.next
  · exact fun _ => f.next
  · apply tab_congr
    intro i hi
    change i < s.len at hi
    change ((h.make s.len).2.copy (h.make s.len).1 s).cells h.next (0 + i) = _
    rw [copy_cells, if_pos ⟨rfl, by simp [Heap.make], by simpa [Heap.make] using hi⟩]
    have e : 0 + i - (h.make s.len).1.off = i := by simp [Heap.make]
    rw [e]
    exact (make_frame (Frame.refl h) s.len).get v hi

/-- The loop of `Evaluate`: `k` folds of a table that nobody else sees. -/
theorem evalLoop {h0 : Heap F} {coords : Slice} (vc : Valid h0 coords) (s : Slice × Heap F) (f : Frame h0 s.2)
    (v : Valid s.2 s.1) (o : Outside h0 s.1) : ∀ k ≤ coords.len,
    ∃ s', forN k s (fun i s => do
        let r ← s.2.load coords i
        foldH s.2 s.1 r) = .ok s' ∧ Frame h0 s'.2 ∧ Valid s'.2 s'.1 ∧ Outside h0 s'.1 ∧
      s'.2.vals s'.1 = ((h0.vals coords).take k).foldl fold (s.2.vals s.1)
  | 0, _ => ⟨s, rfl, f, v, o, rfl⟩
  | k + 1, hk => by
    obtain ⟨s', h1, f', v', o', e⟩ := evalLoop vc s f v o k (by omega)
    rw [forN_succ, h1, ok_bind, load_ok (by omega), ok_bind, foldH_eq _ _ _ v'.len]
    refine ⟨_, rfl, f'.of_fold o' v'.len le_rfl, ⟨?_, v'.arr⟩, o', ?_⟩
    · have := v'.len
      simp only
      omega
    · rw [fold_vals, e, f'.get vc (by omega), vals_eq h0 coords, tab_take (by omega), tab_take hk, tab_succ',
        List.foldl_append]
      rfl

theorem evaluateH_spec {h0 h : Heap F} {bkt coords : Slice} (f : Frame h0 h) (vb : Valid h bkt) (vc : Valid h coords) :
    ∃ h', Frame h0 h' ∧ Frame h h' ∧
      evaluateH h bkt coords = (evaluate (h.vals bkt) (h.vals coords) >>= fun v => .ok (v, h')) := by
  obtain ⟨f1, v1, o1, e1⟩ := deepCopy_spec (Frame.refl h) vb
  obtain ⟨s', h1, f', v', o', e⟩ := evalLoop vc (deepCopyH h bkt) f1 v1 o1 coords.len le_rfl
  refine ⟨s'.2, f.trans f', f', ?_⟩
  unfold evaluateH
  rw [h1, ok_bind, load_idx, e, e1, List.take_of_length_le (by simp)]
  rfl

theorem append_spec {h0 h : Heap F} {s t : Slice} (f : Frame h0 h) (vs : Valid h s) (vt : Valid h t) (o : Outside h0 s) :
    Frame h0 (h.append s t).2 ∧ Valid (h.append s t).2 (h.append s t).1 ∧ Outside h0 (h.append s t).1 ∧
    (h.append s t).2.vals (h.append s t).1 = h.vals s ++ h.vals t := by
  have hl := vs.len
  have key : h.vals s ++ h.vals t = tab (s.len + t.len) (fun i => if i < s.len then h.get s i else h.get t (i - s.len)) := by
    rw [tab_add]
    congr 1
    · apply tab_congr
      intro i hi
      simp [hi]
    · apply tab_congr
      intro i hi
      simp
  by_cases hc : s.len + t.len ≤ s.cap
  · have e : h.append s t = (⟨s.arr, s.off, s.len + t.len, s.cap⟩, h.copy ⟨s.arr, s.off + s.len, t.len, s.cap - s.len⟩ t) := by
      simp [Heap.append, hc]
    rw [e, key]
    refine ⟨copy_frame f _ _ ?_ ?_, ⟨hc, vs.arr⟩, o, ?_⟩
    · intro h1
      exact o (by simp only at h1; omega)
    · simp only; omega
    · apply tab_congr
      intro i hi
      simp only at hi
      simp only [Heap.get]
      rw [copy_cells]
      simp only
      by_cases h1 : i < s.len
      · rw [if_neg (by omega), if_pos h1]
      · rw [if_pos ⟨trivial, by omega, by omega⟩, if_neg h1]
        simp only [Heap.get]
        congr 1
        omega
  · have e : h.append s t = (⟨h.next, 0, s.len + t.len, s.len + t.len + h.extra h.next⟩,
      h.alloc fun j => if j < s.len then h.get s j else if j < s.len + t.len then h.get t (j - s.len) else 0) := by
      simp [Heap.append, hc]
    rw [e, key]
    refine ⟨⟨le_trans f.next (Nat.le_succ _), f.extra, ?_⟩, ⟨by simp, fun _ => Nat.lt_succ_self _⟩, fun _ => f.next, ?_⟩
    · intro a ha
      have := f.next
      simp only [Heap.alloc]
      rw [Function.update_of_ne (by omega), f.cells a ha]
    · apply tab_congr
      intro i hi
      simp only at hi
      simp only [Heap.get, Heap.alloc, Function.update_self, Nat.zero_add]
      simp [hi]

theorem valid_nil (h : Heap F) : Valid h Slice.nil := ⟨le_rfl, fun h => by simp [Slice.nil] at h⟩
theorem outside_nil (h : Heap F) : Outside h Slice.nil := fun h => by simp [Slice.nil] at h
@[simp] theorem vals_nil (h : Heap F) : h.vals Slice.nil = [] := rfl

theorem evaluateLeftAndRightH_spec {h : Heap F} {bkt hPrime hL hR : Slice} (vb : Valid h bkt) (vp : Valid h hPrime)
    (vl : Valid h hL) (vr : Valid h hR) :
    ∃ h', Frame h h' ∧ evaluateLeftAndRightH h bkt hPrime hL hR =
      (evaluateLeftAndRight (h.vals bkt) (h.vals hPrime) (h.vals hL) (h.vals hR) >>= fun v => .ok (v, h')) := by
  unfold evaluateLeftAndRightH
  obtain ⟨f1, v1, o1, x1⟩ := deepCopy_spec (Frame.refl h) vb
  rcases e1 : deepCopyH h bkt with ⟨c1, h1⟩
  rw [e1] at f1 v1 o1 x1
  simp only at f1 v1 o1 x1 ⊢
  obtain ⟨f2, v2, o2, x2⟩ := deepCopy_spec f1 (vb.frame f1)
  obtain ⟨g2, -, -, -⟩ := deepCopy_spec (Frame.refl h1) (vb.frame f1)
  rcases e2 : deepCopyH h1 bkt with ⟨c2, h2⟩
  rw [e2] at f2 v2 o2 x2 g2
  simp only at f2 v2 o2 x2 g2 ⊢
  obtain ⟨f3, v3, o3, x3⟩ := append_spec f2 (valid_nil h2) (vl.frame f2) (outside_nil h)
  obtain ⟨g3, -, k3, -⟩ := append_spec (Frame.refl h2) (valid_nil h2) (vl.frame f2) (outside_nil h2)
  rcases e3 : h2.append Slice.nil hL with ⟨c3, h3⟩
  rw [e3] at f3 v3 o3 x3 g3 k3
  simp only at f3 v3 o3 x3 g3 k3 ⊢
  obtain ⟨f4, v4, o4, x4⟩ := append_spec f3 v3 (vp.frame f3) o3
  obtain ⟨g4, -, k4, -⟩ := append_spec g3 v3 (vp.frame f3) k3
  rcases e4 : h3.append c3 hPrime with ⟨c4, h4⟩
  rw [e4] at f4 v4 o4 x4 g4 k4
  simp only at f4 v4 o4 x4 g4 k4 ⊢
  obtain ⟨f5, v5, o5, x5⟩ := append_spec f4 (valid_nil h4) (vr.frame f4) (outside_nil h)
  obtain ⟨g5, -, k5, -⟩ := append_spec (Frame.refl h4) (valid_nil h4) (vr.frame f4) (outside_nil h4)
  rcases e5 : h4.append Slice.nil hR with ⟨c5, h5⟩
  rw [e5] at f5 v5 o5 x5 g5 k5
  simp only at f5 v5 o5 x5 g5 k5 ⊢
  obtain ⟨f6, v6, o6, x6⟩ := append_spec f5 v5 (vp.frame f5) o5
  obtain ⟨g6, -, k6, -⟩ := append_spec g5 v5 (vp.frame f5) k5
  rcases e6 : h5.append c5 hPrime with ⟨c6, h6⟩
  rw [e6] at f6 v6 o6 x6 g6 k6
  simp only at f6 v6 o6 x6 g6 k6 ⊢
  have w1 : Valid h6 c1 := ((v1.frame g2).frame g4).frame g6
  have w2 : Valid h6 c2 := (v2.frame g4).frame g6
  have w4 : Valid h6 c4 := v4.frame g6
  have y1 : h6.vals c1 = h.vals bkt := by
    rw [g6.vals ((v1.frame g2).frame g4), g4.vals (v1.frame g2), g2.vals v1, x1]
  have y2 : h6.vals c2 = h.vals bkt := by
    rw [g6.vals (v2.frame g4), g4.vals v2, x2, f1.vals vb]
  have y4 : h6.vals c4 = h.vals hL ++ h.vals hPrime := by
    rw [g6.vals v4, x4, x3, f3.vals vp, f2.vals vl, vals_nil, List.nil_append]
  have y6 : h6.vals c6 = h.vals hR ++ h.vals hPrime := by
    rw [x6, x5, f5.vals vp, f4.vals vr, vals_nil, List.nil_append]
  obtain ⟨h7, f7, g7, x7⟩ := evaluateH_spec f6 w1 w4
  obtain ⟨h8, f8, g8, x8⟩ := evaluateH_spec f7 (w2.frame g7) (v6.frame g7)
  refine ⟨h8, f8, ?_⟩
  unfold evaluateLeftAndRight
  rw [x7, y1, y4]
  cases evaluate (h.vals bkt) (h.vals hL ++ h.vals hPrime) with
  | error e => rfl
  | ok l =>
    simp only [ok_bind]
    rw [x8, g7.vals w2, g7.vals v6, y2, y6]
    cases evaluate (h.vals bkt) (h.vals hR ++ h.vals hPrime) <;> rfl

/-! ### Table arithmetic -/

/-- Memory after the first `k` cells of `d` have been set to `g 0, …, g (k-1)`. -/
def fillHeap (h : Heap F) (d : Slice) (g : Nat → F) (k : Nat) : Heap F :=
  { h with cells := fun a j => if a = d.arr ∧ d.off ≤ j ∧ j < d.off + k then g (j - d.off) else h.cells a j }

theorem fillHeap_zero (h : Heap F) (d : Slice) (g : Nat → F) : fillHeap h d g 0 = h := by
  refine Heap.ext' ?_ rfl rfl
  intro a j
  simp only [fillHeap]
  rw [if_neg (by omega)]

theorem fillHeap_succ (h : Heap F) (d : Slice) (g : Nat → F) (k : Nat) :
    (fillHeap h d g k).put d k (g k) = fillHeap h d g (k + 1) := by
  refine Heap.ext' ?_ rfl rfl
  intro a j
  rw [put_cells]
  simp only [fillHeap]
  by_cases h1 : a = d.arr ∧ j = d.off + k
  · rw [if_pos h1, if_pos (by omega)]
    congr 1
    omega
  · rw [if_neg h1]
    by_cases h2 : a = d.arr ∧ d.off ≤ j ∧ j < d.off + k
    · rw [if_pos h2, if_pos (by omega)]
    · rw [if_neg h2, if_neg (by omega)]

theorem fillHeap_vals (h : Heap F) (d : Slice) (g : Nat → F) : (fillHeap h d g d.len).vals d = tab d.len g := by
  apply tab_congr
  intro i hi
  simp only [Heap.get, fillHeap]
  rw [if_pos ⟨trivial, by omega, by omega⟩]
  congr 1
  omega

theorem fillHeap_get {h : Heap F} {d x : Slice} {size : Nat} (no : NoOverlap d x size) (g : Nat → F) {i : Nat} (hi : i < size) :
    (fillHeap h d g i).get x i = h.get x i := by
  simp only [Heap.get, fillHeap]
  rw [if_neg]
  rintro ⟨h1, h2, h3⟩
  have := no h1.symm
  omega

theorem forN_fillH (size : Nat) (h : Heap F) (d : Slice) (g : Nat → F) (f : Heap F → Nat → Go F) (hd : size ≤ d.len)
    (hf : ∀ i < size, f (fillHeap h d g i) i = .ok (g i)) :
    forN size h (fun i h => do let v ← f h i; h.store d i v) = .ok (fillHeap h d g size) := by
  have := forN_eq (body := fun i h => do let v ← f h i; h.store d i v) (fillHeap h d g) size (by
    intro i hi
    simp only [hf i hi, ok_bind]
    rw [store_ok (by omega), fillHeap_succ])
  rwa [fillHeap_zero] at this

theorem chunkLoopH_eq {nCore : Int} {N : Nat} {chunks : List ChunkRange}
    (h : intoChunkRanges nCore N = .ok chunks) (m : Heap F) (d : Slice) (f : Heap F → Nat → Go F) :
    chunkLoopH chunks m d f = forN N m (fun i h => do let v ← f h i; h.store d i v) := by
  have hn : nCore ≠ 0 := by
    rintro rfl; simp [intoChunkRanges] at h
  rw [intoChunkRanges_eq hn] at h
  have h := (Except.ok.inj h).symm
  subst h
  have hpos : 4096 ≤ chunkSizeOf nCore N := by unfold chunkSizeOf; omega
  generalize chunkSizeOf nCore N = c at *
  unfold chunkLoopH
  have h1 : (N + c - 1) / c * c ≤ N + c - 1 := Nat.div_mul_le_self _ _
  have h2 : N + c - 1 < (N + c - 1) / c * c + c := Nat.lt_div_mul_add (by omega)
  rw [forEach_chunks _ _ _ _ (by omega)]
  congr 1
  omega

/-- The destination of `Add`, `Sub` and `Mul`. -/
structure Resized (h : Heap F) (dst : Slice) (size : Nat) (d : Slice) (h1 : Heap F) : Prop where
  eq : resizeH h dst size = .ok (d, h1)
  len : d.len = size
  valid : Valid h1 d
  frame : Frame h h1
  same : size ≤ dst.cap → d = ⟨dst.arr, dst.off, size, dst.cap⟩ ∧ h1 = h
  fresh : dst.cap < size → d.arr = h.next

theorem resizeH_spec (h : Heap F) (dst : Slice) (size : Nat) (v : Valid h dst) : ∃ d h1, Resized h dst size d h1 := by
  by_cases hc : dst.cap < size
  · refine ⟨⟨h.next, 0, size, size⟩, (h.make size).2, ?_, rfl, ⟨le_rfl, fun _ => Nat.lt_succ_self _⟩,
      make_frame (Frame.refl h) size, fun h1 => by omega, fun _ => rfl⟩
    unfold resizeH
    simp only [hc, if_true]
    rw [slice_sub_ok (by omega) (by simp [Heap.make])]
    simp [Heap.make]
  · refine ⟨⟨dst.arr, dst.off, size, dst.cap⟩, h, ?_, rfl, ⟨by simp only; omega, v.arr⟩, Frame.refl h, fun _ => ⟨rfl, rfl⟩,
      fun h1 => by omega⟩
    unfold resizeH
    simp only [hc, if_false]
    rw [slice_sub_ok (by omega) (by omega)]
    simp

theorem Resized.noOverlap {h : Heap F} {dst : Slice} {size : Nat} {d : Slice} {h1 : Heap F} (R : Resized h dst size d h1)
    {x : Slice} (v : Valid h x) (hx : size ≤ x.len) (no : size ≤ dst.cap → NoOverlap dst x size) : NoOverlap d x size := by
  by_cases hc : size ≤ dst.cap
  · rw [(R.same hc).1]
    exact no hc
  · intro e
    have h1 := R.fresh (by omega)
    have h2 := v.len
    have h3 := v.arr (by omega)
    omega

/-- Cells of arrays that exist in `h` change only inside the destination. -/
theorem Resized.cells {h : Heap F} {dst : Slice} {size : Nat} {d : Slice} {h1 : Heap F} (R : Resized h dst size d h1)
    (g : Nat → F) {a j : Nat} (ha : a < h.next) (hj : ¬ (a = d.arr ∧ d.off ≤ j ∧ j < d.off + size)) :
    (fillHeap h1 d g size).cells a j = h.cells a j := by
  simp only [fillHeap]
  rw [if_neg hj, R.frame.cells a ha]

theorem addH_spec {h : Heap F} {dst left right d : Slice} {h1 : Heap F} (R : Resized h dst left.len d h1)
    (hlen : right.len = left.len) (n1 : NoOverlap d left left.len) (n2 : NoOverlap d right left.len) :
    addH h dst left right = .ok (d, fillHeap h1 d (fun i => h1.get left i + h1.get right i) left.len) := by
  unfold addH
  simp only [hlen, ne_eq, not_true_eq_false, if_false]
  rw [R.eq, ok_bind]
  simp only
  rw [forN_congr (body' := fun i (h : Heap F) => do
    let v ← (do let l ← h.load left i; let r ← h.load right i; return l + r : Go F)
    h.store d i v) _ _ (by
      intro i _ t
      cases t.load left i <;> cases t.load right i <;> rfl)]
  rw [forN_fillH left.len h1 d (fun i => h1.get left i + h1.get right i)
    (fun h i => do let l ← h.load left i; let r ← h.load right i; return l + r) (by rw [R.len]) (by
      intro i hi
      rw [load_ok hi, load_ok (by omega), fillHeap_get n1 _ hi, fillHeap_get n2 _ hi]
      rfl)]
  rfl

theorem subH_spec {h : Heap F} {dst left right d : Slice} {h1 : Heap F} {nCore : Int} (hn : 1 ≤ nCore)
    (R : Resized h dst left.len d h1)
    (hlen : right.len = left.len) (n1 : NoOverlap d left left.len) (n2 : NoOverlap d right left.len) :
    subH h dst left right nCore = .ok (d, fillHeap h1 d (fun i => h1.get left i - h1.get right i) left.len) := by
  unfold subH
  have hc := intoChunkRanges_eq (show nCore ≠ 0 by omega) left.len
  simp only
  rw [hc, ok_bind, show newSemaphore nCore = .ok () by simp [newSemaphore]; omega, ok_bind]
  simp only [hlen, ne_eq, not_true_eq_false, if_false]
  rw [R.eq, ok_bind]
  simp only
  rw [chunkLoopH_eq hc, forN_fillH left.len h1 d (fun i => h1.get left i - h1.get right i) _ (by rw [R.len]) (by
      intro i hi
      rw [load_ok hi, load_ok (by omega), fillHeap_get n1 _ hi, fillHeap_get n2 _ hi]
      rfl)]
  rfl

theorem mulH_spec {h : Heap F} {dst x d : Slice} {lambda : F} {h1 : Heap F} {nCore : Int} (hn : 1 ≤ nCore)
    (R : Resized h dst x.len d h1) (n1 : NoOverlap d x x.len) :
    mulH h dst lambda x nCore = .ok (d, fillHeap h1 d (fun i => h1.get x i * lambda) x.len) := by
  unfold mulH
  have hc := intoChunkRanges_eq (show nCore ≠ 0 by omega) x.len
  simp only
  rw [hc, ok_bind, show newSemaphore nCore = .ok () by simp [newSemaphore]; omega, ok_bind, R.eq, ok_bind]
  simp only
  rw [chunkLoopH_eq hc, forN_fillH x.len h1 d (fun i => h1.get x i * lambda) _ (by rw [R.len]) (by
      intro i hi
      rw [load_ok hi, fillHeap_get n1 _ hi]
      rfl)]
  rfl

theorem foldl_subWriteH {h : Heap F} {d left right : Slice} {size : Nat} (n1 : NoOverlap d left size)
    (n2 : NoOverlap d right size) : ∀ k ≤ size, (List.range k).foldl (fun m i => subWriteH d left right i m) h =
      fillHeap h d (fun i => h.get left i - h.get right i) k
  | 0, _ => (fillHeap_zero _ _ _).symm
  | k + 1, hk => by
    rw [List.range_succ, List.foldl_append, foldl_subWriteH n1 n2 k (by omega), List.foldl_cons, List.foldl_nil, subWriteH,
      fillHeap_get n1 _ hk, fillHeap_get n2 _ hk, fillHeap_succ _ _ (fun i => h.get left i - h.get right i)]

theorem foldl_mulWriteH {h : Heap F} {d x : Slice} {lambda : F} {size : Nat} (n1 : NoOverlap d x size) :
    ∀ k ≤ size, (List.range k).foldl (fun m i => mulWriteH d x lambda i m) h = fillHeap h d (fun i => h.get x i * lambda) k
  | 0, _ => (fillHeap_zero _ _ _).symm
  | k + 1, hk => by
    rw [List.range_succ, List.foldl_append, foldl_mulWriteH n1 k (by omega), List.foldl_cons, List.foldl_nil, mulWriteH,
      fillHeap_get n1 _ hk, fillHeap_succ _ _ (fun i => h.get x i * lambda)]

theorem put_get_other {h : Heap F} {d x : Slice} {size : Nat} (no : NoOverlap d x size) {i j : Nat} (hi : i < size)
    (hj : j < size) (hij : i ≠ j) (v : F) : (h.put d i v).get x j = h.get x j := by
  rw [put_get, if_neg]
  rintro ⟨h1, h2⟩
  have := no h1.symm
  omega

theorem put_comm (h : Heap F) (d : Slice) {i j : Nat} (hij : i ≠ j) (v w : F) :
    (h.put d i v).put d j w = (h.put d j w).put d i v := by
  refine Heap.ext' ?_ rfl rfl
  intro a b
  simp only [put_cells]
  by_cases h1 : a = d.arr ∧ b = d.off + i
  · rw [if_pos h1, if_pos h1, if_neg (by omega)]
  · rw [if_neg h1, if_neg h1]

/-! ### Linear combination -/

theorem linearCombinationH_spec {h : Heap F} {t0 t1 : Slice} {a0 a1 : F} (hl : t1.len ≤ t0.len) (hd : SepCells t0 t1 t1.len) :
    linearCombinationH h t0 t1 a0 a1 = .ok (t1, fillHeap (fillHeap h t0 (fun i => h.get t0 i * a0) t1.len) t1
      (fun i => h.get t1 i * a1 + h.get t0 i * a0) t1.len) := by
  unfold linearCombinationH
  have := forN_eq (σ := Heap F) (body := fun i h => do
    let x ← h.load t0 i
    let h ← h.store t0 i (x * a0)
    let y ← h.load t1 i
    let h ← h.store t1 i (y * a1)
    let y ← h.load t1 i
    let x ← h.load t0 i
    h.store t1 i (y + x)) (fun k => fillHeap (fillHeap h t0 (fun i => h.get t0 i * a0) k) t1
      (fun i => h.get t1 i * a1 + h.get t0 i * a0) k) t1.len (by
    intro i hi
    have e1 : ∀ h : Heap F, h.load t0 i = .ok (h.get t0 i) := fun h => load_ok (by omega)
    have e2 : ∀ h : Heap F, h.load t1 i = .ok (h.get t1 i) := fun h => load_ok (by omega)
    have e3 : ∀ (h : Heap F) v, h.store t0 i v = .ok (h.put t0 i v) := fun h v => store_ok (by omega)
    have e4 : ∀ (h : Heap F) v, h.store t1 i v = .ok (h.put t1 i v) := fun h v => store_ok (by omega)
    simp only [e1, e2, e3, e4, ok_bind]
    congr 1
    refine Heap.ext' ?_ rfl rfl
    intro a j
    have n1 : ¬ (t0.arr = t1.arr ∧ t0.off + i = t1.off + i) := by
      rintro ⟨h1, h2⟩; have := hd h1; omega
    have n2 : ¬ (t1.arr = t0.arr ∧ t1.off + i = t0.off + i) := by
      rintro ⟨h1, h2⟩; have := hd h1.symm; omega
    have c0 : (fillHeap (fillHeap h t0 (fun i => h.get t0 i * a0) i) t1
      (fun i => h.get t1 i * a1 + h.get t0 i * a0) i).get t0 i = h.get t0 i := by
      simp only [Heap.get, fillHeap]
      rw [if_neg (by rintro ⟨h1, h2, h3⟩; have := hd h1; omega), if_neg (by omega)]
    have c1 : (fillHeap (fillHeap h t0 (fun i => h.get t0 i * a0) i) t1
      (fun i => h.get t1 i * a1 + h.get t0 i * a0) i).get t1 i = h.get t1 i := by
      simp only [Heap.get, fillHeap]
      rw [if_neg (by omega), if_neg (by rintro ⟨h1, h2, h3⟩; have := hd h1.symm; omega)]
    simp only [put_cells, put_get, n1, n2, if_false, and_self, if_true, c0, c1]
    simp only [fillHeap]
    by_cases h1 : a = t1.arr ∧ j = t1.off + i
    · rw [if_pos h1, if_pos (by omega), show j - t1.off = i by omega]
    · rw [if_neg h1, if_neg h1]
      by_cases h2 : a = t0.arr ∧ j = t0.off + i
      · rw [if_pos h2]
        rw [if_neg (by rintro ⟨q1, q2, q3⟩; have := hd (h2.1.symm.trans q1); omega), if_pos (by omega),
          show j - t0.off = i by omega]
      · rw [if_neg h2]
        have q1 : (a = t1.arr ∧ t1.off ≤ j ∧ j < t1.off + (i + 1)) ↔ (a = t1.arr ∧ t1.off ≤ j ∧ j < t1.off + i) := by omega
        have q2 : (a = t0.arr ∧ t0.off ≤ j ∧ j < t0.off + (i + 1)) ↔ (a = t0.arr ∧ t0.off ≤ j ∧ j < t0.off + i) := by omega
        simp only [q1, q2])
  simp only [fillHeap_zero] at this
  rw [this]
  rfl

theorem store_cells {h h' : Heap F} {s : Slice} {i : Nat} {v : F} (e : h.store s i v = .ok h') :
    h'.next = h.next ∧ ∀ a j, ¬ (a = s.arr ∧ s.off ≤ j ∧ j < s.off + s.len) → h'.cells a j = h.cells a j := by
  by_cases hi : i < s.len
  · rw [store_ok hi] at e
    rw [← Except.ok.inj e]
    refine ⟨rfl, ?_⟩
    intro a j hj
    rw [put_cells, if_neg (by omega)]
  · simp [Heap.store, hi] at e

theorem linearCombinationH_cells {h h' : Heap F} {t0 t1 t : Slice} {a0 a1 : F} (e : linearCombinationH h t0 t1 a0 a1 = .ok (t, h')) :
    t = t1 ∧ h'.next = h.next ∧ ∀ a j, ¬ (a = t0.arr ∧ t0.off ≤ j ∧ j < t0.off + t0.len) →
      ¬ (a = t1.arr ∧ t1.off ≤ j ∧ j < t1.off + t1.len) → h'.cells a j = h.cells a j := by
  unfold linearCombinationH at e
  obtain ⟨m, h1, h2⟩ := bind_eq_ok.1 e
  simp only [go_pure, Except.ok.injEq, Prod.mk.injEq] at h2
  obtain ⟨rfl, rfl⟩ := h2
  refine ⟨rfl, ?_⟩
  refine (forN_ok_inv (fun m : Heap F => m.next = h.next ∧ ∀ a j, ¬ (a = t0.arr ∧ t0.off ≤ j ∧ j < t0.off + t0.len) →
      ¬ (a = t1.arr ∧ t1.off ≤ j ∧ j < t1.off + t1.len) → m.cells a j = h.cells a j) _ _ _ ⟨rfl, fun _ _ _ _ => rfl⟩ ?_ h1).1
  intro i _ x y ⟨p1, p2⟩ hb
  obtain ⟨_, _, hb⟩ := bind_eq_ok.1 hb
  obtain ⟨m1, b1, hb⟩ := bind_eq_ok.1 hb
  obtain ⟨_, _, hb⟩ := bind_eq_ok.1 hb
  obtain ⟨m2, b2, hb⟩ := bind_eq_ok.1 hb
  obtain ⟨_, _, hb⟩ := bind_eq_ok.1 hb
  obtain ⟨_, _, hb⟩ := bind_eq_ok.1 hb
  obtain ⟨q1, r1⟩ := store_cells b1
  obtain ⟨q2, r2⟩ := store_cells b2
  obtain ⟨q3, r3⟩ := store_cells hb
  refine ⟨by omega, ?_⟩
  intro a j j0 j1
  rw [r3 a j j1, r2 a j j1, r1 a j j0, p2 a j j0 j1]

end GkrMimc
