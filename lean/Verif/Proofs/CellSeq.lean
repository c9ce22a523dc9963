import Verif.Model.ConcGkr
import Verif.Proofs.CellTables
import Verif.Proofs.HeapProve

/-! Rules for the parts of the prover that the caller runs alone, and `GetFoldedEqTable`, `GetStaticTable`, `LinearCombination…`. -/

set_option linter.unusedSectionVars false

namespace GkrMimc

open Spec Finset

variable {F : Type} [Field F] [DecidableEq F]

/-! ### Arrays that do not change -/

/-- Of the arrays that exist in `h`, only those of `A` have changed. -/
def ArrFrame (A : Set Nat) (h h' : Heap (Cell F)) : Prop := h.next ≤ h'.next ∧ ∀ a < h.next, a ∉ A → h'.cells a = h.cells a

section
variable {A : Set Nat} {h h1 h2 : Heap (Cell F)}

theorem ArrFrame.refl (A : Set Nat) (h : Heap (Cell F)) : ArrFrame A h h := ⟨le_rfl, fun _ _ _ => rfl⟩

theorem ArrFrame.trans {A1 : Set Nat} (f : ArrFrame A h h1) (g : ArrFrame A1 h1 h2) (hs : ∀ a ∈ A1, a < h.next → a ∈ A) : ArrFrame A h h2 :=
  ⟨f.1.trans g.1, fun a ha hn => (g.2 a (lt_of_lt_of_le ha f.1) fun hm => hn (hs a hm ha)).trans (f.2 a ha hn)⟩

theorem ArrFrame.mono {A1 : Set Nat} (f : ArrFrame A h h1) (hs : A ⊆ A1) : ArrFrame A1 h h1 := ⟨f.1, fun a ha hn => f.2 a ha fun hm => hn (hs hm)⟩

theorem ArrFrame.put (f : ArrFrame A h h1) {s : Slice} {i : Nat} (v : Cell F) (hs : s.arr < h.next → s.arr ∈ A) : ArrFrame A h (h1.put s i v) :=
  ⟨f.1, fun a ha hn => by
    rw [← f.2 a ha hn]
    simp only [Heap.put]
    rw [Function.update_of_ne]
    rintro rfl
    exact hn (hs ha)⟩

theorem ArrFrame.alloc (f : ArrFrame A h h1) (x : Nat → Cell F) : ArrFrame A h (h1.alloc x) :=
  ⟨f.1.trans (Nat.le_succ _), fun a ha hn => by
    rw [← f.2 a ha hn]
    simp only [Heap.alloc]
    rw [Function.update_of_ne (by have := f.1; omega)]⟩

theorem CellFrame.toArr {W : Set (Nat × Nat)} (f : CellFrame W h h1) (hW : ∀ c ∈ W, c.1 ∈ A) : ArrFrame A h h1 :=
  ⟨f.1, fun a ha hn => funext fun i => f.2 (a, i) ha fun hm => hn (hW _ hm)⟩

theorem ArrFrame.cell {W : Set (Nat × Nat)} {h0 : Heap (Cell F)} (hf : CellFrame W h0 h) (f : ArrFrame A h h1) (hA : ∀ a ∈ A, h0.next ≤ a) :
    CellFrame W h0 h1 :=
  ⟨hf.1.trans f.1, fun c hc hw => by
    rw [f.2 c.1 (lt_of_lt_of_le hc hf.1) fun hm => absurd (hA _ hm) (by omega)]
    exact hf.2 c hc hw⟩

theorem Valid.arrFrame {s : Slice} (v : Valid h s) (f : ArrFrame A h h1) : Valid h1 s := ⟨v.len, fun hc => lt_of_lt_of_le (v.arr hc) f.1⟩

theorem vals_arrFrame {s : Slice} (v : Valid h s) (f : ArrFrame A h h1) (hn : 0 < s.cap → s.arr ∉ A) : h1.vals s = h.vals s := by
  have := v.len
  exact vals_congr fun i hi => by rw [f.2 _ (v.arr (by omega)) (hn (by omega))]

theorem HoldsVec.arrFrame {s : Slice} {xs : List F} (v : HoldsVec h s xs) (f : ArrFrame A h h1) (hn : 0 < s.cap → s.arr ∉ A) : HoldsVec h1 s xs :=
  ⟨v.1.arrFrame f, (vals_arrFrame v.1 f hn).trans v.2⟩

theorem HoldsVec.set {s : Slice} {xs : List F} (v : HoldsVec h s xs) (i : Nat) (x : F) : HoldsVec (h.put s i (.elem x)) s (xs.set i x) :=
  ⟨⟨v.1.len, v.1.arr⟩, by rw [vals_put_same, v.2, List.map_set]⟩

theorem HoldsVec.length {s : Slice} {xs : List F} (v : HoldsVec h s xs) : xs.length = s.len := vals_len v.2

end

theorem forEach_length_inv {α σ : Type} {body : α → σ → Go σ} {p : σ → Prop} {xs : List α} {s t : σ} (h : forEach xs s body = .ok t) (hs : p s)
    (hb : ∀ x a b, p a → body x a = .ok b → p b) : p t := by
  induction xs generalizing s with
  | nil => cases h; exact hs
  | cons x xs ih =>
    rw [forEach_cons] at h
    obtain ⟨s', h1, h2⟩ := bind_eq_ok.1 h
    exact ih h2 (hb x _ _ hs h1)

/-! ### Loops and accesses -/

section
variable {W : Set (Nat × Nat)} {h0 h : Heap (Cell F)} {post : Conf (Heap (Cell F)) (MsgH F) → Prop} {B : Nat}

theorem GA.loop {σ : Type} (Inv : Nat → σ → Heap (Cell F) → Prop) {body : Nat → σ → (σ → CProg F) → CProg F} {k : σ → CProg F} {c n : Nat}
    (hb : ∀ i s h B next, i < n → Inv i s h → (∀ s' h', Inv (i + 1) s' h' → GA W h0 post B (next s') h' AnyX) →
      GA W h0 post (B + c) (body i s next) h AnyX)
    (hk : ∀ s h, Inv n s h → GA W h0 post B (k s) h AnyX) (m : Nat) :
    ∀ j s h, j + m = n → Inv j s h → GA W h0 post (B + m * c) (loopP body k j m s) h AnyX := by
  induction m with
  | zero =>
    intro j s h e hi
    obtain rfl : j = n := by omega
    rw [Nat.zero_mul]
    exact hk s h hi
  | succ m ih =>
    intro j s h e hi
    rw [Nat.add_mul, Nat.one_mul, ← Nat.add_assoc]
    exact hb j s h _ _ (by omega) hi fun s' h' hi' => ih (j + 1) s' h' (by omega) hi'

theorem GA.each {α : Type} (Inv : List α → Heap (Cell F) → Prop) {body : α → CProg F → CProg F} {k : CProg F} {c : Nat}
    (hb : ∀ x xs h B next, Inv (x :: xs) h → (∀ h', Inv xs h' → GA W h0 post B next h' AnyX) → GA W h0 post (B + c) (body x next) h AnyX)
    (hk : ∀ h, Inv [] h → GA W h0 post B k h AnyX) :
    ∀ (xs : List α) (h : Heap (Cell F)), Inv xs h → GA W h0 post (B + xs.length * c) (eachP body k xs) h AnyX
  | [], h, hi => by simpa [eachP] using hk h hi
  | x :: xs, h, hi => by
    rw [List.length_cons, Nat.add_mul, Nat.one_mul, ← Nat.add_assoc]
    exact hb x xs h _ _ hi fun h' hi' => GA.each Inv hb hk xs h' hi'

variable {X : (Nat → Chan (MsgH F)) → Nat → (Nat → Nat) → Nat → Prop}

theorem GA.loadV {s : Slice} {i : Nat} {xs : List F} {x : F} {k : F → CProg F} (hf : CellFrame W h0 h) (hv : h.vals s = xs.map .elem)
    (hx : xs[i]? = some x) (g : GA W h0 post B (k x) h X) : GA W h0 post (B + 1) (loadE s i k) h X := by
  obtain ⟨hi, he⟩ := vals_get hv hx
  refine GA.load hi hf ?_
  rw [he]
  exact g

theorem GA.loadH {s : Slice} {i : Nat} {ds : List Slice} {d : Slice} {k : Slice → CProg F} (hf : CellFrame W h0 h) (hv : h.vals s = ds.map .hdr)
    (hx : ds[i]? = some d) (g : GA W h0 post B (k d) h X) : GA W h0 post (B + 1) (loadS s i k) h X := by
  obtain ⟨hi, he⟩ := vals_get hv hx
  refine GA.load hi hf ?_
  rw [he]
  exact g

theorem GA.put {s : Slice} {i : Nat} {v : Cell F} {k : CProg F} (hf : CellFrame W h0 h) (hi : i < s.len)
    (g : GA W h0 post B k (h.put s i v) X) : GA W h0 post (B + 1) (storeC s i v k) h X := GA.store hi hf g

/-! ### `Fold` -/

/-- The cells of a table while it is folded, after `i` passes of the loop. -/
def foldState (xs : List F) (r : F) (i : Nat) : List F :=
  let mid := xs.length / 2
  tab xs.length fun j =>
    if j < i then xs.getD j 0 + (xs.getD (mid + j) 0 - xs.getD j 0) * r
    else if mid ≤ j ∧ j < mid + i then (xs.getD j 0 - xs.getD (j - mid) 0) * r else xs.getD j 0

theorem foldState_zero (xs : List F) (r : F) : foldState xs r 0 = xs := by
  unfold foldState
  simp only
  conv_rhs => rw [eq_tab xs 0]
  refine tab_congr fun j _ => ?_
  rw [if_neg (by omega), if_neg (by omega)]

theorem foldState_succ (xs : List F) (r : F) {i : Nat} (hi : i < xs.length / 2) :
    (((foldState xs r i).set (xs.length / 2 + i) (xs.getD (xs.length / 2 + i) 0 - xs.getD i 0)).set (xs.length / 2 + i)
      ((xs.getD (xs.length / 2 + i) 0 - xs.getD i 0) * r)).set i (xs.getD i 0 + (xs.getD (xs.length / 2 + i) 0 - xs.getD i 0) * r) =
      foldState xs r (i + 1) := by
  unfold foldState
  simp only [tab_set]
  refine tab_congr fun j hj => ?_
  simp only [Function.update_apply]
  by_cases e1 : j = i
  · subst e1
    simp
  · rw [if_neg e1]
    by_cases e2 : j = xs.length / 2 + i
    · subst e2
      rw [if_pos rfl, if_neg (by omega), if_pos (by omega), show xs.length / 2 + i - xs.length / 2 = i by omega]
    · rw [if_neg e2, if_neg e2]
      by_cases e3 : j < i
      · rw [if_pos e3, if_pos (by omega)]
      · rw [if_neg e3, if_neg (show ¬ j < i + 1 by omega)]
        by_cases e4 : xs.length / 2 ≤ j ∧ j < xs.length / 2 + i
        · rw [if_pos e4, if_pos (by omega)]
        · rw [if_neg e4, if_neg (by omega)]

theorem foldState_mid (xs : List F) (r : F) : (foldState xs r (xs.length / 2)).take (xs.length / 2) = fold xs r := by
  unfold foldState
  simp only
  rw [tab_take (by omega)]
  refine (tab_eq_of ?_ ?_).symm
  · rw [fold_length]
  · intro i hi
    rw [fold_length] at hi
    simp only [fold, List.getElem_zipWith, List.getElem_take, List.getElem_drop]
    rw [if_pos hi, List.getD_eq_getElem _ _ (by omega), List.getD_eq_getElem _ _ (by omega)]

theorem foldState_get (xs : List F) (r : F) {i j : Nat} (hj : j < xs.length) :
    (foldState xs r i)[j]? = some (if j < i then xs.getD j 0 + (xs.getD (xs.length / 2 + j) 0 - xs.getD j 0) * r
      else if xs.length / 2 ≤ j ∧ j < xs.length / 2 + i then (xs.getD j 0 - xs.getD (j - xs.length / 2) 0) * r else xs.getD j 0) := by
  unfold foldState
  simp only
  rw [tab_getElem?, if_pos hj]

theorem put_sub (h : Heap (Cell F)) {s : Slice} {a i : Nat} (v : Cell F) (l c : Nat) :
    h.put ⟨s.arr, s.off + a, l, c⟩ i v = h.put s (a + i) v := by
  simp [Heap.put, Nat.add_assoc]

theorem get_sub (h : Heap (Cell F)) {s : Slice} {a i : Nat} (l c : Nat) : h.get ⟨s.arr, s.off + a, l, c⟩ i = h.get s (a + i) := by
  simp [Heap.get, Nat.add_assoc]

theorem foldC_ga {bkt : Slice} {r : F} {k : Slice → CProg F} {xs : List F} (hf : CellFrame W h0 h) (hv : HoldsVec h bkt xs)
    (hnew : 0 < bkt.cap → h0.next ≤ bkt.arr)
    (g : ∀ h' d, d.arr = bkt.arr → d.cap = bkt.cap → ArrFrame {a | a = bkt.arr ∧ 0 < bkt.cap} h h' → HoldsVec h' d (fold xs r) → GA W h0 post B (k d) h' AnyX) :
    GA W h0 post (B + xs.length / 2 * 8) (foldC bkt r k) h AnyX := by
  have hl := hv.length
  have hc := hv.1.len
  unfold foldC
  simp only
  rw [show bkt.sub 0 (bkt.len / 2) = .ok ⟨bkt.arr, bkt.off + 0, bkt.len / 2 - 0, bkt.cap - 0⟩ by unfold Slice.sub; rw [if_pos (by omega)],
    show bkt.sub (bkt.len / 2) bkt.len = .ok ⟨bkt.arr, bkt.off + bkt.len / 2, bkt.len - bkt.len / 2, bkt.cap - bkt.len / 2⟩ by
      unfold Slice.sub; rw [if_pos (by omega)]]
  simp only [liftGo]
  rw [show bkt.len / 2 - 0 = xs.length / 2 by omega, ← hl]
  refine GA.loop (n := xs.length / 2) (fun i _ h' => ArrFrame {a | a = bkt.arr ∧ 0 < bkt.cap} h h' ∧ HoldsVec h' bkt (foldState xs r i)) ?_ ?_ _ 0 () h (by omega)
    ⟨ArrFrame.refl _ _, by rw [foldState_zero]; exact hv⟩
  · rintro i _ h1 B next hi ⟨a1, v1⟩ hnext
    have hA : ∀ a ∈ ({a | a = bkt.arr ∧ 0 < bkt.cap} : Set Nat), h0.next ≤ a := by rintro a ⟨rfl, hh⟩; exact hnew hh
    have hin : bkt.arr < h.next → bkt.arr ∈ ({a | a = bkt.arr ∧ 0 < bkt.cap} : Set Nat) := fun _ => ⟨rfl, by omega⟩
    have hl1 := v1.length
    have f1 := ArrFrame.cell hf a1 hA
    have t0 : h1.get bkt (xs.length / 2 + i) = .elem (xs.getD (xs.length / 2 + i) 0) := by
      have := (vals_get v1.2 (foldState_get xs r (i := i) (j := xs.length / 2 + i) (by omega))).2
      rwa [if_neg (by omega), if_neg (by omega)] at this
    have b0 : h1.get bkt i = .elem (xs.getD i 0) := by
      have := (vals_get v1.2 (foldState_get xs r (i := i) (j := i) (by omega))).2
      rwa [if_neg (by omega), if_neg (by omega)] at this
    rw [show B + 8 = B + 1 + 1 + 1 + 1 + 1 + 1 + 1 + 1 by rfl]
    refine GA.load (by show i < xs.length - xs.length / 2; omega) f1 ?_
    rw [get_sub, t0]
    refine GA.load (by show i < xs.length / 2; omega) f1 ?_
    rw [get_sub, Nat.zero_add, b0]
    refine GA.store (by show i < xs.length - xs.length / 2; omega) f1 ?_
    rw [put_sub]
    simp only [Cell.toElem]
    have v2 := v1.set (xs.length / 2 + i) (xs.getD (xs.length / 2 + i) 0 - xs.getD i 0)
    have a2 := a1.put (s := bkt) (i := xs.length / 2 + i) (.elem (xs.getD (xs.length / 2 + i) 0 - xs.getD i 0)) hin
    generalize h1.put bkt _ _ = h2 at v2 a2
    have f2 := ArrFrame.cell hf a2 hA
    have hlen : (foldState xs r i).length = xs.length := by simp [foldState]
    refine GA.load (by show i < xs.length - xs.length / 2; omega) f2 ?_
    rw [get_sub, (vals_get v2.2 (i := xs.length / 2 + i) (x := xs.getD (xs.length / 2 + i) 0 - xs.getD i 0) (by
      rw [List.getElem?_set_self (by omega)])).2]
    refine GA.store (by show i < xs.length - xs.length / 2; omega) f2 ?_
    rw [put_sub]
    simp only [Cell.toElem]
    have v3 := v2.set (xs.length / 2 + i) ((xs.getD (xs.length / 2 + i) 0 - xs.getD i 0) * r)
    have a3 := a2.put (s := bkt) (i := xs.length / 2 + i) (.elem ((xs.getD (xs.length / 2 + i) 0 - xs.getD i 0) * r)) hin
    generalize h2.put bkt _ _ = h3 at v3 a3
    have f3 := ArrFrame.cell hf a3 hA
    refine GA.load (by show i < xs.length / 2; omega) f3 ?_
    rw [get_sub, Nat.zero_add, (vals_get v3.2 (i := i) (x := xs.getD i 0) (by
      rw [List.getElem?_set_ne (by omega), List.getElem?_set_ne (by omega), foldState_get _ _ (by omega), if_neg (by omega), if_neg (by omega)])).2]
    refine GA.load (by show i < xs.length - xs.length / 2; omega) f3 ?_
    rw [get_sub, (vals_get v3.2 (i := xs.length / 2 + i) (x := (xs.getD (xs.length / 2 + i) 0 - xs.getD i 0) * r) (by
      rw [List.getElem?_set_self (by simp; omega)])).2]
    refine GA.store (by show i < xs.length / 2; omega) f3 ?_
    rw [put_sub, Nat.zero_add]
    simp only [Cell.toElem]
    have v4 := v3.set i (xs.getD i 0 + (xs.getD (xs.length / 2 + i) 0 - xs.getD i 0) * r)
    rw [foldState_succ xs r hi] at v4
    exact hnext () _ ⟨a3.put _ hin, v4⟩
  · rintro _ h1 ⟨a1, v1⟩
    refine g h1 _ rfl (by simp) a1 ⟨⟨?_, ?_⟩, ?_⟩
    · show xs.length / 2 ≤ bkt.cap - 0
      omega
    · intro hlt
      exact v1.1.arr (by simpa using hlt)
    · have := v1.2
      rw [← foldState_mid, List.map_take, ← this]
      simp only [Heap.vals]
      rw [← List.map_take, List.take_range]
      have e : min (xs.length / 2) bkt.len = xs.length / 2 := by omega
      rw [e]
      rfl

theorem foldAllC_ga {k : Slice → CProg F} (n : Nat) : ∀ (q : List F) {bkt : Slice} {xs : List F} {h : Heap (Cell F)}, CellFrame W h0 h → HoldsVec h bkt xs →
    xs.length ≤ n → (0 < bkt.cap → h0.next ≤ bkt.arr) →
    (∀ h' d, d.arr = bkt.arr → d.cap = bkt.cap → ArrFrame {a | a = bkt.arr ∧ 0 < bkt.cap} h h' → HoldsVec h' d (q.foldl fold xs) →
      GA W h0 post B (k d) h' AnyX) →
    GA W h0 post (B + q.length * (n * 8)) (foldAllC q bkt k) h AnyX
  | [], bkt, xs, h, hf, hv, _, _, g => by
    simp only [List.length_nil, Nat.zero_mul, Nat.add_zero]
    exact g h bkt rfl rfl (ArrFrame.refl _ _) hv
  | r :: q, bkt, xs, h, hf, hv, hn, hnew, g => by
    refine GA.mono (B := B + q.length * (n * 8) + xs.length / 2 * 8) ?_ (by
      rw [List.length_cons, Nat.add_mul, Nat.one_mul]
      omega)
    refine foldC_ga hf hv hnew fun h1 d e1 e2 a1 v1 => ?_
    refine foldAllC_ga n q (ArrFrame.cell hf a1 ?_) v1 (by rw [fold_length]; omega) (by rw [e1, e2]; exact hnew) fun h2 d2 e3 e4 a2 v2 => ?_
    · rintro a ⟨rfl, hh⟩
      exact hnew hh
    · refine g h2 d2 (e3.trans e1) (e4.trans e2) (a1.trans a2 ?_) v2
      rintro a ⟨rfl, hh⟩ _
      exact ⟨e1, by omega⟩

/-! ### `GetStaticTable` -/

theorem holdsVec_make (h : Heap (Cell F)) (n : Nat) : HoldsVec (h.alloc fun _ => (.elem 0 : Cell F)) ⟨h.next, 0, n, n⟩ (List.replicate n 0) := by
  refine ⟨⟨le_rfl, fun _ => Nat.lt_succ_self _⟩, ?_⟩
  rw [vals_eq, List.map_replicate, replicate_eq_tab]
  exact tab_congr fun i _ => by simp [Heap.get, Heap.alloc]

theorem modIdx_eq_ok {α : Type} {xs ys : List α} {i : Nat} {f : α → α} (h : modIdx xs i f = .ok ys) : ∃ x, xs[i]? = some x ∧ ys = xs.set i (f x) := by
  unfold modIdx at h
  cases hx : xs[i]? with
  | none => rw [hx] at h; cases h
  | some x => rw [hx] at h; exact ⟨x, rfl, (Except.ok.inj h).symm⟩

theorem rawStaticTableC_ga {l : Layer F} {gate : Gate F} {t : List F} {k : Slice → CProg F} (hf : CellFrame W h0 h)
    (e : rawStaticTable l gate = .ok t)
    (g : ∀ h' d, h.next = d.arr → d.arr < h'.next → d.cap = (1 <<< l.bGOutputs) * (1 <<< (2 * l.bGInputs)) → ArrFrame ∅ h h' → HoldsVec h' d t → GA W h0 post B (k d) h' AnyX) :
    GA W h0 post (B + l.wires.length * 2 + 1) (rawStaticTableC l gate k) h AnyX := by
  unfold rawStaticTableC
  unfold rawStaticTable at e
  simp only at e ⊢
  refine GA.make hf ?_
  have hv := holdsVec_make h ((1 <<< l.bGOutputs) * (1 <<< (2 * l.bGInputs)))
  have ha := (ArrFrame.refl ∅ h).alloc fun _ => (.elem 0 : Cell F)
  have hlt : h.next < (h.alloc fun _ => (.elem 0 : Cell F)).next := Nat.lt_succ_self _
  generalize (h.alloc fun _ => (.elem 0 : Cell F)) = h1 at hv ha hlt
  set d : Slice := ⟨h.next, 0, (1 <<< l.bGOutputs) * (1 <<< (2 * l.bGInputs)), (1 <<< l.bGOutputs) * (1 <<< (2 * l.bGInputs))⟩ with hd
  refine GA.each (c := 2) (fun ws h' => ArrFrame ∅ h h' ∧ h.next < h'.next ∧ ∃ tab, HoldsVec h' d tab ∧ forEach ws tab (fun w tab =>
    if w.gate.id = gate.id then modIdx tab (1 <<< (2 * l.bGInputs) * w.O + 1 <<< l.bGInputs * w.L + w.R) (fun x => x + 1) else .ok tab) = .ok t)
    ?_ ?_ l.wires h1 ⟨ha, hlt, _, hv, e⟩
  · rintro w ws h2 B next ⟨a2, l2, tab, v2, e2⟩ hnext
    rw [forEach_cons] at e2
    obtain ⟨tab', e3, e4⟩ := bind_eq_ok.1 e2
    have f2 := ArrFrame.cell hf a2 (by simp)
    by_cases hg : w.gate.id = gate.id
    · rw [if_pos hg] at e3 ⊢
      obtain ⟨x, hx, rfl⟩ := modIdx_eq_ok e3
      refine GA.loadV f2 v2.2 hx ?_
      refine GA.put f2 (vals_get v2.2 hx).1 ?_
      exact hnext _ ⟨a2.put _ fun hh => absurd hh (lt_irrefl _), l2, _, v2.set _ _, e4⟩
    · rw [if_neg hg] at e3 ⊢
      cases e3
      exact (hnext _ ⟨a2, l2, _, v2, e4⟩).mono (by omega)
  · rintro h2 ⟨a2, l2, tab, v2, e2⟩
    cases e2
    exact g h2 d rfl l2 rfl a2 v2

/-- Cell `i` of a slice of headers is filled. -/
theorem fill_set {ds : List Slice} {n i : Nat} (hi : i < n) (hl : ds.length = i) (d : Slice) :
    (ds.map (Cell.hdr (F := F)) ++ List.replicate (n - i) (Cell.hdr Slice.nil)).set i (Cell.hdr d) =
      (ds ++ [d]).map Cell.hdr ++ List.replicate (n - (i + 1)) (Cell.hdr Slice.nil) := by
  obtain ⟨m, hm⟩ : ∃ m, n - i = m + 1 := ⟨n - i - 1, by omega⟩
  rw [hm, show n - (i + 1) = m by omega, List.set_append_right _ _ (by simp [hl]), List.replicate_succ]
  simp [hl]

/-- The slice of slices `res`, with headers `ds`, holds `ts`; no two tables share an array, and all are in arrays from `lo` on. -/
structure TablesAt (h : Heap (Cell F)) (lo : Nat) (res : Slice) (ds : List Slice) (ts : List (List F)) : Prop where
  valid : Valid h res
  vals : h.vals res = ds.map .hdr
  holds : List.Forall₂ (HoldsVec h) ds ts
  apart : ds.Pairwise Apart
  new : ∀ d ∈ ds, 0 < d.cap → lo ≤ d.arr

theorem mapGo_take {α β : Type} {f : α → Go β} {xs : List α} {ys : List β} (h : mapGo f xs = .ok ys) {i : Nat} {x : α} (hx : xs[i]? = some x) :
    ∃ y, f x = .ok y ∧ ys[i]? = some y := by
  induction xs generalizing ys i with
  | nil => simp at hx
  | cons a as ih =>
    unfold mapGo at h
    cases hy : f a with
    | error e => rw [hy] at h; cases h
    | ok y =>
      rw [hy] at h
      cases hys : mapGo f as with
      | error e => rw [hys] at h; cases h
      | ok ys' =>
        rw [hys] at h
        cases h
        cases i with
        | zero =>
          simp only [List.getElem?_cons_zero, Option.some.injEq] at hx
          subst hx
          exact ⟨y, hy, rfl⟩
        | succ i =>
          simp only [List.getElem?_cons_succ] at hx
          obtain ⟨z, h1, h2⟩ := ih hys hx
          exact ⟨z, h1, by simpa using h2⟩

theorem forall₂_arrFrame {A : Set Nat} {h h' : Heap (Cell F)} {ds : List Slice} {ts : List (List F)} (f : List.Forall₂ (HoldsVec h) ds ts)
    (a : ArrFrame A h h') (hn : ∀ d ∈ ds, 0 < d.cap → d.arr ∉ A) : List.Forall₂ (HoldsVec h') ds ts := by
  induction f with
  | nil => exact .nil
  | cons p _ ih => exact .cons (p.arrFrame a (hn _ (by simp))) (ih fun d hd => hn d (by simp [hd]))

/-- How many steps `GetStaticTable` takes at most. -/
def staticSteps (l : Layer F) (q : List F) : Nat :=
  l.gates.length * (1 + q.length * ((1 <<< l.bGOutputs) * (1 <<< (2 * l.bGInputs)) * 8) + l.wires.length * 2 + 1) + 1

theorem getStaticTableC_ga {l : Layer F} {q : List F} {ts : List (List F)} {k : Slice → CProg F} (hf : CellFrame W h0 h)
    (e : getStaticTable l q = .ok ts)
    (g : ∀ h' res ds, res.arr = h.next → res.len = ts.length → h.next < h'.next → ArrFrame ∅ h h' → TablesAt h' (h.next + 1) res ds ts → GA W h0 post B (k res) h' AnyX) :
    GA W h0 post (B + staticSteps l q) (getStaticTableC l q k) h AnyX := by
  unfold getStaticTableC staticSteps
  have hlen : l.gates.length = ts.length := mapGo_len e
  refine GA.make (B := B + _) hf ?_
  set h1 : Heap (Cell F) := h.alloc fun _ => .hdr Slice.nil with hh1
  set res : Slice := ⟨h.next, 0, l.gates.length, l.gates.length⟩ with hres
  refine GA.loop (n := l.gates.length) (fun i _ h' => ArrFrame ∅ h h' ∧ h.next < h'.next ∧ ∃ ds : List Slice, ds.length = i ∧
      h'.vals res = ds.map .hdr ++ List.replicate (l.gates.length - i) (.hdr Slice.nil) ∧ List.Forall₂ (HoldsVec h') ds (ts.take i) ∧
      ds.Pairwise Apart ∧ ∀ d ∈ ds, h.next + 1 ≤ d.arr ∧ d.arr < h'.next) ?_ ?_ _ 0 () h1 (by omega)
    ⟨(ArrFrame.refl ∅ h).alloc _, Nat.lt_succ_self _, [], rfl, ?_, .nil, .nil, by simp⟩
  · rintro i _ h2 B next hi ⟨a2, l2, ds, hds, hv2, hall, hap, hnew⟩ hnext
    rw [idx_ok hi]
    simp only [liftGo]
    obtain ⟨t, ht, hti⟩ := mapGo_take e (List.getElem?_eq_getElem hi)
    obtain ⟨raw, hr1, hr2⟩ := bind_eq_ok.1 ht
    simp only [go_pure, Except.ok.injEq] at hr2
    have hlr : raw.length = (1 <<< l.bGOutputs) * (1 <<< (2 * l.bGInputs)) := by
      have := forEach_length_inv (p := fun xs => xs.length = (1 <<< l.bGOutputs) * (1 <<< (2 * l.bGInputs))) hr1 (by simp) ?_
      · exact this
      · intro w tab tab' hp hb
        split at hb
        · obtain ⟨x, _, rfl⟩ := modIdx_eq_ok hb
          simpa using hp
        · cases hb; exact hp
    have f2 := ArrFrame.cell hf a2 (by simp)
    rw [show B + (1 + q.length * ((1 <<< l.bGOutputs) * (1 <<< (2 * l.bGInputs)) * 8) + l.wires.length * 2 + 1) =
      B + 1 + q.length * ((1 <<< l.bGOutputs) * (1 <<< (2 * l.bGInputs)) * 8) + l.wires.length * 2 + 1 by ring]
    refine rawStaticTableC_ga f2 hr1 fun h3 d e3 l3 c3 a3 v3 => ?_
    have a23 := a2.trans a3 (by simp)
    have f3 := ArrFrame.cell hf a23 (by simp)
    refine foldAllC_ga _ q f3 v3 hlr.le (fun _ => by have := hf.1; have := a2.1; omega) fun h4 d4 e4 c4 a4 v4 => ?_
    have a34 : ArrFrame ∅ h2 h4 := a3.trans a4 (by rintro a ⟨rfl, _⟩ hlt; omega)
    have a24 : ArrFrame ∅ h h4 := a2.trans a34 (by simp)
    have f4 := ArrFrame.cell hf a24 (by simp)
    refine GA.put f4 (by show i < l.gates.length; exact hi) ?_
    refine hnext () _ ⟨a24.put _ fun hh => absurd hh (lt_irrefl _), ?_, ds ++ [d4], by simp [hds], ?_, ?_, ?_, ?_⟩
    · have h4n := a24.1
      have h5n := a34.1
      show h.next < h4.next
      omega
    · rw [vals_put_same, vals_arrFrame (s := res) ⟨le_rfl, fun _ => l2⟩ a34 (by simp), hv2]
      exact fill_set hi hds _
    · have hput : ArrFrame {res.arr} h4 (h4.put res i (.hdr d4)) := (ArrFrame.refl _ h4).put _ fun _ => rfl
      have h24 : List.Forall₂ (HoldsVec h4) ds (ts.take i) := forall₂_arrFrame hall a34 (by simp)
      rw [List.take_add_one, hti]
      refine List.rel_append (forall₂_arrFrame h24 hput ?_) (.cons ?_ .nil)
      · intro d hd _ he
        have := (hnew d hd).1
        have he : d.arr = h.next := he
        omega
      · rw [← hr2]
        refine v4.arrFrame hput ?_
        intro _ he
        have he : d4.arr = h.next := he
        omega
    · refine List.pairwise_append.2 ⟨hap, by simp, ?_⟩
      intro x hx y hy _ _ hxy
      simp only [List.mem_singleton] at hy
      subst hy
      have := (hnew x hx).2
      omega
    · intro x hx
      have h4n := a4.1
      have h3n := a34.1
      rcases List.mem_append.1 hx with hx | hx
      · obtain ⟨q1, q2⟩ := hnew x hx
        exact ⟨q1, by show x.arr < h4.next; omega⟩
      · simp only [List.mem_singleton] at hx
        subst hx
        exact ⟨by omega, by show x.arr < h4.next; omega⟩
  · rintro _ h2 ⟨a2, l2, ds, hds, hv2, hall, hap, hnew⟩
    rw [hlen, List.take_length] at hall
    refine g h2 res ds rfl hlen l2 a2 ⟨⟨le_rfl, fun _ => l2⟩, ?_, hall, hap, fun d hd _ => (hnew d hd).1⟩
    simpa using hv2
  · rw [vals_eq, List.map_nil, List.nil_append, replicate_eq_tab]
    exact tab_congr fun i _ => by simp [Heap.get, Heap.alloc, hh1, hres]

end

end GkrMimc
