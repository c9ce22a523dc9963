import Verif.Proofs.CellEvaluate
import Verif.Proofs.Common

/-! All schedules of `Sub` and `Mul`, with single memory accesses as steps. -/

set_option linter.unusedSectionVars false

namespace GkrMimc

open Spec Finset

variable {F : Type} [Field F] [DecidableEq F]

/-- The first `size` cells of a slice. -/
def sliceCells (s : Slice) (size : Nat) : Set (Nat × Nat) := {c | c.1 = s.arr ∧ s.off ≤ c.2 ∧ c.2 < s.off + size}

/-- The cells of indices `a ≤ i < b` of a slice. -/
def rangeCells (s : Slice) (a b : Nat) : Set (Nat × Nat) := {c | c.1 = s.arr ∧ s.off + a ≤ c.2 ∧ c.2 < s.off + b}

section
variable {W : Set (Nat × Nat)} {h0 h : Heap (Cell F)} {post : Conf (Heap (Cell F)) (MsgH F) → Prop} {B : Nat}

/-! ### The chunks -/

/-- `write i`, run by a goroutine that owns cell `i` of `d` and the other cells of its chunk, makes `st` accesses and puts `f i` in
cell `i` of `d`, if cell `i` and the cells that nobody writes are as in `h`. -/
def WriteOk (h : Heap (Cell F)) (d : Slice) (size st : Nat) (f : Nat → Cell F) (write : Nat → CProg F → CProg F) : Prop :=
  ∀ (own : Set (Nat × Nat)) (fin next : CProg F) (Q : Set (Nat × Nat) → Heap (Cell F) → Prop) (n i : Nat) (h' : Heap (Cell F)),
    i < size → (d.arr, d.off + i) ∈ own → (∀ c ∈ {c : Nat × Nat | c.1 < h.next ∧ c ∉ sliceCells d size}, h'.cells c.1 c.2 = h.cells c.1 c.2) →
    h'.get d i = h.get d i → JobR {c | c.1 < h.next ∧ c ∉ sliceCells d size} fin Q n next own (h'.put d i (f i)) →
    JobR {c | c.1 < h.next ∧ c ∉ sliceCells d size} fin Q (n + st) (write i next) own h'

theorem chunkJob {d : Slice} {size st a b : Nat} {f : Nat → Cell F} {write : Nat → CProg F → CProg F} {fin : CProg F}
    (hw : WriteOk h d size st f write) (hb : b ≤ size) (m : Nat) :
    ∀ (i : Nat) (h' : Heap (Cell F)), i + m = b → a ≤ i →
      (∀ c ∈ {c : Nat × Nat | c.1 < h.next ∧ c ∉ sliceCells d size}, h'.cells c.1 c.2 = h.cells c.1 c.2) →
      (∀ j, i ≤ j → j < b → h'.get d j = h.get d j) → (∀ j, a ≤ j → j < i → h'.get d j = f j) →
      JobR {c | c.1 < h.next ∧ c ∉ sliceCells d size} fin (fun _ h' => ∀ j, a ≤ j → j < b → h'.get d j = f j) (0 + m * st)
        (loopP (fun i _ next => write i (next ())) (fun _ => fin) i m ()) (rangeCells d a b) h' := by
  induction m with
  | zero =>
    intro i h' e _ hro hrest hdone
    rw [Nat.zero_mul]
    refine ⟨rfl, fun h2 a2 j ha hj => ?_⟩
    rw [← hdone j ha (by omega)]
    exact (a2 (d.arr, d.off + j) (Set.mem_union_left _ ⟨rfl, by omega, by omega⟩)).1
  | succ m ih =>
    intro i h' e ha hro hrest hdone
    rw [show 0 + (m + 1) * st = 0 + m * st + st by ring]
    simp only [loopP]
    refine hw _ _ _ _ _ i h' (by omega) ⟨rfl, by simp only; omega, by simp only; omega⟩ hro (hrest i le_rfl (by omega)) ?_
    refine ih (i + 1) _ (by omega) (by omega) ?_ ?_ ?_
    · intro c hc
      rw [get_put_ne, hro c hc]
      rintro ⟨e1, e2⟩
      exact hc.2 ⟨e1, by omega, by omega⟩
    · intro j hj hj'
      rw [put_get, if_neg (by omega)]
      exact hrest j (by omega) hj'
    · intro j hj hj'
      rw [put_get]
      by_cases e : j = i
      · rw [if_pos ⟨rfl, by omega⟩, e]
      · rw [if_neg (by omega)]; exact hdone j hj (by omega)

/-- How many steps the parallel part of `Sub` and `Mul` takes at most. -/
def chunkSteps (st size : Nat) (nCore : Int) : Nat :=
  ∑ w ∈ range ((size + chunkSizeOf nCore size - 1) / chunkSizeOf nCore size),
    (0 + (min size ((w + 1) * chunkSizeOf nCore size) - w * chunkSizeOf nCore size) * st + 3)
  + (3 * ((size + chunkSizeOf nCore size - 1) / chunkSizeOf nCore size) + 2)

theorem chunkLoopC_ga {d : Slice} {size st sem wg : Nat} {f : Nat → Cell F} {write : Nat → CProg F → CProg F} {k : CProg F} {nCore : Int}
    {chunks : List ChunkRange} (hn : 1 ≤ nCore) (hch : intoChunkRanges nCore size = .ok chunks) (hf : CellFrame W h0 h)
    (hw : WriteOk h d size st f write) (hd : 0 < size → d.arr < h.next)
    (hW : d.arr < h0.next → sliceCells d size ⊆ W)
    (g : ∀ h', CellFrame (sliceCells d size) h h' → (∀ i < size, h'.get d i = f i) → GA W h0 post B k h' AnyX) :
    GA W h0 post (chunkSteps st size nCore + B) (chunkLoopC write chunks sem wg k) h fun chans _ wgs _ =>
      chans sem = ⟨List.replicate nCore.toNat .tok, nCore.toNat, false⟩ ∧ wgs wg = chunks.length := by
  have hpos : 0 < chunkSizeOf nCore size := by unfold chunkSizeOf; omega
  rw [intoChunkRanges_eq (by omega)] at hch
  simp only [Except.ok.injEq] at hch
  subst hch
  unfold chunkSteps
  generalize chunkSizeOf nCore size = c at *
  have hK : ∀ i, i < (size + c - 1) / c ↔ i * c < size := by
    intro i
    rw [Nat.lt_div_iff_mul_lt (by omega)]
    omega
  generalize (size + c - 1) / c = K at *
  have hsub : ∀ w, rangeCells d (w * c) (min size ((w + 1) * c)) ⊆ sliceCells d size := by
    rintro w x ⟨h1, h2, h3⟩
    exact ⟨h1, by omega, by omega⟩
  let p : Pool (Cell F) (MsgH F) :=
    { tok := .tok, inside := false, sem := sem, wg := wg, N := nCore.toNat, n := K, g0 := 1, rd := fun _ => none
      code := fun w _ => loopP (fun i _ next => write i (next ())) (fun _ => jobEndC sem wg) (w * c) (min size ((w + 1) * c) - w * c) ()
      K := k, ro := {x | x.1 < h.next ∧ x ∉ sliceCells d size}, own0 := fun w => rangeCells d (w * c) (min size ((w + 1) * c))
      len := fun w => 0 + (min size ((w + 1) * c) - w * c) * st
      Q := fun w _ h' => ∀ j, w * c ≤ j → j < min size ((w + 1) * c) → h'.get d j = f j, h1 := h }
  have hok : p.Ok := ⟨by show 1 ≤ nCore.toNat; omega, fun j c hc => (by cases hc), fun _ _ _ _ => rfl, fun c hc => hc.1⟩
  have hloop : chunkLoopC write (tab K fun i => (⟨i * c, min size ((i + 1) * c)⟩ : ChunkRange)) sem wg k = p.loop 0 := by
    unfold chunkLoopC
    rw [tab_length]
    refine loopP_congr K 0 () fun i _ hi _ next => ?_
    rw [idx_tab (by omega), liftGo_ok]
    simp only [Pool.body, p, Pool.acqP, Pool.start, Pool.job, Bool.false_eq_true, if_false]
  rw [hloop, tab_length]
  refine GA.pool (p := p) hok rfl hf ?_ ?_ ?_ ?_ ?_ ?_
  · intro w _ x hx hlt
    exact hW (hx.1 ▸ hlt) (hsub w hx)
  · intro w _ w' _ hne
    rw [Set.disjoint_left]
    rintro x ⟨_, h1, h2⟩ ⟨_, h3, h4⟩
    have l1 := Nat.min_le_right size ((w + 1) * c)
    have l2 := Nat.min_le_right size ((w' + 1) * c)
    have e1 : w = (x.2 - d.off) / c := by
      symm; apply Nat.div_eq_of_lt_le <;> omega
    have e2 : w' = (x.2 - d.off) / c := by
      symm; apply Nat.div_eq_of_lt_le <;> omega
    omega
  · intro w _
    rw [Set.disjoint_left]
    exact fun x hx hr => hr.2 (hsub w hx)
  · intro w hw x hx
    have hx1 : x.1 = d.arr := hx.1
    have hx2 := hx.2
    rw [hx1]
    exact hd (by omega)
  · intro w hwn
    have hwK := (hK w).1 hwn
    refine chunkJob hw (Nat.min_le_left _ _) _ _ h ?_ le_rfl (fun _ _ => rfl) (fun _ _ _ => rfl) (fun j h1 h2 => absurd h1 (by omega))
    rw [Nat.add_mul]
    omega
  · intro ow h' owns hQ
    refine g h' ⟨owns.next, fun x hx hx' => owns.cells x hx fun w _ hc => hx' (hsub w hc)⟩ fun i hi => ?_
    have hdm := Nat.div_add_mod i c
    have hml := Nat.mod_lt i hpos
    have e1 : i / c * c ≤ i := Nat.div_mul_le_self i c
    have e2 : i < (i / c + 1) * c := by rw [Nat.add_mul, Nat.mul_comm]; omega
    exact hQ (i / c) ((hK _).2 (by omega)) i e1 (by omega)

/-! ### The destination -/

/-- The header that the receiver gets: its old cells, or a new array. -/
def ResizedC (h : Heap (Cell F)) (t d : Slice) (size : Nat) : Prop :=
  d.len = size ∧ ((d.arr = t.arr ∧ d.off = t.off ∧ size ≤ t.cap ∧ d.cap = t.cap) ∨ (h.next ≤ d.arr ∧ d.off = 0 ∧ d.cap = size ∧ t.cap < size))

theorem CellFrame.refl (W : Set (Nat × Nat)) (h : Heap (Cell F)) : CellFrame W h h := ⟨le_rfl, fun _ _ _ => rfl⟩

theorem CellFrame.mono {W W' : Set (Nat × Nat)} {h h' : Heap (Cell F)} (hf : CellFrame W h h') (hs : W ⊆ W') : CellFrame W' h h' :=
  ⟨hf.1, fun c hc hw => hf.2 c hc fun hm => hw (hs hm)⟩

theorem CellFrame.trans {W W1 : Set (Nat × Nat)} {h0 h h' : Heap (Cell F)} (hf : CellFrame W h0 h) (hg : CellFrame W1 h h')
    (hs : ∀ c ∈ W1, c.1 < h0.next → c ∈ W) : CellFrame W h0 h' :=
  ⟨hf.1.trans hg.1, fun c hc hw => (hg.2 c (lt_of_lt_of_le hc hf.1) fun hm => hw (hs c hm hc)).trans (hf.2 c hc hw)⟩

theorem resizeC_ga {bkt t : Slice} {size : Nat} {k : CProg F} {X : (Nat → Chan (MsgH F)) → Nat → (Nat → Nat) → Nat → Prop}
    (hb : 0 < bkt.len) (hta : 0 < t.cap → t.arr < h.next) (ht : h.get bkt 0 = .hdr t)
    (hf : CellFrame W h0 h) (hW : bkt.arr < h0.next → (bkt.arr, bkt.off) ∈ W)
    (g : ∀ h' d, CellFrame {(bkt.arr, bkt.off)} h h' → h'.get bkt 0 = .hdr d → ResizedC h t d size → (0 < size → d.arr < h'.next) →
      GA W h0 post B k h' X) :
    GA W h0 post (B + 6) (resizeC bkt size k) h X := by
  unfold resizeC
  rw [show B + 6 = B + 5 + 1 by rfl]
  refine GA.load hb hf ?_
  rw [ht]
  rw [show (Cell.hdr t : Cell F).toHdr = t from rfl]
  beta_reduce
  by_cases hc : t.cap < size
  · rw [if_pos hc]
    refine GA.mono (B := B + 2 + 1 + 1) ?_ (by omega)
    refine GA.make hf ?_
    have hf1 := hf.alloc (W := W) (fun _ => (.elem 0 : Cell F))
    set d : Slice := ⟨h.next, 0, size, size⟩ with hd
    refine GA.store hb hf1 ?_
    have hf2 := hf1.put (s := bkt) (i := 0) hW (.hdr d)
    refine GA.load hb hf2 ?_
    rw [put_get, if_pos ⟨rfl, rfl⟩]
    simp only [Cell.toHdr]
    rw [show d.sub 0 size = .ok d by simp [Slice.sub, hd], liftGo_ok]
    refine GA.store hb hf2 ?_
    refine g _ d ?_ ?_ ⟨rfl, .inr ⟨le_rfl, rfl, rfl, hc⟩⟩ ?_
    · exact (((CellFrame.refl {(bkt.arr, bkt.off)} h).alloc _).put (s := bkt) (i := 0) (fun _ => rfl) _).put (s := bkt) (i := 0) (fun _ => rfl) _
    · rw [put_get, if_pos ⟨rfl, rfl⟩]
    · exact fun _ => Nat.lt_succ_self _
  · rw [if_neg hc]
    refine GA.mono (B := B + 1 + 1) ?_ (by omega)
    refine GA.load hb hf ?_
    rw [ht]
    simp only [Cell.toHdr]
    rw [show t.sub 0 size = .ok ⟨t.arr, t.off, size, t.cap⟩ by simp [Slice.sub]; omega, liftGo_ok]
    refine GA.store hb hf ?_
    refine g _ ⟨t.arr, t.off, size, t.cap⟩ ?_ ?_ ⟨rfl, .inl ⟨rfl, rfl, by omega, rfl⟩⟩ ?_
    · exact (CellFrame.refl {(bkt.arr, bkt.off)} h).put (s := bkt) (i := 0) (fun _ => rfl) _
    · rw [put_get, if_pos ⟨rfl, rfl⟩]
    · exact fun hlt => hta (by omega)

/-! ### `Sub` and `Mul` -/

/-- Where an operand may be: it holds `xs`, its cells are the cells of the receiver's table or others. -/
structure OperandOk (h : Heap (Cell F)) (t x : Slice) (xs : List F) : Prop where
  holds : HoldsVec h x xs
  over : x.len ≤ t.cap → NoOverlap t x x.len

/-- The operand after the receiver has been resized. -/
theorem OperandOk.place {t x bkt d : Slice} {xs : List F} {h1 : Heap (Cell F)} {size : Nat} (o : OperandOk h t x xs) (hs : xs.length = size)
    (ht : h.get bkt 0 = .hdr t) (hf : CellFrame {(bkt.arr, bkt.off)} h h1) (hr : ResizedC h t d size) :
    h1.vals x = xs.map .elem ∧
    ∀ i < size, (x.arr, x.off + i) ∈ {c : Nat × Nat | c.1 < h1.next ∧ c ∉ sliceCells d size} ∨ (x.arr = d.arr ∧ x.off = d.off) := by
  have hxl := vals_len o.holds.2
  have hlc := o.holds.1.len
  have harr := o.holds.1.arr
  have hlt : ∀ i < size, x.arr < h.next := fun i hi => harr (by omega)
  refine ⟨?_, fun i hi => ?_⟩
  · rw [← o.holds.2]
    refine vals_congr fun i hi => hf.2 (x.arr, x.off + i) (harr (by omega)) ?_
    intro e
    have e1 := (Prod.mk.inj e).1
    have e2 := (Prod.mk.inj e).2
    have := (vals_get o.holds.2 (List.getElem?_eq_getElem (show i < xs.length by omega))).2
    unfold Heap.get at this ht
    rw [e1, e2] at this
    rw [Nat.add_zero, this] at ht
    cases ht
  · obtain ⟨hdl, ⟨e1, e2, e3, _⟩ | ⟨e1, _⟩⟩ := hr
    · by_cases ha : x.arr = d.arr
      · rcases o.over (by omega) (by rw [← e1, ha]) with hov | hov | hov
        · right; exact ⟨ha, by omega⟩
        · left
          refine ⟨lt_of_lt_of_le (hlt i hi) hf.1, fun hm => ?_⟩
          have := hm.2.2
          simp only at this
          omega
        · left
          refine ⟨lt_of_lt_of_le (hlt i hi) hf.1, fun hm => ?_⟩
          have := hm.2.1
          simp only at this
          omega
      · left
        exact ⟨lt_of_lt_of_le (hlt i hi) hf.1, fun hm => ha hm.1⟩
    · left
      refine ⟨lt_of_lt_of_le (hlt i hi) hf.1, fun hm => ?_⟩
      have h1 : x.arr = d.arr := hm.1
      have := hlt i hi
      omega

/-- What `Sub` and `Mul` leave. -/
structure TableOut (h h' : Heap (Cell F)) (bkt t d : Slice) (zs : List F) : Prop where
  hdr : h'.get bkt 0 = .hdr d
  holds : HoldsVec h' d zs
  place : ResizedC h t d zs.length
  frame : CellFrame ({(bkt.arr, bkt.off)} ∪ sliceCells d zs.length) h h'

theorem JobR.loadOperand {own : Set (Nat × Nat)} {fin : CProg F} {Q : Set (Nat × Nat) → Heap (Cell F) → Prop} {n i size : Nat} {d x : Slice}
    {h1 h' : Heap (Cell F)} {xs : List F} {v : F} {k : F → CProg F} (hv : h1.vals x = xs.map .elem) (hx : xs[i]? = some v)
    (hpl : (x.arr, x.off + i) ∈ {c : Nat × Nat | c.1 < h1.next ∧ c ∉ sliceCells d size} ∨ (x.arr = d.arr ∧ x.off = d.off))
    (ho : (d.arr, d.off + i) ∈ own)
    (hro : ∀ c ∈ {c : Nat × Nat | c.1 < h1.next ∧ c ∉ sliceCells d size}, h'.cells c.1 c.2 = h1.cells c.1 c.2) (hdi : h'.get d i = h1.get d i)
    (g : JobR {c | c.1 < h1.next ∧ c ∉ sliceCells d size} fin Q n (k v) own h') :
    JobR {c | c.1 < h1.next ∧ c ∉ sliceCells d size} fin Q (n + 1) (loadE x i k) own h' := by
  obtain ⟨hi, hg⟩ := vals_get hv hx
  unfold loadE
  have e : h'.get x i = .elem v := by
    rw [← hg]
    rcases hpl with hpl | ⟨e1, e2⟩
    · exact hro _ hpl
    · unfold Heap.get at hdi ⊢
      rw [e1, e2]; exact hdi
  refine JobR.load hi ?_ ?_
  · rcases hpl with hpl | ⟨e1, e2⟩
    · exact Set.mem_union_right _ hpl
    · rw [e1, e2]; exact Set.mem_union_left _ ho
  · rw [e]; exact g

theorem bkt_mem {bkt t d : Slice} {h1 : Heap (Cell F)} {size : Nat} (hba : bkt.arr < h.next) (hbt : 0 < t.cap → bkt.arr ≠ t.arr)
    (hn : h.next ≤ h1.next) (hr : ResizedC h t d size) :
    (bkt.arr, bkt.off + 0) ∈ {c : Nat × Nat | c.1 < h1.next ∧ c ∉ sliceCells d size} := by
  refine ⟨by simp only; omega, fun hm => ?_⟩
  have e : bkt.arr = d.arr := hm.1
  have l1 := hm.2.1
  have l2 := hm.2.2
  simp only at l1 l2
  obtain ⟨hdl, ⟨e1, e2, e3, _⟩ | ⟨e1, _⟩⟩ := hr
  · exact hbt (by omega) (by omega)
  · omega

theorem tableOut_ga {bkt t d : Slice} {h1 : Heap (Cell F)} {zs : List F} {st sem wg : Nat} {nCore : Int} {write : Nat → CProg F → CProg F} {k : CProg F}
    {chunks : List ChunkRange} (hn : 1 ≤ nCore) (hch : intoChunkRanges nCore zs.length = .ok chunks) (hf : CellFrame W h0 h)
    (hbt : 0 < t.cap → bkt.arr ≠ t.arr) (hba : bkt.arr < h.next) (hta : 0 < t.cap → t.arr < h.next)
    (hWb : bkt.arr < h0.next → (bkt.arr, bkt.off) ∈ W) (hWt : zs.length ≤ t.cap → t.arr < h0.next → sliceCells t zs.length ⊆ W)
    (hf1 : CellFrame {(bkt.arr, bkt.off)} h h1) (hh : h1.get bkt 0 = .hdr d) (hr : ResizedC h t d zs.length) (hd : 0 < zs.length → d.arr < h1.next)
    (hw : WriteOk h1 d zs.length st (fun i => .elem (zs.getD i 0)) write)
    (g : ∀ h' d, TableOut h h' bkt t d zs → GA W h0 post B k h' AnyX) :
    GA W h0 post (chunkSteps st zs.length nCore + B) (chunkLoopC write chunks sem wg k) h1 fun chans _ wgs _ =>
      chans sem = ⟨List.replicate nCore.toNat .tok, nCore.toNat, false⟩ ∧ wgs wg = chunks.length := by
  have hdt : d.arr < h0.next → sliceCells d zs.length ⊆ W := by
    intro hlt
    obtain ⟨hdl, ⟨e1, e2, e3, _⟩ | ⟨e1, _⟩⟩ := hr
    · intro c hc
      refine hWt e3 (by omega) ?_
      unfold sliceCells at hc ⊢
      rwa [e1, e2] at hc
    · have := hf.1
      omega
  refine chunkLoopC_ga hn hch (hf.trans hf1 ?_) hw hd hdt ?_
  · rintro c rfl hlt
    exact hWb hlt
  · intro h' hf' hget
    have hn1 := hf1.1
    have hn2 := hf'.1
    refine g h' d ⟨?_, ⟨⟨?_, ?_⟩, ?_⟩, hr, ?_⟩
    · rw [← hh]
      have := bkt_mem (d := d) hba hbt hn1 hr
      exact hf'.2 _ this.1 this.2
    · obtain ⟨hdl, ⟨e1, e2, e3, e4⟩ | ⟨e1, _, e4, _⟩⟩ := hr <;> omega
    · intro hc
      obtain ⟨hdl, ⟨e1, e2, e3, e4⟩ | ⟨e1, _, e4, _⟩⟩ := hr
      · have := hta (by omega)
        omega
      · have := hd (by omega)
        omega
    · rw [vals_eq, hr.1]
      refine List.ext_getElem (by simp) fun i h1 h2 => ?_
      simp only [List.length_map] at h2
      simp only [tab_get, List.getElem_map]
      rw [hget i h2, List.getD_eq_getElem _ _ h2]
    · refine ⟨by omega, fun c hc hw => ?_⟩
      rw [hf'.2 c (by omega) fun hm => hw (.inr hm)]
      exact hf1.2 c hc fun hm => hw (.inl hm)

/-- How many steps `Sub` takes at most, `Mul` with `st = 3`. -/
def tableSteps (st size : Nat) (nCore : Int) : Nat := chunkSteps st size nCore + 6 + 1 + nCore.toNat + 1

theorem subC_ga {bkt t left right : Slice} {xs ys : List F} {nCore : Int} {k : CProg F} (hn : 1 ≤ nCore)
    (hb : 0 < bkt.len) (hba : bkt.arr < h.next) (ht : h.get bkt 0 = .hdr t) (hta : 0 < t.cap → t.arr < h.next) (hbt : 0 < t.cap → bkt.arr ≠ t.arr)
    (hl : OperandOk h t left xs) (hr : OperandOk h t right ys) (hlen : xs.length = ys.length) (hf : CellFrame W h0 h)
    (hWb : bkt.arr < h0.next → (bkt.arr, bkt.off) ∈ W) (hWt : xs.length ≤ t.cap → t.arr < h0.next → sliceCells t xs.length ⊆ W)
    (g : ∀ h' d, TableOut h h' bkt t d (List.zipWith (· - ·) xs ys) → GA W h0 post B k h' AnyX) :
    GA W h0 post (B + tableSteps 4 xs.length nCore) (subC bkt left right nCore k) h AnyX := by
  have hxl := vals_len hl.holds.2
  have hyl := vals_len hr.holds.2
  have hzl : (List.zipWith (· - ·) xs ys).length = xs.length := by simp [hlen]
  unfold subC tableSteps
  simp only
  rw [← hxl, ← hyl]
  have hch := intoChunkRanges_eq (nCore := nCore) (by omega) xs.length
  generalize tab _ _ = chunks at hch
  rw [hch, liftGo_ok]
  simp only [show ¬ ys.length ≠ xs.length by omega, if_false]
  rw [show B + (chunkSteps 4 xs.length nCore + 6 + 1 + nCore.toNat + 1) = chunkSteps 4 xs.length nCore + B + 6 + 1 + nCore.toNat + 1 by ring]
  refine GA.semaphore (by omega) hf fun sem => ?_
  refine GA.wgNew hf fun wg => ?_
  refine GA.weaken (X := fun chans _ wgs _ => chans sem = ⟨List.replicate nCore.toNat MsgH.tok, nCore.toNat, false⟩ ∧ wgs wg = chunks.length) ?_ ?_
  swap
  · rintro a b c d ⟨wgs0, ⟨chans0, _, hc, _⟩, hw, _⟩
    exact ⟨by rw [hc]; simp, by rw [hw]; simp⟩
  refine resizeC_ga hb hta ht hf hWb fun h1 d hf1 hh hrz hd => ?_
  obtain ⟨hv1, hp1⟩ := hl.place rfl ht hf1 hrz
  obtain ⟨hv2, hp2⟩ := hr.place hlen.symm ht hf1 hrz
  rw [← hzl] at hch hd hrz hWt ⊢
  refine tableOut_ga hn hch hf hbt hba hta hWb hWt hf1 hh hrz hd ?_ g
  intro own fin next Q n i h' hi ho hro hdi hj
  rw [hzl] at hi hro hj ⊢
  have hix := List.getElem?_eq_getElem hi
  have hiy := List.getElem?_eq_getElem (hlen ▸ hi)
  rw [show n + 4 = n + 1 + 1 + 1 + 1 by rfl]
  have hbro := bkt_mem hba hbt hf1.1 (hzl ▸ hrz)
  refine JobR.load hb (Set.mem_union_right _ hbro) ?_
  rw [show h'.get bkt 0 = .hdr d from (hro _ hbro).trans hh]
  refine JobR.loadOperand hv1 hix (hp1 i hi) ho hro hdi ?_
  refine JobR.loadOperand hv2 hiy (hp2 i hi) ho hro hdi ?_
  refine JobR.store (by rw [show (Cell.hdr d : Cell F).toHdr = d from rfl, hrz.1, hzl]; exact hi) ho ?_
  beta_reduce at hj
  rw [List.getD_eq_getElem _ _ (by rw [hzl]; exact hi), List.getElem_zipWith] at hj
  exact hj

theorem mulC_ga {bkt t x : Slice} {xs : List F} {lambda : F} {nCore : Int} {k : CProg F} (hn : 1 ≤ nCore)
    (hb : 0 < bkt.len) (hba : bkt.arr < h.next) (ht : h.get bkt 0 = .hdr t) (hta : 0 < t.cap → t.arr < h.next) (hbt : 0 < t.cap → bkt.arr ≠ t.arr)
    (hl : OperandOk h t x xs) (hf : CellFrame W h0 h)
    (hWb : bkt.arr < h0.next → (bkt.arr, bkt.off) ∈ W) (hWt : xs.length ≤ t.cap → t.arr < h0.next → sliceCells t xs.length ⊆ W)
    (g : ∀ h' d, TableOut h h' bkt t d (xs.map (· * lambda)) → GA W h0 post B k h' AnyX) :
    GA W h0 post (B + tableSteps 3 xs.length nCore) (mulC bkt lambda x nCore k) h AnyX := by
  have hxl := vals_len hl.holds.2
  have hzl : (xs.map (· * lambda)).length = xs.length := by simp
  unfold mulC tableSteps
  simp only
  rw [← hxl]
  have hch := intoChunkRanges_eq (nCore := nCore) (by omega) xs.length
  generalize tab _ _ = chunks at hch
  rw [hch, liftGo_ok]
  rw [show B + (chunkSteps 3 xs.length nCore + 6 + 1 + nCore.toNat + 1) = chunkSteps 3 xs.length nCore + B + 6 + 1 + nCore.toNat + 1 by ring]
  refine GA.semaphore (by omega) hf fun sem => ?_
  refine GA.wgNew hf fun wg => ?_
  refine GA.weaken (X := fun chans _ wgs _ => chans sem = ⟨List.replicate nCore.toNat MsgH.tok, nCore.toNat, false⟩ ∧ wgs wg = chunks.length) ?_ ?_
  swap
  · rintro a b c d ⟨wgs0, ⟨chans0, _, hc, _⟩, hw, _⟩
    exact ⟨by rw [hc]; simp, by rw [hw]; simp⟩
  refine resizeC_ga hb hta ht hf hWb fun h1 d hf1 hh hrz hd => ?_
  obtain ⟨hv1, hp1⟩ := hl.place rfl ht hf1 hrz
  rw [← hzl] at hch hd hrz hWt ⊢
  refine tableOut_ga hn hch hf hbt hba hta hWb hWt hf1 hh hrz hd ?_ g
  intro own fin next Q n i h' hi ho hro hdi hj
  rw [hzl] at hi hro hj ⊢
  have hix := List.getElem?_eq_getElem hi
  rw [show n + 3 = n + 1 + 1 + 1 by rfl]
  have hbro := bkt_mem hba hbt hf1.1 (hzl ▸ hrz)
  refine JobR.load hb (Set.mem_union_right _ hbro) ?_
  rw [show h'.get bkt 0 = .hdr d from (hro _ hbro).trans hh]
  refine JobR.loadOperand hv1 hix (hp1 i hi) ho hro hdi ?_
  refine JobR.store (by rw [show (Cell.hdr d : Cell F).toHdr = d from rfl, hrz.1, hzl]; exact hi) ho ?_
  beta_reduce at hj
  rw [List.getD_eq_getElem _ _ (by rw [hzl]; exact hi), List.getElem_map] at hj
  exact hj

end

end GkrMimc
