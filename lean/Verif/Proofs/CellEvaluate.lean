import Verif.Proofs.PoolOps
import Verif.Proofs.Heap
import Verif.Proofs.ConcPools

/-! All schedules of `Layer.Evaluate`, `Circuit.Assign` and `LayerAsBKTWithCopy`, with single memory accesses as steps. -/

set_option linter.unusedSectionVars false

namespace GkrMimc

open Spec Finset

variable {F : Type} [Field F] [DecidableEq F]

/-! ### Contents of slices -/

section
variable {h h' : Heap (Cell F)} {s t : Slice}

theorem vals_get {α : Type} {g : α → Cell F} {xs : List α} (hv : h.vals s = xs.map g) {i : Nat} {x : α} (hx : xs[i]? = some x) :
    i < s.len ∧ h.get s i = g x := by
  have hl : (h.vals s)[i]? = some (g x) := by rw [hv]; simp [hx]
  have hi : i < s.len := by
    by_contra hc
    rw [List.getElem?_eq_none (by rw [vals_length]; omega)] at hl
    cases hl
  refine ⟨hi, ?_⟩
  rw [vals_eq] at hl
  simpa [tab, hi] using hl

theorem vals_len {α : Type} {g : α → Cell F} {xs : List α} (hv : h.vals s = xs.map g) : xs.length = s.len := by
  have := congrArg List.length hv
  simpa using this.symm

theorem vals_put_same (h : Heap (Cell F)) (s : Slice) {i : Nat} (v : Cell F) : (h.put s i v).vals s = (h.vals s).set i v := by
  rw [vals_eq, vals_eq, tab_set]
  refine tab_congr fun j hj => ?_
  rw [put_get]
  by_cases e : j = i
  · simp [e]
  · rw [if_neg (by omega), Function.update_of_ne e]

theorem vals_congr (hc : ∀ i < s.len, h'.cells s.arr (s.off + i) = h.cells s.arr (s.off + i)) : h'.vals s = h.vals s :=
  tab_congr hc

theorem vals_put_ne (v : Cell F) {i : Nat} (hn : 0 < s.len → s.arr ≠ t.arr) : (h.put t i v).vals s = h.vals s :=
  vals_congr fun _ hj => get_put_ne _ _ _ _ fun e => hn (by omega) e.1

end

/-! ### One goroutine of `Evaluate` -/

section
variable {ro own : Set (Nat × Nat)} {fin k : CProg F} {Q : Set (Nat × Nat) → Heap (Cell F) → Prop} {n : Nat}

theorem evalInner_job {inps d : Slice} {xs : List F} {eval : F → F → F} {wL wR wO : Nat} {out : List F}
    (hir : ∀ j < inps.len, (inps.arr, inps.off + j) ∈ ro) (hd : ∀ j < d.len, (d.arr, d.off + j) ∈ own)
    (hsep : 0 < inps.len → inps.arr ≠ d.arr)
    (g : ∀ h : Heap (Cell F), h.vals inps = xs.map Cell.elem → h.vals d = out.map Cell.elem → JobR ro fin Q n k own h) (m : Nat) :
    ∀ (j : Nat) (sub : List F) (h : Heap (Cell F)), h.vals inps = xs.map Cell.elem → h.vals d = sub.map Cell.elem →
      forFrom (fun h sub => do
        let vL ← idx xs (wL + h)
        let vR ← idx xs (wR + h)
        let tmp := eval vL vR
        modIdx sub (wO + h) (fun x => x + tmp)) j m sub = .ok out →
      JobR ro fin Q (n + 4 * m) (loopP (fun h _ next =>
          loadE inps (wL + h) fun vL =>
          loadE inps (wR + h) fun vR =>
          let tmp := eval vL vR
          loadE d (wO + h) fun x =>
          storeC d (wO + h) (.elem (x + tmp)) (next ()))
        (fun _ => k) j m ()) own h := by
  induction m with
  | zero =>
    intro j sub h hi hs hf
    simp only [forFrom, Except.ok.injEq] at hf
    subst hf
    exact g h hi hs
  | succ m ih =>
    intro j sub h hi hs hf
    simp only [forFrom] at hf
    split at hf
    case h_2 => cases hf
    case h_1 sub' hb =>
      obtain ⟨vL, hL, hb⟩ := bind_eq_ok.1 hb
      obtain ⟨vR, hR, hb⟩ := bind_eq_ok.1 hb
      rw [idx_eq_ok] at hL hR
      obtain ⟨hL1, hL2⟩ := vals_get hi hL
      obtain ⟨hR1, hR2⟩ := vals_get hi hR
      simp only [modIdx] at hb
      split at hb
      case h_2 => cases hb
      case h_1 x hx =>
        obtain ⟨hx1, hx2⟩ := vals_get hs hx
        simp only [Except.ok.injEq] at hb
        subst hb
        rw [show n + 4 * (m + 1) = n + 4 * m + 1 + 1 + 1 + 1 by ring]
        simp only [loopP]
        refine JobR.load hL1 (Set.mem_union_right _ (hir _ hL1)) ?_
        refine JobR.load hR1 (Set.mem_union_right _ (hir _ hR1)) ?_
        refine JobR.load hx1 (Set.mem_union_left _ (hd _ hx1)) ?_
        refine JobR.store hx1 (hd _ hx1) ?_
        rw [hL2, hR2, hx2]
        refine ih (j + 1) _ _ ?_ ?_ hf
        · rw [vals_put_ne _ hsep, hi]
        · rw [vals_put_same, hs, List.map_set]; rfl

theorem evalWires_job {inps d : Slice} {xs : List F} {N : Nat} {out : List F}
    (hir : ∀ j < inps.len, (inps.arr, inps.off + j) ∈ ro) (hd : ∀ j < d.len, (d.arr, d.off + j) ∈ own)
    (hsep : 0 < inps.len → inps.arr ≠ d.arr)
    (g : ∀ h : Heap (Cell F), h.vals d = out.map Cell.elem → JobR ro fin Q n k own h) (ws : List (Wire F)) :
    ∀ (sub : List F) (h : Heap (Cell F)), h.vals inps = xs.map Cell.elem → h.vals d = sub.map Cell.elem →
      (forEach ws sub fun w subRes =>
        forN N subRes fun h subRes => do
          let vL ← idx xs (w.L * N + h)
          let vR ← idx xs (w.R * N * N + h)
          let tmp := w.gate.eval vL vR
          modIdx subRes (w.O * N + h) (fun x => x + tmp)) = .ok out →
      JobR ro fin Q (n + ws.length * (4 * N)) (eachP (fun w next =>
          loopP (fun h _ next =>
            loadE inps (w.L * N + h) fun vL =>
            loadE inps (w.R * N * N + h) fun vR =>
            let tmp := w.gate.eval vL vR
            loadE d (w.O * N + h) fun x =>
            storeC d (w.O * N + h) (.elem (x + tmp)) (next ()))
          (fun _ => next) 0 N ()) k ws) own h := by
  induction ws with
  | nil =>
    intro sub h hi hs hf
    simp only [forEach_nil, Except.ok.injEq] at hf
    subst hf
    simpa [eachP] using g h hs
  | cons w ws ih =>
    intro sub h hi hs hf
    rw [forEach_cons] at hf
    obtain ⟨sub', hb, hf⟩ := bind_eq_ok.1 hf
    rw [show n + (w :: ws).length * (4 * N) = n + ws.length * (4 * N) + 4 * N by simp only [List.length_cons]; ring]
    simp only [eachP]
    exact evalInner_job hir hd hsep (fun h hi hs => ih sub' h hi hs hf) N 0 sub h hi hs hb

/-- What a goroutine of `Evaluate` leaves: in cell `i` of `res` the header of a new array with `out`. -/
def EvalOut (res : Slice) (i : Nat) (out : List F) (own : Set (Nat × Nat)) (h : Heap (Cell F)) : Prop :=
  ∃ d : Slice, h.get res i = .hdr d ∧ HoldsVec h d out ∧ res.arr < d.arr ∧ d.off = 0 ∧ d.len = d.cap ∧ ∀ j, (d.arr, j) ∈ own

theorem evalJob {l : Layer F} {inputs res inps : Slice} {i : Nat} {xs out : List F} {h : Heap (Cell F)}
    (hi : i < inputs.len) (hic : (inputs.arr, inputs.off + i) ∈ ro) (hin : h.get inputs i = .hdr inps)
    (hv : h.vals inps = xs.map Cell.elem) (hir : ∀ j < inps.len, (inps.arr, inps.off + j) ∈ ro)
    (he : evaluateChunk l xs = .ok out) (hr : i < res.len) (ho : own = {(res.arr, res.off + i)}) :
    JobR ro fin (EvalOut res i out) (l.wires.length * (4 * (inps.len / 1 <<< l.bGInputs)) + 3) (l.evaluateJobC inputs res i fin) own h := by
  unfold Layer.evaluateJobC
  refine JobR.load hi (Set.mem_union_right _ hic) ?_
  simp only [hin, Cell.toHdr]
  refine JobR.make fun h' a => ?_
  have hxl := vals_len hv
  unfold evaluateChunk at he
  simp only [hxl] at he
  have hro : ∀ c ∈ ro, c.1 < h'.next := fun c hc => (a c (.inr hc)).2
  have hres : res.arr < h'.next := (a (res.arr, res.off + i) (.inl (by rw [ho]; rfl))).2
  set d : Slice := ⟨h'.next, 0, inps.len / 1 <<< l.bGInputs * 1 <<< l.bGOutputs, inps.len / 1 <<< l.bGInputs * 1 <<< l.bGOutputs⟩ with hdd
  rw [Nat.add_comm]
  refine evalWires_job (n := 1) hir (fun j _ => Set.mem_union_right _ (by rw [hdd]; rfl))
    (fun h0 => ne_of_lt (hro _ (hir 0 h0))) ?_ l.wires (List.replicate _ 0) _ ?_ ?_ he
  · intro h2 hd2
    refine JobR.store hr (Set.mem_union_left _ (by rw [ho]; rfl)) ⟨rfl, fun h3 a3 => ?_⟩
    have hde : h3.vals d = out.map Cell.elem := by
      rw [← hd2]
      refine vals_congr fun j hj => ?_
      rw [(a3 (d.arr, d.off + j) (Set.mem_union_left _ (Set.mem_union_right _ (by rw [hdd]; rfl)))).1]
      exact get_put_ne _ _ _ _ fun e => absurd e.1 (by rw [hdd]; exact ne_of_gt hres)
    refine ⟨d, ?_, ⟨⟨le_rfl, fun _ => (a3 (d.arr, 0) (Set.mem_union_left _ (Set.mem_union_right _ (by rw [hdd]; rfl)))).2⟩, hde⟩, hres, rfl,
      rfl, fun j => Set.mem_union_right _ (by rw [hdd]; rfl)⟩
    have := (a3 (res.arr, res.off + i) (Set.mem_union_left _ (Set.mem_union_left _ (by rw [ho]; rfl)))).1
    unfold Heap.get
    rw [this, get_put_same]
  · rw [← hv]
    refine vals_congr fun j hj => ?_
    have hm := hir j hj
    rw [← (a _ (Set.mem_union_right _ hm)).1]
    simp only [Heap.alloc]
    rw [Function.update_of_ne (ne_of_lt (hro _ hm))]
  · rw [vals_eq, List.map_replicate]
    rw [hdd]
    simp only
    refine List.ext_getElem (by simp) fun j h1 h2 => ?_
    simp [Heap.get, Heap.alloc]

end

/-! ### Slices of slices -/

theorem forall₂_tab {α β : Type} {R : α → β → Prop} {n : Nat} {f : Nat → α} {ys : List β} (hn : n = ys.length)
    (h : ∀ i (hi : i < ys.length), R (f i) ys[i]) : List.Forall₂ R (tab n f) ys := by
  rw [List.forall₂_iff_get]
  refine ⟨by simp [hn], fun i h1 h2 => ?_⟩
  have := h i h2
  simpa [tab] using this

theorem forall₂_get {α β : Type} {R : α → β → Prop} {xs : List α} {ys : List β} (h : List.Forall₂ R xs ys) {i : Nat} {x : α}
    (hx : xs[i]? = some x) : ∃ y, ys[i]? = some y ∧ R x y := by
  rw [List.forall₂_iff_get] at h
  have hi : i < xs.length := by
    by_contra hc
    rw [List.getElem?_eq_none (by omega)] at hx
    cases hx
  have hi' : i < ys.length := h.1 ▸ hi
  refine ⟨ys[i], List.getElem?_eq_getElem hi', ?_⟩
  have := h.2 i hi hi'
  rw [List.getElem?_eq_getElem hi] at hx
  cases hx
  exact this

section
variable {h h' : Heap (Cell F)}

/-- Like `HoldsTables`, and no cell is in array `a`. -/
def HoldsTablesAv (a : Nat) (h : Heap (Cell F)) (s : Slice) (xss : List (List F)) : Prop :=
  Valid h s ∧ (0 < s.len → s.arr ≠ a) ∧ ∃ ds : List Slice, h.vals s = ds.map Cell.hdr ∧
    List.Forall₂ (fun d xs => HoldsVec h d xs ∧ (0 < d.len → d.arr ≠ a)) ds xss

theorem HoldsTablesAv.holds {a : Nat} {s : Slice} {xss : List (List F)} (t : HoldsTablesAv a h s xss) : HoldsTables h s xss := by
  obtain ⟨v, _, ds, hv, hd⟩ := t
  exact ⟨v, ds, hv, hd.imp fun _ _ h => h.1⟩

theorem HoldsTables.av {a : Nat} {s : Slice} {xss : List (List F)} (t : HoldsTables h s xss) (ha : h.next ≤ a) : HoldsTablesAv a h s xss := by
  obtain ⟨v, ds, hv, hd⟩ := t
  refine ⟨v, fun hl => ?_, ds, hv, hd.imp fun d xs h => ⟨h, fun hl => ?_⟩⟩
  · have := v.arr (lt_of_lt_of_le hl v.len)
    omega
  · have := h.1.arr (lt_of_lt_of_le hl h.1.len)
    omega

theorem HoldsVec.av {a : Nat} {d : Slice} {xs : List F} (t : HoldsVec h d xs) (hl : 0 < d.len → d.arr ≠ a) (hn : h.next ≤ h'.next)
    (hc : ∀ b < h.next, b ≠ a → ∀ j, h'.cells b j = h.cells b j) : HoldsVec h' d xs := by
  refine ⟨⟨t.1.len, fun hc => lt_of_lt_of_le (t.1.arr hc) hn⟩, ?_⟩
  rw [← t.2]
  refine vals_congr fun i hi => hc _ (t.1.arr ?_) (hl (by omega)) _
  have := t.1.len
  omega

theorem HoldsTablesAv.mono {a : Nat} {s : Slice} {xss : List (List F)} (t : HoldsTablesAv a h s xss) (hn : h.next ≤ h'.next)
    (hc : ∀ b < h.next, b ≠ a → ∀ j, h'.cells b j = h.cells b j) : HoldsTablesAv a h' s xss := by
  obtain ⟨v, hl, ds, hv, hd⟩ := t
  refine ⟨⟨v.len, fun hc => lt_of_lt_of_le (v.arr hc) hn⟩, hl, ds, ?_, hd.imp fun d xs h => ⟨h.1.av h.2 hn hc, h.2⟩⟩
  rw [← hv]
  refine vals_congr fun i hi => hc _ (v.arr ?_) (hl (by omega)) _
  have := v.len
  omega

theorem HoldsTables.mono {s : Slice} {xss : List (List F)} (t : HoldsTables h s xss) (hf : CellFrame ∅ h h') : HoldsTables h' s xss :=
  ((t.av le_rfl).mono hf.1 fun _ hb _ j => hf.2 (_, j) hb (Set.notMem_empty _)).holds

theorem CellFrame.trans' {W : Set (Nat × Nat)} {h0 : Heap (Cell F)} (hf : CellFrame W h0 h) (hg : CellFrame ∅ h h') : CellFrame W h0 h' :=
  ⟨hf.1.trans hg.1, fun c hc hw => (hg.2 c (lt_of_lt_of_le hc hf.1) (Set.notMem_empty _)).trans (hf.2 c hc hw)⟩

end

/-! ### `Evaluate` -/

section
variable {W : Set (Nat × Nat)} {h0 h : Heap (Cell F)} {post : Conf (Heap (Cell F)) (MsgH F) → Prop} {B : Nat}

/-- How many steps `Evaluate` takes at most. -/
def evaluateSteps (l : Layer F) (ins : List (List F)) (nCore : Int) : Nat :=
  ∑ w ∈ range ins.length, (l.wires.length * (4 * ((ins.getD w []).length / 1 <<< l.bGInputs)) + 3 + 3) + (3 * ins.length + 2) + 1
    + nCore.toNat + 1 + 1

theorem pool_tables {p : Pool (Cell F) (MsgH F)} {res : Slice} {outs : List (List F)} {n : Nat} {ow : Nat → Set (Nat × Nat)}
    {h1 h' : Heap (Cell F)} {k : Slice → CProg F}
    (hres : res = ⟨h.next, 0, n, n⟩) (hpn : p.n = n) (hph : p.h1 = h1) (hh1 : h1 = h.alloc fun _ => .hdr Slice.nil)
    (hol : outs.length = n) (ho0 : ∀ w, p.own0 w = {(res.arr, res.off + w)}) (owns : p.Owns ow h')
    (hQ : ∀ w < n, EvalOut res w (outs.getD w []) (ow w) h')
    (g : ∀ h' res, CellFrame ∅ h h' → HoldsTables h' res outs → NewTables h h' res → h.next ≤ res.arr →
      GA W h0 post B (k res) h' AnyX) : GA W h0 post B (k res) h' AnyX := by
  have hra : res.arr = h.next := by rw [hres]
  have hQ' : ∀ w, ∃ d : Slice, w < n → h'.get res w = .hdr d ∧ HoldsVec h' d (outs.getD w []) ∧ res.arr < d.arr ∧
      (d.arr, 0) ∈ ow w := by
    intro w
    by_cases hw : w < n
    · obtain ⟨d, q1, q2, q3, _, _, q6⟩ := hQ w hw
      exact ⟨d, fun _ => ⟨q1, q2, q3, q6 0⟩⟩
    · exact ⟨Slice.nil, fun h => absurd h hw⟩
  choose d hd using hQ'
  have hvals : h'.vals res = (tab n d).map Cell.hdr := by
    rw [vals_eq, tab_map, show res.len = n by rw [hres]]
    exact tab_congr fun w hw => (hd w hw).1
  have hh1n : p.h1.next = h.next + 1 := by rw [hph, hh1]; rfl
  have hnx : h.next + 1 ≤ h'.next := hh1n ▸ owns.next
  refine g h' res ⟨by omega, fun c hc _ => ?_⟩ ⟨⟨by rw [hres], fun _ => by omega⟩, tab n d, hvals, ?_⟩ ⟨tab n d, hvals, ?_, ?_⟩ hra.ge
  · rw [owns.cells c (by omega) ?_]
    · rw [hph, hh1]
      simp only [Heap.alloc]
      rw [Function.update_of_ne (by omega)]
    · intro w _ hc'
      rw [ho0 w] at hc'
      rw [show c = (res.arr, res.off + w) from hc'] at hc
      exact absurd hc (by rw [hra]; exact lt_irrefl _)
  · refine forall₂_tab (by omega) fun w hw => ?_
    have := (hd w (by omega)).2.1
    rwa [List.getD_eq_getElem _ _ hw] at this
  · rw [tab_map]
    refine List.Nodup.map_on ?_ List.nodup_range
    intro w hw w' hw' e
    have hw := List.mem_range.1 hw
    have hw' := List.mem_range.1 hw'
    by_contra hne
    refine Set.disjoint_left.1 (owns.disj w (by omega) w' (by omega) hne) (hd w hw).2.2.2 ?_
    have e : (d w).arr = (d w').arr := e
    rw [e]
    exact (hd w' hw').2.2.2
  · intro x hx
    simp only [tab, List.mem_map, List.mem_range] at hx
    obtain ⟨w, hw, rfl⟩ := hx
    have := (hd w hw).2.2.1
    omega

theorem evaluateC_ga {l : Layer F} {inputs : Slice} {nCore : Int} {k : Slice → CProg F} {ins outs : List (List F)} (hn : 1 ≤ nCore)
    (hin : HoldsTables h inputs ins) (he : l.evaluate ins nCore = .ok outs) (hf : CellFrame W h0 h)
    (g : ∀ h' res, CellFrame ∅ h h' → HoldsTables h' res outs → NewTables h h' res → h.next ≤ res.arr →
      GA W h0 post B (k res) h' AnyX) :
    GA W h0 post (B + evaluateSteps l ins nCore) (l.evaluateC inputs nCore k) h AnyX := by
  obtain ⟨hv, ds, hds, hall⟩ := hin
  obtain ⟨u, hu, he⟩ := bind_eq_ok.1 (show (semaphoreSection nCore ins.length >>= fun _ => mapGo (evaluateChunk l) ins) = .ok outs from he)
  obtain ⟨hlen, hout⟩ := mapGo_ok_iff he
  have hdl := vals_len hds
  have hil : ins.length = inputs.len := by rw [← hdl]; exact hall.length_eq.symm
  unfold Layer.evaluateC
  rw [show B + evaluateSteps l ins nCore =
    ∑ w ∈ range ins.length, (l.wires.length * (4 * ((ins.getD w []).length / 1 <<< l.bGInputs)) + 3 + 3) + (3 * ins.length + 2) + B + 1
      + nCore.toNat + 1 + 1 by unfold evaluateSteps; ring]
  refine GA.make hf ?_
  set h1 : Heap (Cell F) := h.alloc fun _ => .hdr Slice.nil with hh1
  set res : Slice := ⟨h.next, 0, inputs.len, inputs.len⟩ with hres
  have hn1 : h1.next = h.next + 1 := rfl
  have hc1 : ∀ a < h.next, ∀ j, h1.cells a j = h.cells a j := by
    intro a ha j
    rw [hh1]
    simp only [Heap.alloc]
    rw [Function.update_of_ne (by omega)]
  have hf1 : CellFrame W h0 h1 := hf.alloc _
  refine GA.semaphore (by omega) hf1 fun sem => ?_
  refine GA.wgNew hf1 fun wg => ?_
  let p : Pool (Cell F) (MsgH F) :=
    { tok := .tok, inside := true, sem := sem, wg := wg, N := nCore.toNat, n := inputs.len, g0 := 1, rd := fun _ => none
      code := fun j _ => l.evaluateJobC inputs res j (jobEndC sem wg)
      K := k res, ro := {c | c.1 < h.next}, own0 := fun w => {(res.arr, res.off + w)}
      len := fun w => l.wires.length * (4 * ((ins.getD w []).length / 1 <<< l.bGInputs)) + 3
      Q := fun w => EvalOut res w (outs.getD w []), h1 := h1 }
  have hok : p.Ok := ⟨by show 1 ≤ nCore.toNat; omega, fun j c hc => (by cases hc), fun _ _ _ _ => rfl,
    fun c hc => lt_of_lt_of_le hc (Nat.le_succ _)⟩
  refine GA.weaken (X := fun chans _ wgs _ => chans sem = ⟨List.replicate nCore.toNat MsgH.tok, nCore.toNat, false⟩ ∧ wgs wg = inputs.len) ?_ ?_
  swap
  · rintro a b c d ⟨wgs0, ⟨chans0, _, hc, _⟩, hw, _⟩
    exact ⟨by rw [hc]; simp, by rw [hw]; simp⟩
  rw [hil]
  refine GA.pool (p := p) hok rfl hf1 ?_ ?_ ?_ ?_ ?_ ?_
  · rintro w _ c rfl hc
    exact absurd hc (by have := hf.1; show ¬ h.next < h0.next; omega)
  · intro w _ w' _ hne
    refine Set.disjoint_singleton.2 ?_
    intro e
    have := (Prod.mk.inj e).2
    omega
  · intro w _
    refine Set.disjoint_singleton_left.2 ?_
    intro e
    exact absurd (show h.next < h.next from e) (lt_irrefl _)
  · rintro w _ c rfl
    exact Nat.lt_succ_self _
  · intro w hw
    have hw : w < inputs.len := hw
    have hdw : w < ds.length := by omega
    have hiw : w < ins.length := by omega
    have how : w < outs.length := by omega
    obtain ⟨xs, hxs, hvec⟩ := forall₂_get hall (List.getElem?_eq_getElem hdw)
    obtain rfl : xs = ins[w] := by
      rw [List.getElem?_eq_getElem hiw] at hxs
      cases hxs; rfl
    obtain ⟨_, hget⟩ := vals_get hds (List.getElem?_eq_getElem hdw)
    have harr := hvec.1.arr
    have hvl := hvec.1.len
    have hiarr := hv.arr
    have hilen := hv.len
    have e1 : (ins.getD w []).length = (ds[w]).len := by
      rw [List.getD_eq_getElem _ _ hiw]; exact vals_len hvec.2
    have e2 : outs.getD w [] = outs[w] := List.getD_eq_getElem _ _ how
    show JobR {c | c.1 < h.next} _ (EvalOut res w (outs.getD w [])) (l.wires.length * (4 * ((ins.getD w []).length / 1 <<< l.bGInputs)) + 3) _ _ h1
    rw [e1, e2]
    refine evalJob hw ?_ ?_ ?_ ?_ (hout w hiw how) hw rfl
    · exact hiarr (by omega)
    · rw [← hget]; exact hc1 _ (hiarr (by omega)) _
    · rw [← hvec.2]; exact vals_congr fun i hi => hc1 _ (harr (by omega)) _
    · exact fun j hj => harr (by omega)
  · exact fun ow h' owns hQ => pool_tables (p := p) (outs := outs) hres rfl rfl hh1 (by omega) (fun w => rfl) owns hQ g

/-! ### `Assign` -/

/-- How many steps the loop of `Assign` takes at most. -/
def assignSteps (nCore : Int) : List (Layer F) → List (List F) → Nat
  | [], _ => 0
  | l :: ls, cur =>
    match l.evaluate cur nCore with
    | .ok nxt => assignSteps nCore ls nxt + 1 + evaluateSteps l cur nCore + 1
    | .error _ => 0

theorem map_hdr_inj {xs ys : List Slice} (h : xs.map (Cell.hdr (F := F)) = ys.map Cell.hdr) : xs = ys :=
  List.map_injective_iff.2 (fun _ _ h => Cell.hdr.inj h) h

theorem HoldsTables.newAv {a : Nat} {h1 h' : Heap (Cell F)} {s : Slice} {xss : List (List F)} (t : HoldsTables h' s xss)
    (hn : NewTables h1 h' s) (ha : a < h1.next) (hs : h1.next ≤ s.arr) : HoldsTablesAv a h' s xss := by
  obtain ⟨v, ds, hds, hall⟩ := t
  obtain ⟨ds', hds', _, hge⟩ := hn
  obtain rfl : ds = ds' := map_hdr_inj (hds.symm.trans hds')
  refine ⟨v, fun _ => by omega, ds, hds, ?_⟩
  rw [List.forall₂_iff_get] at hall ⊢
  refine ⟨hall.1, fun i h1' h2' => ⟨hall.2 i h1' h2', fun _ => ?_⟩⟩
  have := hge _ (List.get_mem ds ⟨i, h1'⟩)
  omega

theorem assignLoop_ga {c : Circuit F} {nCore : Int} {A : Slice} {k : CProg F} {vs : List (List (List F))} (hn : 1 ≤ nCore)
    (hA : A.off = 0 ∧ A.len = c.layers.length + 1 ∧ A.cap = c.layers.length + 1) (hAh : h.next ≤ A.arr) (hf : CellFrame W h0 h)
    (g : ∀ h', CellFrame ∅ h h' → HoldsLayers h' A vs → GA W h0 post B k h' AnyX) (ls : List (Layer F)) :
    ∀ (i : Nat) (ss : List Slice) (pre : List (List (List F))) (cur : Slice) (ins : List (List F)) (rest : List (List (List F)))
      (hh : Heap (Cell F)), c.layers.drop i = ls → i + ls.length = c.layers.length → ss.length = i → CellFrame ∅ h hh → A.arr < hh.next →
      (∀ j s, ss[j]? = some s → hh.get A j = .hdr s) → hh.get A i = .hdr cur → List.Forall₂ (HoldsTablesAv A.arr hh) ss pre →
      HoldsTablesAv A.arr hh cur ins → assignFrom nCore ls ins = .ok rest → pre ++ rest = vs →
      GA W h0 post (B + assignSteps nCore ls ins) (loopP (fun i _ next =>
          liftGo (idx c.layers i) fun layer =>
          loadS A i fun cur =>
          layer.evaluateC cur nCore fun out =>
          storeC A (i + 1) (.hdr out) (next ()))
        (fun _ => k) i ls.length ()) hh AnyX := by
  induction ls with
  | nil =>
    intro i ss pre cur ins rest hh _ hi hss hfh hAn hget hcur hpre hins hrest hvs
    simp only [assignFrom, Except.ok.injEq] at hrest
    subst hrest
    refine g hh hfh ⟨⟨by omega, fun _ => hAn⟩, ss ++ [cur], ?_, ?_⟩
    · apply List.ext_getElem?
      intro j
      simp only [List.length_nil, Nat.add_zero] at hi
      rcases Nat.lt_trichotomy j i with hj | hj | hj
      · have : j < ss.length := by omega
        rw [List.map_append, List.getElem?_append_left (by simpa using this), List.getElem?_map, List.getElem?_eq_getElem this]
        simp only [Option.map_some]
        rw [← hget j _ (List.getElem?_eq_getElem this)]
        simp [vals_eq, tab, show j < A.len by omega]
      · subst hj
        rw [List.map_append, List.getElem?_append_right (by simp; omega)]
        simp only [List.length_map, hss, Nat.sub_self, List.map_cons, List.map_nil, List.getElem?_cons_zero]
        rw [← hcur]
        simp [vals_eq, tab, show j < A.len by omega]
      · rw [List.getElem?_eq_none (by simp; omega), List.getElem?_eq_none (by simp; omega)]
    · rw [← hvs]
      refine List.rel_append (hpre.imp fun _ _ h => h.holds) (.cons hins.holds .nil)
  | cons l ls ih =>
    intro i ss pre cur ins rest hh hdrop hi hss hfh hAn hget hcur hpre hins hrest hvs
    simp only [List.length_cons] at hi
    obtain ⟨outs, ho, hr⟩ := bind_eq_ok.1 (show (l.evaluate ins nCore >>= fun nxt => assignFrom nCore ls nxt >>= fun r => .ok (ins :: r)) = .ok rest from hrest)
    obtain ⟨rest', hr1, hr2⟩ := bind_eq_ok.1 hr
    simp only [Except.ok.injEq] at hr2
    have hl : c.layers[i]? = some l := by
      have := congrArg (fun x : List (Layer F) => x[0]?) hdrop
      simpa using this
    have hdrop' : c.layers.drop (i + 1) = ls := by
      rw [← List.drop_drop, hdrop]; rfl
    simp only [assignSteps, ho, loopP, List.length_cons]
    rw [idx_eq_ok.2 hl]
    simp only [liftGo]
    rw [show B + (assignSteps nCore ls outs + 1 + evaluateSteps l ins nCore + 1) =
      B + assignSteps nCore ls outs + 1 + evaluateSteps l ins nCore + 1 by ring]
    have hfh' := hf.trans' hfh
    refine GA.load (by omega) hfh' ?_
    rw [hcur]
    simp only [Cell.toHdr]
    refine evaluateC_ga hn hins.holds ho hfh' fun h2 out hf2 hout hnew hoa => ?_
    have hf2' := hfh'.trans' hf2
    have h2n : hh.next ≤ h2.next := hf2.1
    have hput : ∀ b < h2.next, b ≠ A.arr → ∀ j, (h2.put A (i + 1) (.hdr out)).cells b j = h2.cells b j :=
      fun b _ hb j => get_put_ne _ _ _ _ fun e => hb e.1
    refine GA.store (by omega) hf2' ?_
    refine ih (i + 1) (ss ++ [cur]) (pre ++ [ins]) out outs rest' _ hdrop' (by omega) (by simp [hss]) ?_ (lt_of_lt_of_le hAn h2n) ?_ ?_ ?_ ?_ hr1 ?_
    · exact (hfh.trans' hf2).put (fun hlt => absurd hlt (by omega)) _
    · intro j s hj
      have hjl : j < (ss ++ [cur]).length := by
        by_contra hc
        rw [List.getElem?_eq_none (by omega)] at hj
        cases hj
      simp only [List.length_append, List.length_singleton] at hjl
      have hold : hh.get A j = .hdr s := by
        rcases Nat.lt_or_ge j i with hlt | hge
        · rw [List.getElem?_append_left (by omega)] at hj
          exact hget j s hj
        · obtain rfl : j = i := by omega
          rw [List.getElem?_append_right (by omega), hss, Nat.sub_self] at hj
          simp only [List.getElem?_cons_zero, Option.some.injEq] at hj
          rw [← hj]; exact hcur
      rw [put_get, if_neg (by omega), ← hold]
      exact hf2.2 (A.arr, _) hAn (Set.notMem_empty _)
    · rw [put_get, if_pos ⟨rfl, rfl⟩]
    · refine List.rel_append ?_ (.cons ?_ .nil)
      · refine hpre.imp fun s x hx => HoldsTablesAv.mono (h := hh) hx ?_ ?_
        · exact h2n
        · intro b hb hne j
          rw [hput b (lt_of_lt_of_le hb h2n) hne]
          exact hf2.2 (b, j) hb (Set.notMem_empty _)
      · refine HoldsTablesAv.mono (h := hh) hins ?_ ?_
        · exact h2n
        · intro b hb hne j
          rw [hput b (lt_of_lt_of_le hb h2n) hne]
          exact hf2.2 (b, j) hb (Set.notMem_empty _)
    · exact (hout.newAv hnew hAn hoa).mono le_rfl hput
    · rw [← hvs, ← hr2]; simp

theorem assignC_ga {c : Circuit F} {inputs : Slice} {nCore : Int} {k : Slice → CProg F} {ins : List (List F)} {vs : List (List (List F))}
    (hn : 1 ≤ nCore) (hin : HoldsTables h inputs ins) (he : c.assign ins nCore = .ok vs) (hf : CellFrame W h0 h)
    (g : ∀ h' A, CellFrame ∅ h h' → HoldsLayers h' A vs → h.next ≤ A.arr → GA W h0 post B (k A) h' AnyX) :
    GA W h0 post (B + assignSteps nCore c.layers ins + 1 + 1) (c.assignC inputs nCore k) h AnyX := by
  unfold Circuit.assignC
  refine GA.make hf ?_
  have hf1 := hf.alloc fun _ => .hdr Slice.nil
  refine GA.store (Nat.succ_pos _) hf1 ?_
  set h1 : Heap (Cell F) := h.alloc fun _ => .hdr Slice.nil with hh1
  set A : Slice := ⟨h.next, 0, c.layers.length + 1, c.layers.length + 1⟩ with hA
  have hc1 : CellFrame ∅ h h1 := by
    refine ⟨Nat.le_succ _, fun c hc _ => ?_⟩
    rw [hh1]
    simp only [Heap.alloc]
    rw [Function.update_of_ne (by omega)]
  have hc2 : CellFrame ∅ h (h1.put A 0 (.hdr inputs)) := hc1.put (fun hlt => absurd hlt (lt_irrefl _)) _
  refine assignLoop_ga (A := A) (vs := vs) hn ⟨rfl, rfl, rfl⟩ le_rfl hf (fun h' hf' hl => g h' A hf' hl le_rfl) c.layers 0 [] [] inputs ins vs _
    rfl (by simp) rfl hc2 (Nat.lt_succ_self _) (fun j s hj => by simp at hj) ?_ .nil ?_ he rfl
  · rw [put_get, if_pos ⟨rfl, rfl⟩]
  · refine (hin.av (a := h.next) le_rfl).mono hc2.1 fun b hb _ j => hc2.2 (b, j) hb (Set.notMem_empty _)

/-! ### `LayerAsBKTWithCopy` -/

theorem copyLoop_job {ro own : Set (Nat × Nat)} {fin k : CProg F} {Q : Set (Nat × Nat) → Heap (Cell F) → Prop} {n : Nat} {src d : Slice}
    {xs : List F} (hl : d.len = src.len) (P : Heap (Cell F) → Prop) (hP : ∀ h j v, j < d.len → P h → P (h.put d j v))
    (hir : ∀ j < src.len, (src.arr, src.off + j) ∈ ro) (hd : ∀ j < d.len, (d.arr, d.off + j) ∈ own) (hsep : 0 < src.len → src.arr ≠ d.arr)
    (g : ∀ h : Heap (Cell F), P h → h.vals d = xs.map Cell.elem → JobR ro fin Q n k own h) (m : Nat) :
    ∀ (j : Nat) (h : Heap (Cell F)), j + m = src.len → P h → h.vals src = xs.map Cell.elem →
      (∀ i < j, h.get d i = h.get src i) →
      JobR ro fin Q (n + 2 * m) (loopP (fun i _ next => loadC src i fun x => storeC d i x (next ())) (fun _ => k) j m ()) own h := by
  induction m with
  | zero =>
    intro j h e hi0 hv hp
    refine g h hi0 ?_
    rw [← hv, vals_eq, vals_eq, hl]
    exact tab_congr fun i hi => hp i (by omega)
  | succ m ih =>
    intro j h e hi0 hv hp
    rw [show n + 2 * (m + 1) = n + 2 * m + 1 + 1 by ring]
    have hj : j < src.len := by omega
    simp only [loopP]
    refine JobR.load hj (Set.mem_union_right _ (hir j hj)) (JobR.store (by omega) (hd j (by omega)) ?_)
    have hs : ∀ i, (h.put d j (h.get src j)).get src i = h.get src i := by
      intro i
      rw [put_get, if_neg]
      exact fun e => hsep (by omega) e.1
    refine ih (j + 1) _ (by omega) (hP _ _ _ (by omega) hi0) ?_ ?_
    · rw [vals_put_ne _ hsep, hv]
    · intro i hi
      rw [hs, put_get]
      by_cases e : i = j
      · rw [if_pos ⟨rfl, by omega⟩, e]
      · rw [if_neg (by omega)]; exact hp i (by omega)

theorem copyJob {ro own : Set (Nat × Nat)} {fin : CProg F} {res tab : Slice} {i : Nat} {xs : List F} {h : Heap (Cell F)}
    (hv : h.vals tab = xs.map Cell.elem) (hir : ∀ j < tab.len, (tab.arr, tab.off + j) ∈ ro) (hr : i < res.len)
    (ho : own = {(res.arr, res.off + i)}) (hod : Disjoint own ro) :
    JobR ro fin (EvalOut res i xs) (0 + 2 * tab.len + 3)
      (makeE tab.len fun d => storeC res i (.hdr d) <| loadS res i fun d => copyC d tab fin) own h := by
  refine JobR.make fun h' a => ?_
  have hro : ∀ c ∈ ro, c.1 < h'.next := fun c hc => (a c (.inr hc)).2
  have hres : res.arr < h'.next := (a (res.arr, res.off + i) (.inl (by rw [ho]; rfl))).2
  have hrm : (res.arr, res.off + i) ∈ own ∪ {c | c.1 = h'.next} := Set.mem_union_left _ (by rw [ho]; rfl)
  set d : Slice := ⟨h'.next, 0, tab.len, tab.len⟩ with hdd
  refine JobR.store hr hrm (JobR.load hr (Set.mem_union_left _ hrm) ?_)
  rw [put_get, if_pos ⟨rfl, rfl⟩]
  simp only [Cell.toHdr]
  unfold copyC
  rw [show min d.len tab.len = tab.len by simp [hdd]]
  set h2 : Heap (Cell F) := (h'.alloc fun _ => .elem 0).put res i (.hdr d) with hh2
  have hsep : 0 < tab.len → tab.arr ≠ d.arr := fun h0 => ne_of_lt (hro _ (hir 0 h0))
  refine copyLoop_job (n := 0) (xs := xs) (src := tab) (d := d) rfl (fun h => h.get res i = .hdr d) ?_ hir (fun j _ => Set.mem_union_right _ (by rw [hdd]; rfl)) hsep ?_ tab.len 0
    h2 (by omega) ?_ ?_ (fun i hi => absurd hi (Nat.not_lt_zero _))
  · intro h j v _ hg
    rw [put_get, if_neg]
    · exact hg
    · exact fun e => absurd e.1 (ne_of_lt hres)
  · intro h3 hg hd3
    refine ⟨rfl, fun h4 a4 => ⟨d, ?_, ⟨⟨le_rfl, fun _ => ?_⟩, ?_⟩, hres, rfl, rfl, fun j => Set.mem_union_right _ (by rw [hdd]; rfl)⟩⟩
    · rw [← hg]
      exact (a4 _ (Set.mem_union_left _ hrm)).1
    · exact (a4 (d.arr, 0) (Set.mem_union_left _ (Set.mem_union_right _ (by rw [hdd]; rfl)))).2
    · rw [← hd3]
      exact vals_congr fun j hj => (a4 (d.arr, d.off + j) (Set.mem_union_left _ (Set.mem_union_right _ (by rw [hdd]; rfl)))).1
  · rw [hh2, put_get, if_pos ⟨rfl, rfl⟩]
  · rw [← hv]
    refine vals_congr fun j hj => ?_
    have hm := hir j hj
    rw [← (a _ (Set.mem_union_right _ hm)).1, hh2, get_put_ne]
    · simp only [Heap.alloc]
      rw [Function.update_of_ne (ne_of_lt (hro _ hm))]
    · rintro ⟨e1, e2⟩
      have hmo : (res.arr, res.off + i) ∈ own := by rw [ho]; rfl
      refine Set.disjoint_left.1 hod hmo ?_
      rw [← e1, ← e2]; exact hm

/-- How many steps `LayerAsBKTWithCopy` takes at most. -/
def layerAsBKTSteps (ins : List (List F)) (nCore : Int) : Nat :=
  ∑ w ∈ range ins.length, (0 + 2 * (ins.getD w []).length + 3 + 3) + (3 * ins.length + 2) + nCore.toNat + 1 + 1 + 1 + 1

theorem layerAsBKTWithCopyC_ga {values : Slice} {layer : Nat} {nCore : Int} {k : Slice → CProg F} {vs : List (List (List F))}
    {ins : List (List F)} (hn : 1 ≤ nCore)
    (hin : HoldsLayers h values vs) (he : layerAsBKTWithCopy vs layer nCore = .ok ins) (hf : CellFrame W h0 h)
    (g : ∀ h' res, CellFrame ∅ h h' → HoldsTables h' res ins → NewTables h h' res → h.next ≤ res.arr →
      GA W h0 post B (k res) h' AnyX) :
    GA W h0 post (B + layerAsBKTSteps ins nCore) (layerAsBKTWithCopyC values layer nCore k) h AnyX := by
  obtain ⟨hvv, vds, hvds, hvall⟩ := hin
  obtain ⟨v, hlay, he⟩ := bind_eq_ok.1 (show (idx vs layer >>= fun v => semaphoreSection nCore v.length >>= fun _ => .ok v) = .ok ins from he)
  obtain ⟨_, _, he⟩ := bind_eq_ok.1 he
  simp only [Except.ok.injEq] at he
  subst he
  rw [idx_eq_ok] at hlay
  have hll : layer < vds.length := by
    rw [hvall.length_eq]
    by_contra hc
    rw [List.getElem?_eq_none (by omega)] at hlay
    cases hlay
  obtain ⟨v', hv', hv, ds, hds, hall⟩ := forall₂_get hvall (List.getElem?_eq_getElem hll)
  rw [hlay] at hv'
  simp only [Option.some.injEq] at hv'
  subst hv'
  obtain ⟨hlt, hlget⟩ := vals_get hvds (List.getElem?_eq_getElem hll)
  set inputs := vds[layer]
  have hdl := vals_len hds
  have hil : v.length = inputs.len := by rw [← hdl]; exact hall.length_eq.symm
  unfold layerAsBKTWithCopyC
  rw [show B + layerAsBKTSteps v nCore =
    ∑ w ∈ range v.length, (0 + 2 * (v.getD w []).length + 3 + 3) + (3 * v.length + 2) + B + nCore.toNat + 1 + 1
      + 1 + 1 by unfold layerAsBKTSteps; ring]
  refine GA.load hlt hf ?_
  rw [hlget]
  simp only [Cell.toHdr]
  refine GA.make hf ?_
  set h1 : Heap (Cell F) := h.alloc fun _ => .hdr Slice.nil with hh1
  set res : Slice := ⟨h.next, 0, inputs.len, inputs.len⟩ with hres
  have hc1 : ∀ a < h.next, ∀ j, h1.cells a j = h.cells a j := by
    intro a ha j
    rw [hh1]
    simp only [Heap.alloc]
    rw [Function.update_of_ne (by omega)]
  have hf1 : CellFrame W h0 h1 := hf.alloc _
  refine GA.wgNew hf1 fun wg => ?_
  refine GA.semaphore (by omega) hf1 fun sem => ?_
  let p : Pool (Cell F) (MsgH F) :=
    { tok := .tok, inside := true, sem := sem, wg := wg, N := nCore.toNat, n := inputs.len, g0 := 1
      rd := fun j => if j < inputs.len then some (inputs.arr, inputs.off + j) else none
      code := fun j h =>
        makeE (h.get inputs j).toHdr.len fun d => storeC res j (.hdr d) <| loadS res j fun d => copyC d (h.get inputs j).toHdr (jobEndC sem wg)
      K := k res, ro := {c | c.1 < h.next}, own0 := fun w => {(res.arr, res.off + w)}
      len := fun w => 0 + 2 * (v.getD w []).length + 3
      Q := fun w => EvalOut res w (v.getD w []), h1 := h1 }
  have hiarr := hv.arr
  have hilen := hv.len
  have hok : p.Ok := by
    refine ⟨by show 1 ≤ nCore.toNat; omega, ?_, ?_, fun c hc => lt_of_lt_of_le hc (Nat.le_succ _)⟩
    · intro j c hc
      have hc : (if j < inputs.len then some (inputs.arr, inputs.off + j) else none) = some c := hc
      split at hc
      · cases hc
        exact hiarr (by omega)
      · cases hc
    · intro j hj h' ha
      have hj : j < inputs.len := hj
      have : h'.get inputs j = h1.get inputs j := (ha (inputs.arr, inputs.off + j) (hiarr (by omega))).1
      simp only [p, Pool.job, this]
  refine GA.weaken (X := fun chans _ wgs _ => chans sem = ⟨List.replicate nCore.toNat MsgH.tok, nCore.toNat, false⟩ ∧ wgs wg = inputs.len) ?_ ?_
  swap
  · rintro a b c d ⟨chans0, ⟨wgs0, _, hw, _⟩, hc, _⟩
    exact ⟨by rw [hc]; simp, by rw [hw]; simp⟩
  rw [hil]
  have hloop : p.loop 0 = loopP (fun i _ next =>
      loadS inputs i fun tab => .go
      (acquireP sem <|
       makeE tab.len fun d =>
       storeC res i (.hdr d) <|
       loadS res i fun d =>
       copyC d tab <|
       jobEndC sem wg)
      (next ()))
    (fun _ => .wgWait wg <| closeSemP sem <| k res) 0 inputs.len () := by
    refine loopP_congr inputs.len 0 () fun i _ hi _ next => ?_
    have hi : i < inputs.len := by omega
    simp only [Pool.body, p, if_pos hi, loadS, loadC]
    rfl
  rw [← hloop]
  refine GA.pool (p := p) hok rfl hf1 ?_ ?_ ?_ ?_ ?_ ?_
  · rintro w _ c rfl hc
    exact absurd hc (by have := hf.1; show ¬ h.next < h0.next; omega)
  · intro w _ w' _ hne
    refine Set.disjoint_singleton.2 ?_
    intro e
    have := (Prod.mk.inj e).2
    omega
  · intro w _
    refine Set.disjoint_singleton_left.2 ?_
    intro e
    exact absurd (show h.next < h.next from e) (lt_irrefl _)
  · rintro w _ c rfl
    exact Nat.lt_succ_self _
  · intro w hw
    have hw : w < inputs.len := hw
    have hdw : w < ds.length := by omega
    have hiw : w < v.length := by omega
    obtain ⟨xs, hxs, hvec⟩ := forall₂_get hall (List.getElem?_eq_getElem hdw)
    obtain rfl : xs = v[w] := by
      rw [List.getElem?_eq_getElem hiw] at hxs
      cases hxs; rfl
    obtain ⟨_, hget⟩ := vals_get hds (List.getElem?_eq_getElem hdw)
    have harr := hvec.1.arr
    have hvl := hvec.1.len
    have e1 : (v.getD w []).length = (ds[w]).len := by
      rw [List.getD_eq_getElem _ _ hiw]; exact vals_len hvec.2
    have e2 : v.getD w [] = v[w] := List.getD_eq_getElem _ _ hiw
    have hg1 : h1.get inputs w = .hdr ds[w] := by rw [← hget]; exact hc1 _ (hiarr (by omega)) _
    show JobR {c | c.1 < h.next} _ (EvalOut res w (v.getD w [])) (0 + 2 * (v.getD w []).length + 3)
      (makeE (h1.get inputs w).toHdr.len fun d => storeC res w (.hdr d) <| loadS res w fun d => copyC d (h1.get inputs w).toHdr (jobEndC sem wg)) _ h1
    rw [e1, e2, hg1]
    refine copyJob ?_ ?_ hw rfl ?_
    · rw [← hvec.2]; exact vals_congr fun i hi => hc1 _ (harr (by omega)) _
    · exact fun j hj => harr (by omega)
    · exact Set.disjoint_singleton_left.2 fun e => absurd (show h.next < h.next from e) (lt_irrefl _)
  · exact fun ow h' owns hQ => pool_tables (p := p) (outs := v) hres rfl rfl hh1 hil (fun w => rfl) owns hQ g

end

end GkrMimc
