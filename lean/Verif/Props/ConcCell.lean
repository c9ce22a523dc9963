import Verif.Proofs.CellTables
import Verif.Proofs.CellLabels
import Verif.Props.ConcHeap

/-! Property C48: the goroutines of the worker pools share memory without data races. -/

set_option linter.unusedSectionVars false

namespace GkrMimc

open Spec

variable {F : Type} [Field F] [DecidableEq F]

theorem GA.ret {W : Set (Nat × Nat)} {h0 h : Heap (Cell F)} {post : Conf (Heap (Cell F)) (MsgH F) → Prop} {r : MsgH F}
    (hf : CellFrame W h0 h) (hp : ∀ s : Conf (Heap (Cell F)) (MsgH F), s.gs 0 = .ret r → s.mem = h → post s) :
    GA W h0 post 0 (.ret r) h AnyX := by
  intro s h1 _ h3 h4 _
  exact goodCell_ret h1 (h4 ▸ hf) h3 (hp s h3 h4)

theorem GA.start {W : Set (Nat × Nat)} {h : Heap (Cell F)} {post : Conf (Heap (Cell F)) (MsgH F) → Prop} {B : Nat} {P : CProg F}
    (g : GA W h post B P h AnyX) : GoodCellRun W h post B (startOf P h .tok) :=
  g _ (by rw [start_eq]; exact soloConf_solo _ _ _ _ _ _ _) le_rfl (by simp [startOf]) rfl trivial

/-- C48. Every access to a cell is a step of its own. Under all schedules of `Layer.Evaluate`: no data race, no panic, no deadlock,
boundedly many steps, no existing cell changes, and the result holds the tables of the goroutines run one after the other, in
new arrays, no two in the same. -/
theorem C48_evaluate (l : Layer F) (h : Heap (Cell F)) (inputs : Slice) (ins outs : List (List F)) (nCore : Int) (hn : 1 ≤ nCore)
    (hin : HoldsTables h inputs ins) (e : l.evaluate ins nCore = .ok outs) :
    ∃ bound, GoodCellRun ∅ h (fun s => ∃ res, s.gs 0 = .ret (.slice res) ∧ HoldsTables s.mem res outs ∧ NewTables h s.mem res) bound
      (startOf (l.evaluateC inputs nCore fun res => .ret (.slice res)) h .tok) := by
  refine ⟨_, GA.start (evaluateC_ga (B := 0) hn hin e (CellFrame.refl _ h) fun h' res hf ht hnew _ => GA.ret hf fun s h3 h4 => ?_)⟩
  exact ⟨res, h3, h4 ▸ ht, h4 ▸ hnew⟩

/-- C48. `Circuit.Assign`: the same, through all the layers; the result holds the values of all the layers. -/
theorem C48_assign (c : Circuit F) (h : Heap (Cell F)) (inputs : Slice) (ins : List (List F)) (vs : List (List (List F))) (nCore : Int)
    (hn : 1 ≤ nCore) (hin : HoldsTables h inputs ins) (e : c.assign ins nCore = .ok vs) :
    ∃ bound, GoodCellRun ∅ h (fun s => ∃ values, s.gs 0 = .ret (.slice values) ∧ HoldsLayers s.mem values vs) bound
      (startOf (c.assignC inputs nCore fun values => .ret (.slice values)) h .tok) := by
  refine ⟨_, GA.start (assignC_ga (B := 0) hn hin e (CellFrame.refl _ h) fun h' A hf hl _ => GA.ret hf fun s h3 h4 => ?_)⟩
  exact ⟨A, h3, h4 ▸ hl⟩

/-- C48. `LayerAsBKTWithCopy`: the same; the tables of the result are copies in new arrays, no two in the same. -/
theorem C48_layerAsBKTWithCopy (h : Heap (Cell F)) (values : Slice) (layer : Nat) (vs : List (List (List F))) (tabs : List (List F))
    (nCore : Int) (hn : 1 ≤ nCore) (hin : HoldsLayers h values vs) (e : layerAsBKTWithCopy vs layer nCore = .ok tabs) :
    ∃ bound, GoodCellRun ∅ h (fun s => ∃ res, s.gs 0 = .ret (.slice res) ∧ HoldsTables s.mem res tabs ∧ NewTables h s.mem res) bound
      (startOf (layerAsBKTWithCopyC values layer nCore fun res => .ret (.slice res)) h .tok) := by
  refine ⟨_, GA.start (layerAsBKTWithCopyC_ga (B := 0) hn hin e (CellFrame.refl _ h) fun h' res hf ht hnew _ => GA.ret hf fun s h3 h4 => ?_)⟩
  exact ⟨res, h3, h4 ▸ ht, h4 ▸ hnew⟩

/-- C48. `Assign` and then `LayerAsBKTWithCopy` of one of its layers, as `gkr.Prover` does: the copies do not share arrays with the
assignment, which is unchanged. -/
theorem C48_assign_copy (c : Circuit F) (h : Heap (Cell F)) (inputs : Slice) (ins : List (List F)) (vs : List (List (List F)))
    (layer : Nat) (tabs : List (List F)) (nCore : Int) (hn : 1 ≤ nCore) (hin : HoldsTables h inputs ins) (e : c.assign ins nCore = .ok vs)
    (e' : layerAsBKTWithCopy vs layer nCore = .ok tabs) :
    ∃ bound, GoodCellRun ∅ h (fun s => ∃ values res h1, s.gs 0 = .ret (.slice res) ∧ HoldsLayers h1 values vs ∧
        (∀ a < h1.next, ∀ i, s.mem.cells a i = h1.cells a i) ∧ HoldsTables s.mem res tabs ∧ NewTables h1 s.mem res) bound
      (startOf (c.assignC inputs nCore fun values => layerAsBKTWithCopyC values layer nCore fun res => .ret (.slice res)) h .tok) := by
  refine ⟨_, GA.start (assignC_ga hn hin e (CellFrame.refl _ h) fun h1 A hf hl _ =>
    layerAsBKTWithCopyC_ga (B := 0) hn hl e' hf fun h' res hf' ht hnew _ => GA.ret (hf.trans' hf') fun s h3 h4 => ?_)⟩
  exact ⟨A, res, h1, h3, hl, h4 ▸ fun a ha i => hf'.2 (a, i) ha (Set.notMem_empty _), h4 ▸ ht, h4 ▸ hnew⟩

/-- The cells that `Sub` and `Mul` may write: the receiver's header, and the first `size` cells of its table if they exist. -/
def receiverCells (bkt t : Slice) (size : Nat) : Set (Nat × Nat) :=
  {c | c = (bkt.arr, bkt.off) ∨ (size ≤ t.cap ∧ c.1 = t.arr ∧ t.off ≤ c.2 ∧ c.2 < t.off + size)}

/-- The receiver of `Sub` and `Mul`: a variable with a usable table, which is not in the same array as the variable. -/
structure Receiver (h : Heap (Cell F)) (bkt t : Slice) : Prop where
  len : 0 < bkt.len
  valid : Valid h bkt
  hdr : h.get bkt 0 = .hdr t
  table : Valid h t
  apart : 0 < t.cap → bkt.arr ≠ t.arr

theorem TableOut.receiver {h h' : Heap (Cell F)} {bkt t d : Slice} {zs : List F} (o : TableOut h h' bkt t d zs) :
    CellFrame (receiverCells bkt t zs.length) h h' := by
  refine (CellFrame.refl _ h).trans o.frame ?_
  rintro c (rfl | hc) hlt
  · exact .inl rfl
  · obtain ⟨_, ⟨q1, q2, q3, _⟩ | ⟨q1, _⟩⟩ := o.place
    · unfold sliceCells at hc
      rw [q1, q2] at hc
      exact .inr ⟨q3, hc⟩
    · exact absurd hlt (by rw [show c.1 = d.arr from hc.1]; omega)

/-- C48. `Sub`: under all schedules no data race, no panic, no deadlock, boundedly many steps, only cells of the receiver
change, and its table holds the difference. The receiver may be an operand; otherwise it must not overlap the operands. -/
theorem C48_sub (h : Heap (Cell F)) (bkt t left right : Slice) (xs ys : List F) (nCore : Int) (hn : 1 ≤ nCore) (r : Receiver h bkt t)
    (hl : HoldsVec h left xs) (hr : HoldsVec h right ys) (hlen : xs.length = ys.length)
    (n1 : NoOverlap t left xs.length) (n2 : NoOverlap t right xs.length) :
    ∃ bound, GoodCellRun (receiverCells bkt t xs.length) h
      (fun s => s.gs 0 = .ret .tok ∧ ∃ d, s.mem.get bkt 0 = .hdr d ∧ HoldsVec s.mem d (List.zipWith (· - ·) xs ys)) bound
      (startOf (subC bkt left right nCore (.ret .tok)) h .tok) := by
  have e1 := vals_len hl.2
  have e2 := vals_len hr.2
  have hb := r.valid.len
  have hbl := r.len
  refine ⟨_, GA.start (subC_ga (B := 0) hn r.len (r.valid.arr (by omega)) r.hdr r.table.arr r.apart ⟨hl, fun _ => e1 ▸ n1⟩
    ⟨hr, fun _ => by rw [← e2, ← hlen]; exact n2⟩ hlen (CellFrame.refl _ h) (fun _ => .inl rfl)
    (fun hc _ c hm => .inr ⟨hc, hm⟩) fun h' d o => GA.ret ?_ fun s h3 h4 => ?_)⟩
  · have hz : (List.zipWith (· - ·) xs ys).length = xs.length := by simp [hlen]
    exact hz ▸ o.receiver
  · exact ⟨h3, d, h4 ▸ o.hdr, h4 ▸ o.holds⟩

/-- C48. `Mul`: the same; the table of the receiver holds the multiple. -/
theorem C48_mul (h : Heap (Cell F)) (bkt t x : Slice) (xs : List F) (lambda : F) (nCore : Int) (hn : 1 ≤ nCore) (r : Receiver h bkt t)
    (hx : HoldsVec h x xs) (n1 : NoOverlap t x xs.length) :
    ∃ bound, GoodCellRun (receiverCells bkt t xs.length) h
      (fun s => s.gs 0 = .ret .tok ∧ ∃ d, s.mem.get bkt 0 = .hdr d ∧ HoldsVec s.mem d (xs.map (· * lambda))) bound
      (startOf (mulC bkt lambda x nCore (.ret .tok)) h .tok) := by
  have e1 := vals_len hx.2
  have hb := r.valid.len
  have hbl := r.len
  refine ⟨_, GA.start (mulC_ga (B := 0) hn r.len (r.valid.arr (by omega)) r.hdr r.table.arr r.apart ⟨hx, fun _ => e1 ▸ n1⟩
    (CellFrame.refl _ h) (fun _ => .inl rfl) (fun hc _ c hm => .inr ⟨hc, hm⟩) fun h' d o => GA.ret ?_ fun s h3 h4 => ?_)⟩
  · have hz : (xs.map (· * lambda)).length = xs.length := by simp
    exact hz ▸ o.receiver
  · exact ⟨h3, d, h4 ▸ o.hdr, h4 ▸ o.holds⟩

/-- C48. The labels of the accesses, on which the definition of a race rests, are right. -/
theorem C48_labels (l : Layer F) (c : Circuit F) (inputs values bkt left right x : Slice) (layer : Nat) (lambda : F) (nCore : Int) :
    Labelled (l.evaluateC inputs nCore fun res => .ret (.slice res)) ∧ Labelled (c.assignC inputs nCore fun res => .ret (.slice res)) ∧
    Labelled (layerAsBKTWithCopyC (F := F) values layer nCore fun res => .ret (.slice res)) ∧
    Labelled (subC (F := F) bkt left right nCore (.ret .tok)) ∧ Labelled (mulC bkt lambda x nCore (.ret .tok)) :=
  ⟨labC_evaluate l inputs nCore fun _ => trivial, labC_assign c inputs nCore fun _ => trivial,
    labC_layerAsBKTWithCopy values layer nCore fun _ => trivial, labC_sub bkt left right nCore trivial, labC_mul bkt lambda x nCore trivial⟩

/-! ### Examples -/

/-- Array 0 holds the headers of three chunks of array 1, array 2 the header of a layer, array 3 the header of a table that starts in
cell 4096 of array 1. -/
def cellHeap : Heap (Cell Fr) where
  cells a i :=
    if a = 0 then .hdr ⟨1, 2 * i, 2, 2⟩ else if a = 2 then .hdr ⟨0, 0, 3, 3⟩
    else if a = 3 then .hdr ⟨1, 4096, 4097, 4097⟩ else .elem (i + 1)
  next := 4
  extra _ := 0

/-- The input of a layer. -/
def cellInputs : Slice := ⟨0, 0, 3, 3⟩

/-- A layer with two inputs and one output. -/
def cellLayer : Layer Fr := newLayer [⟨1, 0, 0, cipherGate frString 3⟩, ⟨1, 0, 1, copyGate⟩]

theorem cellHeap_inputs : HoldsTables cellHeap cellInputs [[1, 2], [3, 4], [5, 6]] := by
  refine ⟨⟨le_rfl, fun _ => by simp [cellHeap, cellInputs]⟩, [⟨1, 0, 2, 2⟩, ⟨1, 2, 2, 2⟩, ⟨1, 4, 2, 2⟩], rfl, ?_⟩
  refine .cons ⟨⟨le_rfl, fun _ => by simp [cellHeap]⟩, ?_⟩ (.cons ⟨⟨le_rfl, fun _ => by simp [cellHeap]⟩, ?_⟩
    (.cons ⟨⟨le_rfl, fun _ => by simp [cellHeap]⟩, ?_⟩ .nil)) <;> simp [Heap.vals, Heap.get, cellHeap, List.range_succ] <;> norm_num

example : ∃ bound, GoodCellRun ∅ cellHeap (fun s => ∃ res, s.gs 0 = .ret (.slice res) ∧
      HoldsTables s.mem res [[2 + 4 ^ 7, 2], [4 + 6 ^ 7, 4], [6 + 8 ^ 7, 6]] ∧ NewTables cellHeap s.mem res) bound
    (startOf (cellLayer.evaluateC cellInputs 2 fun res => .ret (.slice res)) cellHeap .tok) :=
  C48_evaluate cellLayer cellHeap cellInputs _ _ 2 (by decide) cellHeap_inputs (by decide +kernel)

/-- Two layers. -/
def cellCircuit : Circuit Fr := newCircuit [[⟨1, 0, 0, cipherGate frString 3⟩, ⟨1, 0, 1, copyGate⟩], [⟨0, 1, 0, cipherGate frString 1⟩]]

example : ∃ bound, GoodCellRun ∅ cellHeap (fun s => ∃ values, s.gs 0 = .ret (.slice values) ∧
      HoldsLayers s.mem values [[[1, 2], [3, 4], [5, 6]], [[16386, 2], [279940, 4], [2097158, 6]],
        [[16386 + 3 ^ 7], [279940 + 5 ^ 7], [2097158 + 7 ^ 7]]]) bound
    (startOf (cellCircuit.assignC cellInputs 2 fun values => .ret (.slice values)) cellHeap .tok) :=
  C48_assign cellCircuit cellHeap cellInputs _ _ 2 (by decide) cellHeap_inputs (by decide +kernel)

theorem cellHeap_layers : HoldsLayers cellHeap ⟨2, 0, 1, 1⟩ [[[1, 2], [3, 4], [5, 6]]] :=
  ⟨⟨le_rfl, fun _ => by simp [cellHeap]⟩, [⟨0, 0, 3, 3⟩], rfl, .cons cellHeap_inputs .nil⟩

example : ∃ bound, GoodCellRun ∅ cellHeap (fun s => ∃ res, s.gs 0 = .ret (.slice res) ∧
      HoldsTables s.mem res [[1, 2], [3, 4], [5, 6]] ∧ NewTables cellHeap s.mem res) bound
    (startOf (layerAsBKTWithCopyC ⟨2, 0, 1, 1⟩ 0 2 fun res => .ret (.slice res)) cellHeap .tok) :=
  C48_layerAsBKTWithCopy cellHeap ⟨2, 0, 1, 1⟩ 0 _ _ 2 (by decide) cellHeap_layers (by decide +kernel)

example : layerAsBKTWithCopy [[[1, 2], [3, 4], [5, 6]], [[16386, 2], [279940, 4], [2097158, 6]],
    [[16386 + 3 ^ 7], [279940 + 5 ^ 7], [2097158 + 7 ^ 7]]] 1 2 = .ok [[(16386 : Fr), 2], [279940, 4], [2097158, 6]] := by decide +kernel

theorem cellHeap_receiver : Receiver cellHeap ⟨3, 0, 1, 1⟩ ⟨1, 4096, 4097, 4097⟩ where
  len := by decide
  valid := ⟨le_rfl, fun _ => by simp [cellHeap]⟩
  hdr := rfl
  table := ⟨le_rfl, fun _ => by simp [cellHeap]⟩
  apart _ := by decide

/-- Elements `o+1, …, o+n`. -/
theorem cellHeap_vec (o n : Nat) : HoldsVec cellHeap ⟨1, o, n, n⟩ ((List.range n).map fun i => ((o + i : Nat) : Fr) + 1) := by
  refine ⟨⟨le_rfl, fun _ => by simp [cellHeap]⟩, ?_⟩
  rw [List.map_map]
  rfl

/-- The table of the receiver minus a table before it, in place. Two chunks. -/
example : ∃ bound, GoodCellRun (receiverCells ⟨3, 0, 1, 1⟩ ⟨1, 4096, 4097, 4097⟩ 4096) cellHeap
    (fun s => s.gs 0 = .ret .tok ∧ ∃ d, s.mem.get ⟨3, 0, 1, 1⟩ 0 = .hdr d ∧ HoldsVec s.mem d
      (List.zipWith (· - ·) ((List.range 4096).map fun i => ((4096 + i : Nat) : Fr) + 1) ((List.range 4096).map fun i => ((0 + i : Nat) : Fr) + 1)))
    bound (startOf (subC ⟨3, 0, 1, 1⟩ ⟨1, 4096, 4096, 4096⟩ ⟨1, 0, 4096, 4096⟩ 2 (.ret .tok)) cellHeap .tok) := by
  have := C48_sub cellHeap ⟨3, 0, 1, 1⟩ ⟨1, 4096, 4097, 4097⟩ _ _ _ _ 2 (by decide) cellHeap_receiver (cellHeap_vec 4096 4096)
    (cellHeap_vec 0 4096) (by simp) (fun _ => .inl rfl) (fun _ => .inr (.inr (by simp)))
  rwa [List.length_map, List.length_range] at this

/-- The receiver's table is too small: a new array. Two chunks. -/
example : ∃ bound, GoodCellRun (receiverCells ⟨3, 0, 1, 1⟩ ⟨1, 4096, 4097, 4097⟩ 5000) cellHeap
    (fun s => s.gs 0 = .ret .tok ∧ ∃ d, s.mem.get ⟨3, 0, 1, 1⟩ 0 = .hdr d ∧ HoldsVec s.mem d
      (((List.range 5000).map fun i => ((10000 + i : Nat) : Fr) + 1).map (· * 7)))
    bound (startOf (mulC ⟨3, 0, 1, 1⟩ 7 ⟨1, 10000, 5000, 5000⟩ 2 (.ret .tok)) cellHeap .tok) := by
  have := C48_mul cellHeap ⟨3, 0, 1, 1⟩ ⟨1, 4096, 4097, 4097⟩ ⟨1, 10000, 5000, 5000⟩ _ 7 2 (by decide) cellHeap_receiver (cellHeap_vec 10000 5000)
    (fun _ => .inr (.inl (by simp)))
  rwa [List.length_map, List.length_range] at this

/-- Goroutine `i` is about to write the cell that goroutine `j` is about to read. -/
def writeRead {M V : Type} (s : Conf M V) (i j : Nat) : Bool :=
  match s.gs i, s.gs j with
  | .mem (.write a x) _ _, .mem (.read b y) _ _ => a == b && x == y
  | _, _ => false

theorem writeRead_race {M V : Type} {s : Conf M V} {i j : Nat} (hij : i ≠ j) (h : writeRead s i j = true) : Race s := by
  unfold writeRead at h
  split at h
  next a x f k b y g l e1 e2 =>
    refine ⟨i, j, _, _, _, _, _, _, hij, e1, e2, ?_⟩
    simpa [Conflict] using h
  · cases h

/-- C48. The hypothesis on overlap is needed: if the receiver's table starts in the middle of the operand, a schedule with two
cores leads to a data race. -/
theorem C48_overlap_race :
    ∃ s, Reach (startOf (mulC (F := Fr) ⟨3, 0, 1, 1⟩ 7 ⟨1, 0, 4097, 4097⟩ 2 (.ret .tok)) cellHeap .tok) s ∧ Race s := by
  have key : (runSchedule (startOf (mulC (F := Fr) ⟨3, 0, 1, 1⟩ 7 ⟨1, 0, 4097, 4097⟩ 2 (.ret .tok)) cellHeap .tok)
      (List.replicate 11 0 ++ List.replicate 2 1 ++ [2])).map (fun s => writeRead s 1 2) = some true := by decide +kernel
  obtain ⟨s, e, hb⟩ := Option.map_eq_some_iff.1 key
  exact ⟨s, runSchedule_reach _ 0 _ s .zero e, writeRead_race (by decide) hb⟩

end GkrMimc
