import Verif.Spec.Race
import Verif.Model.ConcCell
import Verif.Proofs.Heap

/-! The labels of the memory operations of the worker pools say what the operations do. -/

namespace GkrMimc

open Spec

set_option linter.unusedSectionVars false

variable {F : Type} [Field F] [DecidableEq F]

theorem labC_load {s : Slice} {i : Nat} {K : Cell F → CProg F} (g : ∀ x, Labelled (K x)) : Labelled (loadC s i K) := by
  unfold loadC
  split
  · exact ⟨fun _ => rfl, fun h h' e => by simp only [Heap.get, e], fun h => g _⟩
  · trivial

theorem labC_loadE {s : Slice} {i : Nat} {K : F → CProg F} (g : ∀ x, Labelled (K x)) : Labelled (loadE s i K) := labC_load fun _ => g _

theorem labC_loadS {s : Slice} {i : Nat} {K : Slice → CProg F} (g : ∀ x, Labelled (K x)) : Labelled (loadS s i K) := labC_load fun _ => g _

theorem labC_store {s : Slice} {i : Nat} {v : Cell F} {K : CProg F} (g : Labelled K) : Labelled (storeC s i v K) := by
  unfold storeC
  split
  · refine ⟨⟨v, fun h => Heap.ext' ?_ rfl rfl⟩, fun _ _ => rfl, fun _ => g⟩
    intro b j
    rw [put_cells]
  · trivial

theorem labC_make {z : Cell F} {n : Nat} {K : Slice → CProg F} (g : ∀ s, Labelled (K s)) : Labelled (makeC z n K) := by
  refine ⟨fun h => ⟨rfl, fun b hb => Function.update_of_ne hb _ _⟩, fun h h' e => ?_, fun h => g _⟩
  simp only [e]

theorem labC_liftGo {α : Type} {x : Go α} {K : α → CProg F} (g : ∀ a, Labelled (K a)) : Labelled (liftGo x K) := by
  cases x with
  | ok a => exact g a
  | error e => trivial

theorem labC_loop {σ : Type} {body : Nat → σ → (σ → CProg F) → CProg F} {K : σ → CProg F}
    (hb : ∀ i s P, (∀ s', Labelled (P s')) → Labelled (body i s P)) (g : ∀ s, Labelled (K s)) :
    ∀ (n j : Nat) (s : σ), Labelled (loopP body K j n s)
  | 0, _, s => g s
  | n + 1, j, s => hb j s _ fun s' => labC_loop hb g n (j + 1) s'

theorem labC_each {α : Type} {body : α → CProg F → CProg F} {K : CProg F} (hb : ∀ x P, Labelled P → Labelled (body x P)) (g : Labelled K) :
    ∀ xs, Labelled (eachP body K xs)
  | [] => g
  | x :: xs => hb x _ (labC_each hb g xs)

theorem labC_send {c : Nat} {v : MsgH F} {K : CProg F} (g : Labelled K) : Labelled (.send c v K) := g

theorem labC_close {c : Nat} {K : CProg F} (g : Labelled K) : Labelled (closeSemP c K) := g

theorem labC_go {P K : CProg F} (l : Labelled P) (g : Labelled K) : Labelled (.go P K) := ⟨l, g⟩

theorem labC_wgNew {n : Nat} {K : Nat → CProg F} (g : ∀ n, Labelled (K n)) : Labelled (.wgNew n K) := g

theorem labC_wait {c : Nat} {K : CProg F} (g : Labelled K) : Labelled (.wgWait c K) := g

theorem labC_acquire {c : Nat} {K : CProg F} (g : Labelled K) : Labelled (acquireP c K) := fun _ => g

theorem labC_semaphore {nCore : Int} {K : Nat → CProg F} (g : ∀ c, Labelled (K c)) : Labelled (newSemaphoreP .tok nCore K) := by
  unfold newSemaphoreP
  split
  · trivial
  · exact fun c => labC_loop (fun _ _ _ hP => labC_send (hP _)) (fun _ => g c) _ _ _

theorem labC_end {sem wg : Nat} : Labelled (jobEndC (F := F) sem wg) := trivial

theorem labC_evaluate (l : Layer F) (inputs : Slice) (nCore : Int) {K : Slice → CProg F} (g : ∀ s, Labelled (K s)) :
    Labelled (l.evaluateC inputs nCore K) := by
  unfold Layer.evaluateC
  refine labC_make fun res => labC_semaphore fun sem => labC_wgNew fun wg => labC_loop (fun i _ P hP => labC_go (labC_acquire ?_) (hP _))
    (fun _ => labC_wait <| labC_close <| g res) _ _ _
  refine labC_loadS fun inps => labC_make fun subRes => labC_each (fun w P hP => ?_) (labC_store labC_end) _
  exact labC_loop (fun _ _ _ hP => labC_loadE fun _ => labC_loadE fun _ => labC_loadE fun _ => labC_store (hP _)) (fun _ => hP) _ _ _

theorem labC_assign (c : Circuit F) (inputs : Slice) (nCore : Int) {K : Slice → CProg F} (g : ∀ s, Labelled (K s)) :
    Labelled (c.assignC inputs nCore K) := by
  unfold Circuit.assignC
  exact labC_make fun _ => labC_store <| labC_loop (fun _ _ _ hP => labC_liftGo fun _ => labC_loadS fun _ => labC_evaluate _ _ _ fun _ =>
    labC_store (hP _)) (fun _ => g _) _ _ _

theorem labC_copy {dst src : Slice} {K : CProg F} (g : Labelled K) : Labelled (copyC dst src K) :=
  labC_loop (fun _ _ _ hP => labC_load fun _ => labC_store (hP _)) (fun _ => g) _ _ _

theorem labC_layerAsBKTWithCopy (values : Slice) (layer : Nat) (nCore : Int) {K : Slice → CProg F} (g : ∀ s, Labelled (K s)) :
    Labelled (layerAsBKTWithCopyC values layer nCore K) := by
  unfold layerAsBKTWithCopyC
  refine labC_loadS fun v => labC_make fun res => labC_wgNew fun wg => labC_semaphore fun sem => labC_loop (fun i _ P hP => ?_)
    (fun _ => labC_wait <| labC_close <| g res) _ _ _
  refine labC_loadS fun tab => labC_go (labC_acquire ?_) (hP _)
  exact labC_make fun d => labC_store <| labC_loadS fun d => labC_copy labC_end

theorem labC_resize {bkt : Slice} {size : Nat} {K : CProg F} (g : Labelled K) : Labelled (resizeC bkt size K) := by
  have h : Labelled (loadS bkt 0 fun t => liftGo (t.sub 0 size) fun d => storeC bkt 0 (.hdr d) K) :=
    labC_loadS fun _ => labC_liftGo fun _ => labC_store g
  unfold resizeC
  refine labC_loadS fun t => ?_
  split
  · exact labC_make fun _ => labC_store h
  · exact h

theorem labC_chunkLoop {write : Nat → CProg F → CProg F} {chunks : List ChunkRange} {sem wg : Nat} {K : CProg F}
    (hw : ∀ i P, Labelled P → Labelled (write i P)) (g : Labelled K) : Labelled (chunkLoopC write chunks sem wg K) := by
  unfold chunkLoopC
  refine labC_loop (fun i _ P hP => labC_liftGo fun c => labC_acquire <| labC_go ?_ (hP _)) (fun _ => labC_wait g) _ _ _
  exact labC_loop (fun _ _ _ hP => hw _ _ (hP _)) (fun _ => labC_end) _ _ _

theorem labC_sub (bkt left right : Slice) (nCore : Int) {K : CProg F} (g : Labelled K) : Labelled (subC bkt left right nCore K) := by
  refine labC_liftGo fun _ => labC_semaphore fun sem => fun wg => ?_
  split
  · trivial
  · exact labC_resize <| labC_chunkLoop (fun _ _ hP => labC_loadS fun _ => labC_loadE fun _ => labC_loadE fun _ => labC_store hP) g

theorem labC_mul (bkt : Slice) (lambda : F) (x : Slice) (nCore : Int) {K : CProg F} (g : Labelled K) : Labelled (mulC bkt lambda x nCore K) :=
  labC_liftGo fun _ => labC_semaphore fun _ => fun _ => labC_resize <| labC_chunkLoop (fun _ _ hP => labC_loadS fun _ => labC_loadE fun _ =>
    labC_store hP) g

end GkrMimc
