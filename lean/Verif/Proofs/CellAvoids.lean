import Verif.Proofs.OverCells
import Verif.Proofs.CellGkrLabels
import Verif.Proofs.RaceLabels

/-! `gkr.Prover.Prove` uses only channels and wait groups that it makes; its labels are right. -/

namespace GkrMimc

open Spec

set_option linter.unusedSectionVars false

variable {F : Type} [Field F] [DecidableEq F] {c0 w0 : Nat}

local notation "Av" => Avoids c0 w0

theorem av_load {s : Slice} {i : Nat} {K : Cell F → CProg F} (g : ∀ x, Av (K x)) : Av (loadC s i K) := by
  unfold loadC
  split
  · exact fun h => g _
  · trivial

theorem av_loadE {s : Slice} {i : Nat} {K : F → CProg F} (g : ∀ x, Av (K x)) : Av (loadE s i K) := av_load fun _ => g _

theorem av_loadS {s : Slice} {i : Nat} {K : Slice → CProg F} (g : ∀ x, Av (K x)) : Av (loadS s i K) := av_load fun _ => g _

theorem av_store {s : Slice} {i : Nat} {v : Cell F} {K : CProg F} (g : Av K) : Av (storeC s i v K) := by
  unfold storeC
  split
  · exact fun _ => g
  · trivial

theorem av_make {z : Cell F} {n : Nat} {K : Slice → CProg F} (g : ∀ s, Av (K s)) : Av (makeC z n K) := fun _ => g _

theorem av_makeE {n : Nat} {K : Slice → CProg F} (g : ∀ s, Av (K s)) : Av (makeE n K) := av_make g

theorem av_makeS {n : Nat} {K : Slice → CProg F} (g : ∀ s, Av (K s)) : Av (makeS n K) := av_make g

theorem av_liftGo {α : Type} {x : Go α} {K : α → CProg F} (g : ∀ a, Av (K a)) : Av (liftGo x K) := by
  cases x with
  | ok a => exact g a
  | error e => trivial

theorem av_loop {σ : Type} {body : Nat → σ → (σ → CProg F) → CProg F} {K : σ → CProg F}
    (hb : ∀ i s P, (∀ s', Av (P s')) → Av (body i s P)) (g : ∀ s, Av (K s)) :
    ∀ (n j : Nat) (s : σ), Av (loopP body K j n s)
  | 0, _, s => g s
  | n + 1, j, s => hb j s _ fun s' => av_loop hb g n (j + 1) s'

theorem av_each {α : Type} {body : α → CProg F → CProg F} {K : CProg F} (hb : ∀ x P, Av P → Av (body x P)) (g : Av K) :
    ∀ xs, Av (eachP body K xs)
  | [] => g
  | x :: xs => hb x _ (av_each hb g xs)

theorem av_acquire {c : Nat} {K : CProg F} (hc : c0 ≤ c) (g : Av K) : Av (acquireP c K) := ⟨hc, fun _ => g⟩

theorem av_send {c : Nat} {v : MsgH F} {K : CProg F} (hc : c0 ≤ c) (g : Av K) : Av (.send c v K) := ⟨hc, g⟩

theorem av_close {c : Nat} {K : CProg F} (hc : c0 ≤ c) (g : Av K) : Av (closeSemP c K) := ⟨hc, g⟩

theorem av_go {P K : CProg F} (l : Av P) (g : Av K) : Av (.go P K) := ⟨l, g⟩

theorem av_wait {w : Nat} {K : CProg F} (hw : w0 ≤ w) (g : Av K) : Av (.wgWait w K) := ⟨hw, g⟩

theorem av_semaphore {nCore : Int} {K : Nat → CProg F} (g : ∀ c, c0 ≤ c → Av (K c)) : Av (newSemaphoreP .tok nCore K) := by
  unfold newSemaphoreP
  split
  · trivial
  · exact fun c hc => av_loop (fun _ _ _ hP => av_send hc (hP _)) (fun _ => g c hc) _ _ _

theorem av_end {sem wg : Nat} (h1 : c0 ≤ sem) (h2 : w0 ≤ wg) : Av (jobEndC (F := F) sem wg) := by
  simp only [jobEndC, releaseP, Avoids, h1, h2, and_self]

theorem av_evaluate (l : Layer F) (inputs : Slice) (nCore : Int) {K : Slice → CProg F} (g : ∀ s, Av (K s)) :
    Av (l.evaluateC inputs nCore K) := by
  unfold Layer.evaluateC
  refine av_make fun res => av_semaphore fun sem hs wg hw => av_loop (fun i _ P hP => av_go (av_acquire hs ?_) (hP _))
    (fun _ => av_wait hw <| av_close hs <| g res) _ _ _
  refine av_loadS fun inps => av_make fun subRes => av_each (fun w P hP => ?_) (av_store (av_end hs hw)) _
  exact av_loop (fun _ _ _ hP => av_loadE fun _ => av_loadE fun _ => av_loadE fun _ => av_store (hP _)) (fun _ => hP) _ _ _

theorem av_assign (c : Circuit F) (inputs : Slice) (nCore : Int) {K : Slice → CProg F} (g : ∀ s, Av (K s)) :
    Av (c.assignC inputs nCore K) := by
  unfold Circuit.assignC
  exact av_make fun _ => av_store <| av_loop (fun _ _ _ hP => av_liftGo fun _ => av_loadS fun _ => av_evaluate _ _ _ fun _ =>
    av_store (hP _)) (fun _ => g _) _ _ _

theorem av_copy {dst src : Slice} {K : CProg F} (g : Av K) : Av (copyC dst src K) :=
  av_loop (fun _ _ _ hP => av_load fun _ => av_store (hP _)) (fun _ => g) _ _ _

theorem av_layerAsBKTWithCopy (values : Slice) (layer : Nat) (nCore : Int) {K : Slice → CProg F} (g : ∀ s, Av (K s)) :
    Av (layerAsBKTWithCopyC values layer nCore K) := by
  unfold layerAsBKTWithCopyC
  refine av_loadS fun v => av_make fun res => fun wg hw => av_semaphore fun sem hs => av_loop (fun i _ P hP => ?_)
    (fun _ => av_wait hw <| av_close hs <| g res) _ _ _
  refine av_loadS fun tab => av_go (av_acquire hs ?_) (hP _)
  exact av_make fun d => av_store <| av_loadS fun d => av_copy (av_end hs hw)

theorem av_resize {bkt : Slice} {size : Nat} {K : CProg F} (g : Av K) : Av (resizeC bkt size K) := by
  have h : Av (loadS bkt 0 fun t => liftGo (t.sub 0 size) fun d => storeC bkt 0 (.hdr d) K) :=
    av_loadS fun _ => av_liftGo fun _ => av_store g
  unfold resizeC
  refine av_loadS fun t => ?_
  split
  · exact av_make fun _ => av_store h
  · exact h

theorem av_chunkLoop {write : Nat → CProg F → CProg F} {chunks : List ChunkRange} {sem wg : Nat} {K : CProg F} (h1 : c0 ≤ sem) (h2 : w0 ≤ wg)
    (hw : ∀ i P, Av P → Av (write i P)) (g : Av K) : Av (chunkLoopC write chunks sem wg K) := by
  unfold chunkLoopC
  refine av_loop (fun i _ P hP => av_liftGo fun c => av_acquire h1 <| av_go ?_ (hP _)) (fun _ => av_wait h2 g) _ _ _
  exact av_loop (fun _ _ _ hP => hw _ _ (hP _)) (fun _ => av_end h1 h2) _ _ _

theorem av_sub (bkt left right : Slice) (nCore : Int) {K : CProg F} (g : Av K) : Av (subC bkt left right nCore K) := by
  refine av_liftGo fun _ => av_semaphore fun sem hs => fun wg hw => ?_
  split
  · trivial
  · exact av_resize <| av_chunkLoop hs hw (fun _ _ hP => av_loadS fun _ => av_loadE fun _ => av_loadE fun _ => av_store hP) g

theorem av_mul (bkt : Slice) (lambda : F) (x : Slice) (nCore : Int) {K : CProg F} (g : Av K) : Av (mulC bkt lambda x nCore K) :=
  av_liftGo fun _ => av_semaphore fun _ hs => fun _ hw => av_resize <| av_chunkLoop hs hw (fun _ _ hP => av_loadS fun _ => av_loadE fun _ =>
    av_store hP) g

theorem av_fold {bkt : Slice} {r : F} {K : Slice → CProg F} (g : ∀ s, Av (K s)) : Av (foldC bkt r K) :=
  av_liftGo fun _ => av_liftGo fun _ => av_loop (fun _ _ _ hP => av_loadE fun _ => av_loadE fun _ => av_store <| av_loadE fun _ =>
    av_store <| av_loadE fun _ => av_loadE fun _ => av_store (hP _)) (fun _ => av_liftGo g) _ _ _

theorem av_linearCombination {a b : Slice} {x y : F} {K : Slice → CProg F} (g : ∀ s, Av (K s)) : Av (linearCombinationC a b x y K) :=
  av_loop (fun _ _ _ hP => av_loadE fun _ => av_store <| av_loadE fun _ => av_store <| av_loadE fun _ => av_loadE fun _ =>
    av_store (hP _)) (fun _ => g _) _ _ _

theorem av_foldedEq {q : List F} {K : Slice → CProg F} (g : ∀ s, Av (K s)) : Av (getFoldedEqTableC q K) :=
  av_makeE fun _ => av_store <| av_loop (fun _ _ _ hP => av_liftGo fun _ => av_loop (fun _ _ _ hP => av_loadE fun _ => av_store <|
    av_loadE fun _ => av_loadE fun _ => av_store (hP _)) (fun _ => hP _) _ _ _) (fun _ => g _) _ _ _

theorem av_chunkedEq {q : List F} {n : Nat} {nCore : Int} {K : Slice → CProg F} (g : ∀ s, Av (K s)) :
    Av (getChunkedEqTableC q n nCore K) :=
  av_makeS fun _ => av_liftGo fun _ => av_foldedEq fun _ => av_store <| av_liftGo fun _ => av_loop (fun _ _ _ hP => av_liftGo fun _ =>
    av_loop (fun _ _ _ hP => av_liftGo fun _ => av_loadS fun _ => av_mul _ _ _ _ <| av_liftGo fun _ => av_loadS fun _ => av_loadS fun _ =>
      av_sub _ _ _ _ (hP _)) (fun _ => hP _) _ _ _) (fun _ => g _) _ _ _

theorem av_foldAll {K : Slice → CProg F} (g : ∀ s, Av (K s)) : ∀ (q : List F) (bkt : Slice), Av (foldAllC q bkt K)
  | [], _ => g _
  | _ :: q, _ => av_fold fun _ => av_foldAll g q _

theorem av_rawStatic {l : Layer F} {gate : Gate F} {K : Slice → CProg F} (g : ∀ s, Av (K s)) : Av (rawStaticTableC l gate K) := by
  refine av_makeE fun _ => av_each (fun w P hP => ?_) (g _) _
  split
  · exact av_loadE fun _ => av_store hP
  · exact hP

theorem av_static {l : Layer F} {q : List F} {K : Slice → CProg F} (g : ∀ s, Av (K s)) : Av (getStaticTableC l q K) :=
  av_makeS fun _ => av_loop (fun _ _ _ hP => av_liftGo fun _ => av_rawStatic fun _ => av_foldAll (fun _ => av_store (hP _)) _ _)
    (fun _ => g _) _ _ _

theorem av_initial (p : GkrProverC F) (qPrime q : List F) (nCore : Int) {K : Layer F → RoundTables → CProg F} (g : ∀ l t, Av (K l t)) :
    Av (p.initialTables qPrime q nCore K) :=
  av_liftGo fun _ => av_static fun _ => av_layerAsBKTWithCopy _ _ _ fun _ => av_layerAsBKTWithCopy _ _ _ fun _ => av_chunkedEq fun _ => g _ _

theorem av_intermediate (p : GkrProverC F) (layer : Nat) (qPrime qL qR : List F) (x y : F) (nCore : Int) {K : Layer F → RoundTables → CProg F}
    (g : ∀ l t, Av (K l t)) : Av (p.intermediateTables layer qPrime qL qR x y nCore K) :=
  av_layerAsBKTWithCopy _ _ _ fun _ => av_layerAsBKTWithCopy _ _ _ fun _ => av_chunkedEq fun _ => av_liftGo fun _ => av_static fun _ =>
    av_static fun _ => av_makeS fun _ => av_loop (fun _ _ _ hP => av_loadS fun _ => av_loadS fun _ => av_linearCombination fun _ =>
      av_store (hP _)) (fun _ => g _ _) _ _ _

theorem av_readHdrs {s : Slice} {K : List Slice → CProg F} (g : ∀ l, Av (K l)) : Av (readHdrsC s K) :=
  av_loop (fun _ _ _ hP => av_loadS fun _ => hP _) g _ _ _

theorem av_thenProver {T : CProg F} {K : MProverH F → CProg F} (hT : Av T) (g : ∀ p, Av (K p)) : Av (thenProverC T K) := by
  refine Avoids.andThen (fun r => ?_) hT
  split
  · exact av_readHdrs fun _ => av_readHdrs fun _ => av_readHdrs fun _ => av_readHdrs fun _ => g _
  · trivial

/-- Any number of channels and wait groups may exist when `Prove` starts. -/
theorem ren_overCells_prove (c0 w0 : Nat) (H : List F → F) (p : MProverH F) (nCore : Int) :
    Ren c0 w0 0 0 (p.proveP H nCore).overCells (p.proveP H nCore).overCells := (ren_prove H p nCore).overCells

theorem av_prove {H : List F → F} {p : MProverH F} {nCore : Int} {K : SumcheckOut F → CProg F} (g : ∀ o, Av (K o)) :
    Av (p.proveC H nCore K) := by
  refine Avoids.andThen (fun r => ?_) (ren_overCells_prove c0 w0 H p nCore).avoids
  split
  · exact g _
  · trivial

theorem av_proveLayers (H : List F → F) (p : GkrProverC F) (nCore : Int) :
    ∀ (k : Nat) (out : SumcheckOut F) {K : List (SumcheckOut F) → CProg F}, (∀ l, Av (K l)) → Av (p.proveLayersC H nCore k out K)
  | 0, _, _, g => g _
  | k + 1, _, _, g => av_liftGo fun _ => av_liftGo fun _ => av_thenProver (av_intermediate p _ _ _ _ _ _ _ fun _ _ => trivial) fun _ =>
    av_prove fun _ => av_proveLayers H p nCore k _ fun _ => g _

theorem av_gkr (H : List F → F) (p : GkrProverC F) (nCore : Int) : Av (p.proveC H nCore) := by
  refine av_liftGo fun _ => av_thenProver (av_initial p _ _ _ fun _ _ => trivial) fun _ => av_prove fun _ => av_proveLayers _ _ _ _ _ fun _ => ?_
  exact av_liftGo fun _ => av_liftGo fun _ => trivial

/-! ### Labels -/

theorem Spec.Labelled.andThen {V : Type} {K : V → Prog (Heap (Cell F)) V} (hK : ∀ r, Labelled (K r)) {P : Prog (Heap (Cell F)) V} (l : Labelled P) :
    Labelled (P.andThen K) := by
  induction P with
  | ret r => exact hK r
  | crash e => trivial
  | make cap k ih => exact fun n => ih n (l n)
  | send c v k ih => exact ih l
  | recv c k ih => exact fun v => ih v (l v)
  | close c k ih => exact ih l
  | go p k ihp ih => exact ⟨l.1, ih l.2⟩
  | wgNew n k ih => exact fun n => ih n (l n)
  | wgDone w k ih => exact ih l
  | wgWait w k ih => exact ih l
  | act f k ih => exact l
  | mem a f k ih =>
    cases a with
    | read a i => exact ⟨l.1, fun h h' e => congrArg _ (l.2.1 h h' e), fun h => ih _ (l.2.2 h)⟩
    | write a i => exact ⟨l.1, fun h h' => congrArg _ (l.2.1 h h'), fun h => ih _ (l.2.2 h)⟩
    | alloc => exact ⟨l.1, fun h h' e => congrArg _ (l.2.1 h h' e), fun h => ih _ (l.2.2 h)⟩

theorem labC_readHdrs {s : Slice} {K : List Slice → CProg F} (g : ∀ l, Labelled (K l)) : Labelled (readHdrsC s K) :=
  labC_loop (fun _ _ _ hP => labC_loadS fun _ => hP _) g _ _ _

theorem labC_thenProver {T : CProg F} {K : MProverH F → CProg F} (hT : Labelled T) (g : ∀ p, Labelled (K p)) : Labelled (thenProverC T K) := by
  refine Labelled.andThen (fun r => ?_) hT
  split
  · exact labC_readHdrs fun _ => labC_readHdrs fun _ => labC_readHdrs fun _ => labC_readHdrs fun _ => g _
  · trivial

theorem labC_prove {H : List F → F} {p : MProverH F} {nCore : Int} {K : SumcheckOut F → CProg F} (g : ∀ o, Labelled (K o)) :
    Labelled (p.proveC H nCore K) := by
  refine Labelled.andThen (fun r => ?_) (lab_prove H p nCore).overCells
  split
  · exact g _
  · trivial

theorem labC_proveLayers (H : List F → F) (p : GkrProverC F) (nCore : Int) :
    ∀ (k : Nat) (out : SumcheckOut F) {K : List (SumcheckOut F) → CProg F}, (∀ l, Labelled (K l)) → Labelled (p.proveLayersC H nCore k out K)
  | 0, _, _, g => g _
  | k + 1, _, _, g => labC_liftGo fun _ => labC_liftGo fun _ => labC_thenProver (labC_intermediate p _ _ _ _ _ _ _ fun _ _ => trivial) fun _ =>
    labC_prove fun _ => labC_proveLayers H p nCore k _ fun _ => g _

theorem labC_gkr (H : List F → F) (p : GkrProverC F) (nCore : Int) : Labelled (p.proveC H nCore) := by
  refine labC_liftGo fun _ => labC_thenProver (labC_initial p _ _ _ fun _ _ => trivial) fun _ => labC_prove fun _ =>
    labC_proveLayers _ _ _ _ _ fun _ => ?_
  exact labC_liftGo fun _ => labC_liftGo fun _ => trivial

theorem labC_newProver {c : Circuit F} {values : Slice} {K : GkrProverC F → CProg F} (g : ∀ p, Labelled (K p)) :
    Labelled (newGkrProverC c values K) := by
  refine labC_loadS fun _ => labC_loadS fun _ => labC_loadS fun _ => labC_liftGo fun _ => ?_
  simp only
  split
  · trivial
  · exact g _

theorem labC_assignProve (H : List F → F) (c : Circuit F) (inputs : Slice) (nCore : Int) : Labelled (assignProveC H c inputs nCore) := by
  refine Spec.Labelled.andThen (fun r => ?_) (labC_assign c inputs nCore fun _ => trivial)
  split
  · exact labC_newProver fun _ => labC_gkr _ _ _
  · trivial

end GkrMimc
