import Verif.Spec.Race
import Verif.Model.ConcHeap
import Verif.Proofs.Heap

/-! The labels of the memory operations of `Prove` and `GetClaim` say what the operations do. -/

namespace GkrMimc

open Spec

set_option linter.unusedSectionVars false

variable {F : Type} [Field F] [DecidableEq F]

theorem lab_load {s : Slice} {i : Nat} {K : F → Prog (Heap F) (MsgH F)} (g : ∀ x, Labelled (K x)) : Labelled (loadP s i K) := by
  unfold loadP
  split
  · exact ⟨fun _ => rfl, fun h h' e => by simp only [Heap.get, e], fun h => g _⟩
  · trivial

theorem lab_store {s : Slice} {i : Nat} {v : F} {K : Prog (Heap F) (MsgH F)} (g : Labelled K) : Labelled (storeP s i v K) := by
  unfold storeP
  split
  · refine ⟨⟨v, fun h => Heap.ext' ?_ rfl rfl⟩, fun _ _ => rfl, fun _ => g⟩
    intro b j
    rw [put_cells]
  · trivial

theorem lab_make {n : Nat} {K : Slice → Prog (Heap F) (MsgH F)} (g : ∀ s, Labelled (K s)) : Labelled (makeP n K) := by
  refine ⟨fun h => ⟨rfl, fun b hb => Function.update_of_ne hb _ _⟩, fun h h' e => ?_, fun h => g _⟩
  simp only [Heap.make, Heap.alloc, e]

theorem lab_liftGo {α : Type} {x : Go α} {K : α → Prog (Heap F) (MsgH F)} (g : ∀ a, Labelled (K a)) : Labelled (liftGo x K) := by
  cases x with
  | ok a => exact g a
  | error e => trivial

theorem lab_loop {σ : Type} {body : Nat → σ → (σ → Prog (Heap F) (MsgH F)) → Prog (Heap F) (MsgH F)}
    {K : σ → Prog (Heap F) (MsgH F)}
    (hb : ∀ i s P, (∀ s', Labelled (P s')) → Labelled (body i s P)) (g : ∀ s, Labelled (K s)) :
    ∀ (n j : Nat) (s : σ), Labelled (loopP body K j n s)
  | 0, _, s => g s
  | n + 1, j, s => hb j s _ fun s' => lab_loop hb g n (j + 1) s'

theorem lab_map {α β : Type} {f : α → (β → Prog (Heap F) (MsgH F)) → Prog (Heap F) (MsgH F)}
    (hf : ∀ x P, (∀ y, Labelled (P y)) → Labelled (f x P)) :
    ∀ {xs : List α} {K : List β → Prog (Heap F) (MsgH F)}, (∀ ys, Labelled (K ys)) → Labelled (mapP f xs K)
  | [], _, g => g []
  | x :: _, _, g => hf x _ fun _ => lab_map hf fun _ => g _

theorem lab_read {s : Slice} {K : List F → Prog (Heap F) (MsgH F)} (g : ∀ l, Labelled (K l)) : Labelled (readP s K) :=
  lab_loop (fun _ _ _ hP => lab_load fun _ => hP _) g _ _ _

theorem lab_newSlice {l : List F} {K : Slice → Prog (Heap F) (MsgH F)} (g : ∀ s, Labelled (K s)) : Labelled (newSliceP l K) :=
  lab_make fun _ => lab_loop (fun _ _ _ hP => lab_store (hP _)) (fun _ => g _) _ _ _

theorem lab_deepCopy (s : Slice) (K : Slice → Prog (Heap F) (MsgH F)) (g : ∀ s, Labelled (K s)) : Labelled (deepCopyP s K) :=
  lab_make fun _ => lab_loop (fun _ _ _ hP => lab_load fun _ => lab_store (hP _)) (fun _ => g _) _ _ _

theorem lab_fold {s : Slice} {r : F} {K : Slice → Prog (Heap F) (MsgH F)} (g : ∀ s, Labelled (K s)) : Labelled (foldP s r K) :=
  lab_liftGo fun _ => lab_liftGo fun _ => lab_loop (fun _ _ _ hP => lab_load fun _ => lab_load fun _ => lab_store <| lab_load fun _ =>
    lab_store <| lab_load fun _ => lab_load fun _ => lab_store (hP _)) (fun _ => lab_liftGo g) _ _ _

theorem lab_readW {w : SProverH F} {K : SProver F → Prog (Heap F) (MsgH F)} (g : ∀ sp, Labelled (K sp)) : Labelled (w.readP K) :=
  lab_read fun _ => lab_read fun _ => lab_read fun _ => lab_map (fun _ _ => lab_read) fun _ => g _

/-- A fold keeps labels right. -/
def LabFold (foldX : SProverH F → F → (SProverH F → Prog (Heap F) (MsgH F)) → Prog (Heap F) (MsgH F)) : Prop :=
  ∀ w r K, (∀ w', Labelled (K w')) → Labelled (foldX w r K)

theorem lab_foldHL : LabFold (F := F) SProverH.foldHLP :=
  fun _ _ _ g => lab_map (fun _ _ => lab_fold) fun _ => lab_fold fun _ => g _

theorem lab_foldHR : LabFold (F := F) SProverH.foldHRP :=
  fun _ _ _ g => lab_map (fun _ _ => lab_fold) fun _ => lab_fold fun _ => g _

theorem lab_foldHPrime : LabFold (F := F) SProverH.foldHPrimeP :=
  fun _ _ _ g => lab_fold fun _ => lab_fold fun _ => lab_fold fun _ => g _

theorem lab_recvElem {c : Nat} {K : F → Prog (Heap F) (MsgH F)} (g : ∀ x, Labelled (K x)) : Labelled (recvElemH c K) := by
  intro v
  rcases v with _ | v
  · exact g 0
  · cases v <;> exact g _

theorem lab_recvSlice {c : Nat} {K : Slice → Prog (Heap F) (MsgH F)} (g : ∀ x, Labelled (K x)) : Labelled (recvSliceH c K) := by
  intro v
  rcases v with _ | v
  · exact g _
  · cases v <;> exact g _

theorem lab_recvProver {c : Nat} {K : Nat → SProverH F → Prog (Heap F) (MsgH F)} (g : ∀ i x, Labelled (K i x)) :
    Labelled (recvProverH c K) := by
  intro v
  rcases v with _ | v
  · exact g _ _
  · cases v <;> exact g _ _

theorem lab_subProver {p : MProverH F} {i : Nat} {K : SProverH F → Prog (Heap F) (MsgH F)} (g : ∀ w, Labelled (K w)) :
    Labelled (p.subProverP i K) :=
  lab_map lab_deepCopy fun _ => lab_liftGo fun _ => lab_liftGo fun _ => lab_liftGo fun _ => g _

theorem lab_send {c : Nat} {v : MsgH F} {K : Prog (Heap F) (MsgH F)} (g : Labelled K) : Labelled (.send c v K) := g

theorem lab_close {c : Nat} {K : Prog (Heap F) (MsgH F)} (g : Labelled K) : Labelled (.close c K) := g

theorem lab_go {P K : Prog (Heap F) (MsgH F)} (l : Labelled P) (g : Labelled K) : Labelled (.go P K) := ⟨l, g⟩

theorem lab_makeChan {c : Nat} {K : Nat → Prog (Heap F) (MsgH F)} (g : ∀ n, Labelled (K n)) : Labelled (.make c K) := g

theorem lab_wait {c : Nat} {K : Prog (Heap F) (MsgH F)} (g : Labelled K) : Labelled (.wgWait c K) := g

theorem lab_ret {v : MsgH F} : Labelled (.ret v : Prog (Heap F) (MsgH F)) := trivial

theorem lab_acquire {c : Nat} {K : Prog (Heap F) (MsgH F)} (g : Labelled K) : Labelled (acquireP c K) := fun _ => g

theorem lab_release {c : Nat} {K : Prog (Heap F) (MsgH F)} (g : Labelled K) : Labelled (releaseP c .tok K) := g

theorem lab_turns {evals : SProver F → Go (List F)} {foldX} (lf : LabFold foldX) {ec rc sem n : Nat} {w : SProverH F}
    {K : SProverH F → Prog (Heap F) (MsgH F)} (g : ∀ w, Labelled (K w)) :
    Labelled (loopP (fun _ => workerTurnH evals foldX ec rc sem) K 0 n w) := by
  refine lab_loop (fun i w P hP => ?_) g _ _ _
  refine lab_readW fun sp => lab_liftGo fun e => lab_newSlice fun s => ?_
  exact lab_send <| lab_release <| lab_recvElem fun r => lab_acquire <| lf _ _ _ hP

theorem lab_runForChunk (p : MProverH F) (i ec rc fc sem : Nat) : Labelled (p.runForChunkP i ec rc fc sem) := by
  refine lab_acquire <| lab_subProver fun w => lab_liftGo fun g => ?_
  refine lab_turns lab_foldHL fun _ => lab_turns lab_foldHR fun _ => lab_turns lab_foldHPrime fun _ => ?_
  exact lab_send <| lab_release <| lab_close lab_ret

theorem lab_newSem {n : Int} {K : Nat → Prog (Heap F) (MsgH F)} (g : ∀ c, Labelled (K c)) : Labelled (newSemaphoreP .tok n K) := by
  unfold newSemaphoreP
  split
  · trivial
  · refine lab_makeChan fun c => lab_loop (fun _ _ _ hP => ?_) (fun _ => g _) _ _ _
    exact lab_send (hP ())

theorem lab_accumulate {ch n : Nat} {K : Slice → Prog (Heap F) (MsgH F)} (g : ∀ s, Labelled (K s)) :
    Labelled (consumeAccumulateH ch n K) := by
  refine lab_recvSlice fun res => lab_loop (fun _ _ _ hP => ?_) (fun _ => g _) _ _ _
  refine lab_recvSlice fun tmp => lab_loop (fun _ _ _ hQ => ?_) (fun _ => hP _) _ _ _
  exact lab_load fun _ => lab_load fun _ => lab_store (hQ _)

theorem lab_mergeMsg {i : Nat} {w : SProverH F} {a b c : Slice} {K : Prog (Heap F) (MsgH F)} (g : Labelled K) :
    Labelled (mergeMsgP i w a b c K) :=
  lab_load fun _ => lab_store <| lab_load fun _ => lab_store <| lab_load fun _ => lab_store g

theorem lab_merge {ch n : Nat} {K : SProverH F → Prog (Heap F) (MsgH F)} (g : ∀ s, Labelled (K s)) :
    Labelled (consumeMergeProversPH ch n K) := by
  refine lab_make fun _ => lab_make fun _ => lab_make fun _ => lab_recvProver fun _ _ => lab_mergeMsg ?_
  refine lab_loop (fun _ _ _ hP => ?_) (fun _ => g _) _ _ _
  exact lab_recvProver fun _ _ => lab_mergeMsg (hP _)

theorem lab_broadcast {chs : List Nat} {r : F} {K : Prog (Heap F) (MsgH F)} (g : Labelled K) : Labelled (broadcastH chs r K) := by
  intro wg
  refine lab_loop (fun _ _ _ hP => ?_) (fun _ => lab_wait g) _ _ _
  exact lab_liftGo fun _ => lab_go trivial (hP _)

theorem lab_finalClaims {w : SProverH F} {K : List F → Prog (Heap F) (MsgH F)} (g : ∀ l, Labelled (K l)) :
    Labelled (w.finalClaimsP K) :=
  lab_load fun _ => lab_load fun _ => lab_load fun _ => lab_map (fun _ _ => lab_load) fun _ => g _

theorem lab_prove (H : List F → F) (p : MProverH F) (nCore : Int) : Labelled (p.proveP H nCore) := by
  refine lab_liftGo fun e0 => lab_liftGo fun l0 => lab_liftGo fun g => ?_
  refine lab_makeChan fun ec => lab_makeChan fun fc => lab_newSem fun sem => ?_
  refine lab_loop (fun _ _ _ hP => ?_) (fun rc => ?_) _ _ _
  · exact lab_makeChan fun _ => lab_go (lab_runForChunk _ _ _ _ _ _) (hP _)
  refine lab_loop (fun _ _ _ hP => ?_) (fun s => ?_) _ _ _
  · exact lab_accumulate fun _ => lab_read fun _ => lab_liftGo fun _ => lab_broadcast (hP _)
  refine lab_merge fun w => lab_loop (fun _ _ _ hP => ?_) (fun t => ?_) _ _ _
  · exact lab_readW fun _ => lab_liftGo fun _ => lab_liftGo fun _ => lab_foldHPrime _ _ _ fun _ => hP _
  · exact lab_finalClaims fun _ => lab_close <| lab_close lab_ret

theorem lab_getClaim (p : MProverH F) (nCore : Int) : Labelled (p.getClaimP nCore) := by
  refine lab_makeChan fun ec => lab_newSem fun sem => lab_loop (fun _ _ _ hP => ?_) (fun _ => ?_) _ _ _
  · refine lab_go (lab_acquire <| lab_subProver fun w => lab_readW fun sp => lab_liftGo fun x => ?_) (hP _)
    exact lab_send <| lab_release lab_ret
  · refine lab_loop (fun _ _ _ hP => ?_) (fun _ => lab_ret) _ _ _
    exact lab_recvElem fun _ => hP _

end GkrMimc
