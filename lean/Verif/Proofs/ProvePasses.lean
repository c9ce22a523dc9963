import Verif.Proofs.Shift
import Verif.Proofs.Tails
import Verif.Model.ConcGkrProve

/-! `Prove` over memory does not depend on the numbers of its channels, and its goroutines are quiet after their last message. -/

namespace GkrMimc

open Spec

set_option linter.unusedSectionVars false

variable {F : Type} [Field F] [DecidableEq F]

local notation "HP" => Prog (Heap F) (MsgH F)

/-! ### Numbers of channels -/

section
variable {c0 w0 n m : Nat}

theorem ren_load {s : Slice} {i : Nat} {K K' : F → HP} (g : ∀ x, Ren c0 w0 n m (K x) (K' x)) :
    Ren c0 w0 n m (loadP s i K) (loadP s i K') := by
  unfold loadP
  split
  · exact ⟨_, rfl, fun h => g _⟩
  · rfl

theorem ren_store {s : Slice} {i : Nat} {v : F} {K K' : HP} (g : Ren c0 w0 n m K K') :
    Ren c0 w0 n m (storeP s i v K) (storeP s i v K') := by
  unfold storeP
  split
  · exact ⟨_, rfl, fun h => g⟩
  · rfl

theorem ren_make {l : Nat} {K K' : Slice → HP} (g : ∀ s, Ren c0 w0 n m (K s) (K' s)) : Ren c0 w0 n m (makeP l K) (makeP l K') :=
  ⟨_, rfl, fun _ => g _⟩

theorem ren_liftGo {α : Type} {x : Go α} {K K' : α → HP} (g : ∀ a, Ren c0 w0 n m (K a) (K' a)) :
    Ren c0 w0 n m (liftGo x K) (liftGo x K') := by
  cases x with
  | ok a => exact g a
  | error e => rfl

/-- A loop whose state may contain channels. -/
theorem ren_loopR {n : Nat} {σ σ' : Type} (R : Nat → σ → σ' → Prop) {body : Nat → σ → (σ → HP) → HP} {body' : Nat → σ' → (σ' → HP) → HP}
    {K : σ → HP} {K' : σ' → HP}
    (hb : ∀ n i s s' P P', R n s s' → (∀ n' s s', n ≤ n' → R n' s s' → Ren c0 w0 n' m (P s) (P' s')) →
      Ren c0 w0 n m (body i s P) (body' i s' P'))
    (g : ∀ n' s s', n ≤ n' → R n' s s' → Ren c0 w0 n' m (K s) (K' s')) :
    ∀ (l j : Nat) (s : σ) (s' : σ'), R n s s' → Ren c0 w0 n m (loopP body K j l s) (loopP body' K' j l s') := by
  intro l
  induction l generalizing n with
  | zero => exact fun _ s s' r => g n s s' le_rfl r
  | succ l ih =>
    exact fun j s s' r => hb n j s s' _ _ r fun n' s s' hn r => ih (n := n') (fun n'' s s' h r => g n'' s s' (le_trans hn h) r) (j + 1) s s' r

theorem ren_loop {σ : Type} {body body' : Nat → σ → (σ → HP) → HP} {K K' : σ → HP} {l j : Nat} {s : σ}
    (hb : ∀ i s P P', (∀ s, Ren c0 w0 n m (P s) (P' s)) → Ren c0 w0 n m (body i s P) (body' i s P'))
    (g : ∀ s, Ren c0 w0 n m (K s) (K' s)) : Ren c0 w0 n m (loopP body K j l s) (loopP body' K' j l s) := by
  induction l generalizing j s with
  | zero => exact g s
  | succ l ih => exact hb j s _ _ fun _ => ih

theorem ren_map {α β : Type} {f : α → (β → HP) → HP} {xs : List α} {K K' : List β → HP}
    (hf : ∀ x P P', (∀ y, Ren c0 w0 n m (P y) (P' y)) → Ren c0 w0 n m (f x P) (f x P'))
    (g : ∀ ys, Ren c0 w0 n m (K ys) (K' ys)) : Ren c0 w0 n m (mapP f xs K) (mapP f xs K') := by
  induction xs generalizing K K' with
  | nil => exact g []
  | cons x xs ih => exact hf x _ _ fun _ => ih fun _ => g _

theorem ren_read {s : Slice} {K K' : List F → HP} (g : ∀ l, Ren c0 w0 n m (K l) (K' l)) : Ren c0 w0 n m (readP s K) (readP s K') :=
  ren_loop (fun _ _ _ _ hP => ren_load fun _ => hP _) g

theorem ren_newSlice {l : List F} {K K' : Slice → HP} (g : ∀ s, Ren c0 w0 n m (K s) (K' s)) :
    Ren c0 w0 n m (newSliceP l K) (newSliceP l K') :=
  ren_make fun _ => ren_loop (fun _ _ _ _ hP => ren_store (hP _)) (fun _ => g _)

theorem ren_deepCopy (s : Slice) (K K' : Slice → HP) (g : ∀ s, Ren c0 w0 n m (K s) (K' s)) :
    Ren c0 w0 n m (deepCopyP s K) (deepCopyP s K') :=
  ren_make fun _ => ren_loop (fun _ _ _ _ hP => ren_load fun _ => ren_store (hP _)) (fun _ => g _)

theorem ren_fold {s : Slice} {r : F} {K K' : Slice → HP} (g : ∀ s, Ren c0 w0 n m (K s) (K' s)) :
    Ren c0 w0 n m (foldP s r K) (foldP s r K') :=
  ren_liftGo fun _ => ren_liftGo fun _ => ren_loop (fun _ _ _ _ hP => ren_load fun _ => ren_load fun _ => ren_store <| ren_load fun _ =>
    ren_store <| ren_load fun _ => ren_load fun _ => ren_store (hP _)) (fun _ => ren_liftGo g)

theorem ren_readW {w : SProverH F} {K K' : SProver F → HP} (g : ∀ sp, Ren c0 w0 n m (K sp) (K' sp)) :
    Ren c0 w0 n m (w.readP K) (w.readP K') :=
  ren_read fun _ => ren_read fun _ => ren_read fun _ => ren_map (fun _ _ _ => ren_read) fun _ => g _

/-- A fold does not use channels. -/
def RenFold (c0 w0 n m : Nat) (foldX : SProverH F → F → (SProverH F → HP) → HP) : Prop :=
  ∀ w r K K', (∀ w', Ren c0 w0 n m (K w') (K' w')) → Ren c0 w0 n m (foldX w r K) (foldX w r K')

theorem ren_foldHL : RenFold (F := F) c0 w0 n m SProverH.foldHLP :=
  fun _ _ _ _ g => ren_map (fun _ _ _ => ren_fold) fun _ => ren_fold fun _ => g _

theorem ren_foldHR : RenFold (F := F) c0 w0 n m SProverH.foldHRP :=
  fun _ _ _ _ g => ren_map (fun _ _ _ => ren_fold) fun _ => ren_fold fun _ => g _

theorem ren_foldHPrime : RenFold (F := F) c0 w0 n m SProverH.foldHPrimeP :=
  fun _ _ _ _ g => ren_fold fun _ => ren_fold fun _ => ren_fold fun _ => g _

theorem ren_recvElem {c : Nat} {K K' : F → HP} (hc : c < n) (g : ∀ x, Ren c0 w0 n m (K x) (K' x)) :
    Ren c0 w0 n m (recvElemH c K) (recvElemH (c + c0) K') := by
  refine ⟨_, rfl, hc, fun v => ?_⟩
  rcases v with _ | v
  · exact g 0
  · cases v <;> exact g _

theorem ren_recvSlice {c : Nat} {K K' : Slice → HP} (hc : c < n) (g : ∀ x, Ren c0 w0 n m (K x) (K' x)) :
    Ren c0 w0 n m (recvSliceH c K) (recvSliceH (c + c0) K') := by
  refine ⟨_, rfl, hc, fun v => ?_⟩
  rcases v with _ | v
  · exact g _
  · cases v <;> exact g _

theorem ren_recvProver {c : Nat} {K K' : Nat → SProverH F → HP} (hc : c < n) (g : ∀ i x, Ren c0 w0 n m (K i x) (K' i x)) :
    Ren c0 w0 n m (recvProverH c K) (recvProverH (c + c0) K') := by
  refine ⟨_, rfl, hc, fun v => ?_⟩
  rcases v with _ | v
  · exact g _ _
  · cases v <;> exact g _ _

theorem ren_subProver {p : MProverH F} {i : Nat} {K K' : SProverH F → HP} (g : ∀ w, Ren c0 w0 n m (K w) (K' w)) :
    Ren c0 w0 n m (p.subProverP i K) (p.subProverP i K') :=
  ren_map ren_deepCopy fun _ => ren_liftGo fun _ => ren_liftGo fun _ => ren_liftGo fun _ => g _

theorem ren_acquire {c : Nat} {K K' : HP} (hc : c < n) (g : Ren c0 w0 n m K K') :
    Ren c0 w0 n m (acquireP c K) (acquireP (c + c0) K') := ⟨_, rfl, hc, fun _ => g⟩

theorem ren_send {c : Nat} {v : MsgH F} {K K' : HP} (hc : c < n) (g : Ren c0 w0 n m K K') :
    Ren c0 w0 n m (.send c v K) (.send (c + c0) v K') := ⟨_, rfl, hc, g⟩

theorem ren_release {c : Nat} {K K' : HP} (hc : c < n) (g : Ren c0 w0 n m K K') :
    Ren c0 w0 n m (releaseP c .tok K) (releaseP (c + c0) .tok K') := ⟨_, rfl, hc, g⟩

theorem ren_close {c : Nat} {K K' : HP} (hc : c < n) (g : Ren c0 w0 n m K K') :
    Ren c0 w0 n m (.close c K) (.close (c + c0) K') := ⟨_, rfl, hc, g⟩

theorem ren_turns {evals : SProver F → Go (List F)} {foldX} (lf : RenFold c0 w0 n m foldX) {ec rc sem l : Nat} {w : SProverH F}
    {K K' : SProverH F → HP} (h1 : ec < n) (h2 : rc < n) (h3 : sem < n) (g : ∀ w, Ren c0 w0 n m (K w) (K' w)) :
    Ren c0 w0 n m (loopP (fun _ => workerTurnH evals foldX ec rc sem) K 0 l w)
      (loopP (fun _ => workerTurnH evals foldX (ec + c0) (rc + c0) (sem + c0)) K' 0 l w) := by
  refine ren_loop (fun i w P P' hP => ?_) g
  refine ren_readW fun sp => ren_liftGo fun e => ren_newSlice fun s => ?_
  exact ren_send h1 <| ren_release h3 <| ren_recvElem h2 fun r => ren_acquire h3 <| lf _ _ _ _ hP

theorem ren_runForChunk (p : MProverH F) {i ec rc fc sem : Nat} (h1 : ec < n) (h2 : rc < n) (h3 : fc < n) (h4 : sem < n) :
    Ren c0 w0 n m (p.runForChunkP i ec rc fc sem) (p.runForChunkP i (ec + c0) (rc + c0) (fc + c0) (sem + c0)) := by
  refine ren_acquire h4 <| ren_subProver fun w => ren_liftGo fun g => ?_
  refine ren_turns ren_foldHL h1 h2 h4 fun _ => ren_turns ren_foldHR h1 h2 h4 fun _ => ren_turns ren_foldHPrime h1 h2 h4 fun _ => ?_
  exact ren_send h3 <| ren_release h4 <| ren_close h2 rfl

theorem ren_newSem {x : Int} {K K' : Nat → HP} (g : ∀ c, Ren c0 w0 (max n (c + 1)) m (K c) (K' (c + c0))) :
    Ren c0 w0 n m (newSemaphoreP .tok x K) (newSemaphoreP .tok x K') := by
  unfold newSemaphoreP
  split
  · rfl
  · refine ⟨_, rfl, fun c => ren_loop (fun _ _ _ _ hP => ?_) fun _ => g _⟩
    exact ren_send (by omega) (hP ())

theorem ren_accumulate {ch l : Nat} {K K' : Slice → HP} (hc : ch < n) (g : ∀ s, Ren c0 w0 n m (K s) (K' s)) :
    Ren c0 w0 n m (consumeAccumulateH ch l K) (consumeAccumulateH (ch + c0) l K') := by
  refine ren_recvSlice hc fun res => ren_loop (fun _ _ _ _ hP => ?_) (fun _ => g _)
  refine ren_recvSlice hc fun tmp => ren_loop (fun _ _ _ _ hQ => ?_) (fun _ => hP _)
  exact ren_load fun _ => ren_load fun _ => ren_store (hQ _)

theorem ren_mergeMsg {i : Nat} {w : SProverH F} {a b c : Slice} {K K' : HP} (g : Ren c0 w0 n m K K') :
    Ren c0 w0 n m (mergeMsgP i w a b c K) (mergeMsgP i w a b c K') :=
  ren_load fun _ => ren_store <| ren_load fun _ => ren_store <| ren_load fun _ => ren_store g

theorem ren_merge {ch l : Nat} {K K' : SProverH F → HP} (hc : ch < n) (g : ∀ s, Ren c0 w0 n m (K s) (K' s)) :
    Ren c0 w0 n m (consumeMergeProversPH ch l K) (consumeMergeProversPH (ch + c0) l K') := by
  refine ren_make fun _ => ren_make fun _ => ren_make fun _ => ren_recvProver hc fun _ _ => ren_mergeMsg ?_
  refine ren_loop (fun _ _ _ _ hP => ?_) (fun _ => g _)
  exact ren_recvProver hc fun _ _ => ren_mergeMsg (hP _)

theorem ren_broadcast {chs : List Nat} {r : F} {K K' : HP} (hc : ∀ c ∈ chs, c < n) (g : Ren c0 w0 n m K K') :
    Ren c0 w0 n m (broadcastH chs r K) (broadcastH (chs.map (· + c0)) r K') := by
  unfold broadcastH
  rw [List.length_map]
  refine ⟨_, rfl, fun wg => ?_⟩
  refine ren_loop (fun i _ P P' hP => ?_) (fun _ => ⟨_, rfl, by omega, g.mono le_rfl (le_max_left _ _)⟩)
  unfold idx
  rw [List.getElem?_map]
  cases e : chs[i]? with
  | none => rfl
  | some c =>
    exact ⟨_, _, rfl, ren_send (hc c (List.mem_of_getElem? e)) ⟨_, rfl, by omega, rfl⟩, hP _⟩

theorem ren_finalClaims {w : SProverH F} {K K' : List F → HP} (g : ∀ l, Ren c0 w0 n m (K l) (K' l)) :
    Ren c0 w0 n m (w.finalClaimsP K) (w.finalClaimsP K') :=
  ren_load fun _ => ren_load fun _ => ren_load fun _ => ren_map (fun _ _ _ => ren_load) fun _ => g _

theorem ren_prove (H : List F → F) (p : MProverH F) (nCore : Int) : Ren c0 w0 n m (p.proveP H nCore) (p.proveP H nCore) := by
  refine ren_liftGo fun e0 => ren_liftGo fun l0 => ren_liftGo fun g => ?_
  refine ⟨_, rfl, fun ec => ⟨_, rfl, fun fc => ren_newSem fun sem => ?_⟩⟩
  refine ren_loopR (fun n' chs chs' => (ec < n' ∧ fc < n' ∧ sem < n') ∧ chs' = chs.map (· + c0) ∧ ∀ c ∈ chs, c < n') ?_ ?_ _ _ _ _
    ⟨⟨by omega, by omega, by omega⟩, rfl, by simp⟩
  · rintro n i chs _ P P' ⟨⟨h1, h2, h3⟩, rfl, h4⟩ hP
    refine ⟨_, rfl, fun rc => ⟨_, _, rfl, ren_runForChunk p (by omega) (by omega) (by omega) (by omega),
      hP _ _ _ (le_max_left _ _) ⟨⟨by omega, by omega, by omega⟩, by simp, ?_⟩⟩⟩
    intro c hc
    rcases List.mem_append.1 hc with hc | hc
    · have := h4 c hc; omega
    · obtain rfl := List.mem_singleton.1 hc; omega
  · rintro n' chs _ - ⟨⟨h1, h2, h3⟩, rfl, h4⟩
    refine ren_loop (fun _ _ _ _ hP => ?_) (fun s => ?_)
    · exact ren_accumulate h1 fun _ => ren_read fun _ => ren_liftGo fun _ => ren_broadcast h4 (hP _)
    refine ren_merge h2 fun w => ren_loop (fun _ _ _ _ hP => ?_) (fun t => ?_)
    · exact ren_readW fun _ => ren_liftGo fun _ => ren_liftGo fun _ => ren_foldHPrime _ _ _ _ fun _ => hP _
    · exact ren_finalClaims fun _ => ren_close h1 <| ren_close h2 rfl

end

/-! ### The last messages -/

section
variable {f n : Nat}

theorem fin_load {s : Slice} {i : Nat} {K : F → HP} (g : ∀ x, Fin f (K x)) : Fin f (loadP s i K) := by
  unfold loadP
  split
  · exact fun h => g _
  · trivial

theorem fin_store {s : Slice} {i : Nat} {v : F} {K : HP} (g : Fin f K) : Fin f (storeP s i v K) := by
  unfold storeP
  split
  · exact fun h => g
  · trivial

theorem fin_make {l : Nat} {K : Slice → HP} (g : ∀ s, Fin f (K s)) : Fin f (makeP l K) := fun _ => g _

theorem fin_liftGo {α : Type} {x : Go α} {K : α → HP} (g : ∀ a, Fin f (K a)) : Fin f (liftGo x K) := by
  cases x with
  | ok a => exact g a
  | error e => trivial

theorem fin_loop {σ : Type} {body : Nat → σ → (σ → HP) → HP} {K : σ → HP}
    (hb : ∀ i s P, (∀ s, Fin f (P s)) → Fin f (body i s P)) (g : ∀ s, Fin f (K s)) :
    ∀ (l j : Nat) (s : σ), Fin f (loopP body K j l s)
  | 0, _, s => g s
  | l + 1, j, s => hb j s _ fun s => fin_loop hb g l (j + 1) s

theorem fin_map {α β : Type} {t : α → (β → HP) → HP} (hf : ∀ x P, (∀ y, Fin f (P y)) → Fin f (t x P)) :
    ∀ {xs : List α} {K : List β → HP}, (∀ ys, Fin f (K ys)) → Fin f (mapP t xs K)
  | [], _, g => g []
  | x :: _, _, g => hf x _ fun _ => fin_map hf fun _ => g _

theorem fin_read {s : Slice} {K : List F → HP} (g : ∀ l, Fin f (K l)) : Fin f (readP s K) :=
  fin_loop (fun _ _ _ hP => fin_load fun _ => hP _) g _ _ _

theorem fin_newSlice {l : List F} {K : Slice → HP} (g : ∀ s, Fin f (K s)) : Fin f (newSliceP l K) :=
  fin_make fun _ => fin_loop (fun _ _ _ hP => fin_store (hP _)) (fun _ => g _) _ _ _

theorem fin_deepCopy (s : Slice) (K : Slice → HP) (g : ∀ s, Fin f (K s)) : Fin f (deepCopyP s K) :=
  fin_make fun _ => fin_loop (fun _ _ _ hP => fin_load fun _ => fin_store (hP _)) (fun _ => g _) _ _ _

theorem fin_fold {s : Slice} {r : F} {K : Slice → HP} (g : ∀ s, Fin f (K s)) : Fin f (foldP s r K) :=
  fin_liftGo fun _ => fin_liftGo fun _ => fin_loop (fun _ _ _ hP => fin_load fun _ => fin_load fun _ => fin_store <| fin_load fun _ =>
    fin_store <| fin_load fun _ => fin_load fun _ => fin_store (hP _)) (fun _ => fin_liftGo g) _ _ _

theorem fin_readW {w : SProverH F} {K : SProver F → HP} (g : ∀ sp, Fin f (K sp)) : Fin f (w.readP K) :=
  fin_read fun _ => fin_read fun _ => fin_read fun _ => fin_map (fun _ _ => fin_read) fun _ => g _

theorem fin_foldHL (w : SProverH F) (r : F) (K : SProverH F → HP) (g : ∀ w, Fin f (K w)) : Fin f (w.foldHLP r K) :=
  fin_map (fun _ _ => fin_fold) fun _ => fin_fold fun _ => g _

theorem fin_foldHR (w : SProverH F) (r : F) (K : SProverH F → HP) (g : ∀ w, Fin f (K w)) : Fin f (w.foldHRP r K) :=
  fin_map (fun _ _ => fin_fold) fun _ => fin_fold fun _ => g _

theorem fin_foldHPrime (w : SProverH F) (r : F) (K : SProverH F → HP) (g : ∀ w, Fin f (K w)) : Fin f (w.foldHPrimeP r K) :=
  fin_fold fun _ => fin_fold fun _ => fin_fold fun _ => g _

theorem fin_recvElem {c : Nat} {K : F → HP} (g : ∀ x, Fin f (K x)) : Fin f (recvElemH c K) := by
  intro v
  rcases v with _ | v
  · exact g 0
  · cases v <;> exact g _

theorem fin_subProver {p : MProverH F} {i : Nat} {K : SProverH F → HP} (g : ∀ w, Fin f (K w)) : Fin f (p.subProverP i K) :=
  fin_map fin_deepCopy fun _ => fin_liftGo fun _ => fin_liftGo fun _ => fin_liftGo fun _ => g _

theorem fin_acquire {c : Nat} {K : HP} (g : Fin f K) : Fin f (acquireP c K) := fun _ => g

theorem fin_turns {evals : SProver F → Go (List F)} {foldX} (lf : ∀ w r K, (∀ w, Fin f (K w)) → Fin f (foldX w r K)) {ec rc sem l : Nat}
    {w : SProverH F} {K : SProverH F → HP} (h1 : ec ≠ f) (h3 : sem ≠ f) (g : ∀ w, Fin f (K w)) :
    Fin f (loopP (fun _ => workerTurnH evals foldX ec rc sem) K 0 l w) := by
  refine fin_loop (fun i w P hP => ?_) g _ _ _
  refine fin_readW fun sp => fin_liftGo fun e => fin_newSlice fun s => .inr ⟨h1, .inr ⟨h3, ?_⟩⟩
  exact fin_recvElem fun r => fin_acquire <| lf _ _ _ hP

theorem fin_runForChunk (p : MProverH F) {i ec rc fc sem : Nat} (h1 : ec ≠ fc) (h3 : sem ≠ fc) :
    Fin fc (p.runForChunkP i ec rc fc sem) := by
  refine fin_acquire <| fin_subProver fun w => fin_liftGo fun g => ?_
  refine fin_turns fin_foldHL h1 h3 fun _ => fin_turns fin_foldHR h1 h3 fun _ => fin_turns fin_foldHPrime h1 h3 fun _ => ?_
  exact .inl ⟨rfl, trivial⟩

theorem starts_load {s : Slice} {i : Nat} {K : F → HP} (g : ∀ x, Starts f n (K x)) : Starts f n (loadP s i K) := by
  unfold loadP
  split
  · exact fun h => g _
  · trivial

theorem starts_store {s : Slice} {i : Nat} {v : F} {K : HP} (g : Starts f n K) : Starts f n (storeP s i v K) := by
  unfold storeP
  split
  · exact fun h => g
  · trivial

theorem starts_make {l : Nat} {K : Slice → HP} (g : ∀ s, Starts f n (K s)) : Starts f n (makeP l K) := fun _ => g _

theorem starts_liftGo {α : Type} {x : Go α} {K : α → HP} (g : ∀ a, Starts f n (K a)) : Starts f n (liftGo x K) := by
  cases x with
  | ok a => exact g a
  | error e => trivial

theorem starts_loop {σ : Type} {body : Nat → σ → (σ → HP) → HP} {K : σ → HP}
    (hb : ∀ i s P, (∀ s, Starts f n (P s)) → Starts f n (body i s P)) (g : ∀ s, Starts f n (K s)) :
    ∀ (l j : Nat) (s : σ), Starts f n (loopP body K j l s)
  | 0, _, s => g s
  | l + 1, j, s => hb j s _ fun s => starts_loop hb g l (j + 1) s

theorem starts_map {α β : Type} {t : α → (β → HP) → HP} (hf : ∀ x P, (∀ y, Starts f n (P y)) → Starts f n (t x P)) :
    ∀ {xs : List α} {K : List β → HP}, (∀ ys, Starts f n (K ys)) → Starts f n (mapP t xs K)
  | [], _, g => g []
  | x :: _, _, g => hf x _ fun _ => starts_map hf fun _ => g _

theorem starts_read {s : Slice} {K : List F → HP} (g : ∀ l, Starts f n (K l)) : Starts f n (readP s K) :=
  starts_loop (fun _ _ _ hP => starts_load fun _ => hP _) g _ _ _

theorem starts_fold {s : Slice} {r : F} {K : Slice → HP} (g : ∀ s, Starts f n (K s)) : Starts f n (foldP s r K) :=
  starts_liftGo fun _ => starts_liftGo fun _ => starts_loop (fun _ _ _ hP => starts_load fun _ => starts_load fun _ => starts_store <|
    starts_load fun _ => starts_store <| starts_load fun _ => starts_load fun _ => starts_store (hP _)) (fun _ => starts_liftGo g) _ _ _

theorem starts_readW {w : SProverH F} {K : SProver F → HP} (g : ∀ sp, Starts f n (K sp)) : Starts f n (w.readP K) :=
  starts_read fun _ => starts_read fun _ => starts_read fun _ => starts_map (fun _ _ => starts_read) fun _ => g _

theorem starts_foldHPrime (w : SProverH F) (r : F) (K : SProverH F → HP) (g : ∀ w, Starts f n (K w)) : Starts f n (w.foldHPrimeP r K) :=
  starts_fold fun _ => starts_fold fun _ => starts_fold fun _ => g _

theorem starts_recvSlice {c : Nat} {K : Slice → HP} (g : ∀ x, Starts f n (K x)) : Starts f n (recvSliceH c K) := by
  intro v
  rcases v with _ | v
  · exact g _
  · cases v <;> exact g _

theorem starts_recvProver {c : Nat} {K : Nat → SProverH F → HP} (g : ∀ i x, Starts f n (K i x)) : Starts f n (recvProverH c K) := by
  intro v
  rcases v with _ | v
  · exact g _ _
  · cases v <;> exact g _ _

theorem starts_accumulate {ch l : Nat} {K : Slice → HP} (g : ∀ s, Starts f n (K s)) : Starts f n (consumeAccumulateH ch l K) := by
  refine starts_recvSlice fun res => starts_loop (fun _ _ _ hP => ?_) (fun _ => g _) _ _ _
  refine starts_recvSlice fun tmp => starts_loop (fun _ _ _ hQ => ?_) (fun _ => hP _) _ _ _
  exact starts_load fun _ => starts_load fun _ => starts_store (hQ _)

theorem starts_mergeMsg {i : Nat} {w : SProverH F} {a b c : Slice} {K : HP} (g : Starts f n K) : Starts f n (mergeMsgP i w a b c K) :=
  starts_load fun _ => starts_store <| starts_load fun _ => starts_store <| starts_load fun _ => starts_store g

theorem starts_merge {ch l : Nat} {K : SProverH F → HP} (g : ∀ s, Starts f n (K s)) : Starts f n (consumeMergeProversPH ch l K) := by
  refine starts_make fun _ => starts_make fun _ => starts_make fun _ => starts_recvProver fun _ _ => starts_mergeMsg ?_
  refine starts_loop (fun _ _ _ hP => ?_) (fun _ => g _) _ _ _
  exact starts_recvProver fun _ _ => starts_mergeMsg (hP _)

theorem starts_broadcast {chs : List Nat} {r : F} {K : HP} (g : Starts f n K) : Starts f n (broadcastH chs r K) := by
  intro wg
  refine starts_loop (fun _ _ _ hP => ?_) (fun _ => (show Starts f n (Prog.wgWait wg K) from g)) _ _ _
  exact starts_liftGo fun _ => ⟨.inr trivial, hP _⟩

theorem starts_finalClaims {w : SProverH F} {K : List F → HP} (g : ∀ l, Starts f n (K l)) : Starts f n (w.finalClaimsP K) :=
  starts_load fun _ => starts_load fun _ => starts_load fun _ => starts_map (fun _ _ => starts_load) fun _ => g _

theorem starts_launch {p : MProverH F} {K : List Nat → HP} (g : ∀ n chs, Starts 1 n (K chs)) :
    ∀ (l j n : Nat) (chs : List Nat), Starts 1 n
      (loopP (fun i chs next => .make 1 fun rChan => .go (p.runForChunkP i 0 rChan 1 2) (next (chs ++ [rChan]))) K j l chs)
  | 0, _, _, _ => g _ _
  | l + 1, j, n, _ => ⟨.inl (fin_runForChunk p (by decide) (by decide)), starts_launch g l (j + 1) (n + 1) _⟩

theorem starts_prove (H : List F → F) (p : MProverH F) (nCore : Int) : Starts 1 0 (p.proveP H nCore) := by
  refine starts_liftGo fun e0 => starts_liftGo fun l0 => starts_liftGo fun g => ?_
  show Starts 1 2 _
  unfold newSemaphoreP
  split
  · trivial
  · show Starts 1 3 _
    refine starts_loop (F := F) (σ := Unit) (fun _ _ P hP => (show Starts 1 3 (Prog.send 2 MsgH.tok (P ())) from hP ())) (fun _ => ?_) _ _ _
    refine starts_launch (p := p) (fun n chs => ?_) _ _ _ _
    refine starts_loop (fun _ _ _ hP => ?_) (fun s => ?_) _ _ _
    · exact starts_accumulate fun _ => starts_read fun _ => starts_liftGo fun _ => starts_broadcast (hP _)
    refine starts_merge fun w => starts_loop (fun _ _ _ hP => ?_) (fun t => ?_) _ _ _
    · exact starts_readW fun _ => starts_liftGo fun _ => starts_liftGo fun _ => starts_foldHPrime _ _ _ fun _ => hP _
    · exact starts_finalClaims fun _ => trivial

end

end GkrMimc
