import Verif.Proofs.Crash
import Verif.Proofs.ConcPools
import Verif.Proofs.ConcClaim

/-! Panics of the worker pools. -/

namespace GkrMimc

open Spec Finset

variable {M V : Type} {E : Abort → Prop} {S : V → Prop}

theorem upto_start {p q : Prog M V} (h : Upto E S p q) (m : M) (unit : V) : UptoConf E S (startOf p m unit) (startOf q m unit) :=
  ⟨rfl, rfl, rfl, rfl, rfl, rfl, rfl, upto_update (fun _ => .ret _) 0 h, fun _ x hx => by cases hx⟩

theorem upto_loop_rel {σ σ' : Type} (R : σ → σ' → Prop) {body : Nat → σ → (σ → Prog M V) → Prog M V}
    {body' : Nat → σ' → (σ' → Prog M V) → Prog M V} {k : σ → Prog M V} {k' : σ' → Prog M V} (hk : ∀ s s', R s s' → Upto E S (k s) (k' s')) :
    ∀ (n j : Nat), (∀ i, j ≤ i → i < j + n → ∀ s s' next next', R s s' → (∀ s s', R s s' → Upto E S (next s) (next' s')) →
      Upto E S (body i s next) (body' i s' next')) → ∀ s s', R s s' → Upto E S (loopP body k j n s) (loopP body' k' j n s')
  | 0, _, _, s, s', hs => hk s s' hs
  | n + 1, j, h, s, s', hs => h j le_rfl (by omega) s s' _ _ hs fun s s' hs =>
    upto_loop_rel R hk n (j + 1) (fun i h1 h2 => h i (by omega) (by omega)) s s' hs

theorem upto_loop {σ : Type} {body body' : Nat → σ → (σ → Prog M V) → Prog M V} {k k' : σ → Prog M V} (hk : ∀ s, Upto E S (k s) (k' s))
    (n j : Nat) (h : ∀ i, j ≤ i → i < j + n → ∀ s next next', (∀ s, Upto E S (next s) (next' s)) → Upto E S (body i s next) (body' i s next'))
    (s : σ) : Upto E S (loopP body k j n s) (loopP body' k' j n s) :=
  upto_loop_rel Eq (fun s s' hs => hs ▸ hk s) n j
    (fun i h1 h2 s s' next next' hs hn => hs ▸ h i h1 h2 s next next' fun s => hn s s rfl) s s rfl

theorem upto_semaphore {tok : V} (ht : S tok) (n : Int) {k k' : Nat → Prog M V} (h : ∀ c, Upto E S (k c) (k' c)) :
    Upto E S (newSemaphoreP tok n k) (newSemaphoreP tok n k') := by
  unfold newSemaphoreP
  split_ifs
  · exact .both _
  · exact .make _ fun c => upto_loop (fun _ => h c) _ _ (fun _ _ _ _ _ _ h => .send _ _ ht (h _)) _

theorem upto_liftGo {α : Type} (x : Go α) {k : α → Prog M V} {q : Prog M V} (he : ∀ e, x = .error e → E e)
    (hk : ∀ a, x = .ok a → Upto E S (k a) q) : Upto E S (liftGo x k) q := by
  cases x with
  | error e => exact .crash e (he e rfl) q
  | ok a => exact hk a rfl

/-- A result, or anything. -/
def goOr {α : Type} (d : α) : Go α → α
  | .ok a => a
  | .error _ => d

theorem mapGo_error {α β : Type} {f : α → Go β} : ∀ {xs : List α} {e : Abort}, mapGo f xs = .error e → ∃ i, ∃ hi : i < xs.length, ∃ e, f xs[i] = .error e
  | [], _, h => by simp [mapGo] at h
  | x :: xs, e, h => by
    simp only [mapGo] at h
    cases hx : f x with
    | error e' => exact ⟨0, by simp, e', hx⟩
    | ok y =>
      rw [hx] at h
      cases hr : mapGo f xs with
      | error e' =>
        obtain ⟨i, hi, e'', he⟩ := mapGo_error hr
        exact ⟨i + 1, by simpa using hi, e'', by simpa using he⟩
      | ok ys => simp only [hr] at h; cases h

variable {F : Type} [Field F] [DecidableEq F]

/-- The pool of `Layer.Evaluate` with given results. -/
theorem evaluatePool_good (outs res0 : List (List F)) {nCore : Int} (hn : 1 ≤ nCore) (h0 : res0.length = outs.length) :
    ∃ bound, GoodRun 0 nCore.toNat (fun s => s.mem = outs) bound (startOf (newSemaphoreP (V := Msg F) .tok nCore fun sem =>
      .wgNew outs.length fun wg => poolLoop .tok true sem wg outs.length (fun i => [fun res => res.set i (outs.getD i [])]) 0) res0 .tok) := by
  rw [start_eq]
  obtain ⟨N, rfl⟩ := Int.eq_ofNat_of_zero_le (show 0 ≤ nCore by omega)
  refine goodRun_semaphore_ex _ _ _ _ _ _ _ _ (goodRun_cons_ex (soloConf_solo _ _ _ _ _ _ _) (soloConf_wgNew _ _ _ _ _ _ _ _) ?_)
  refine ⟨_, goodRun_post (pool_good (V := Msg F) (tok := .tok) (inside := true) (sem := 0) (wg := 0) (n := outs.length) (N := N)
      (acts := fun i => [fun (res : List (List F)) => res.set i (outs.getD i [])]) (m0 := res0)
      (fun w w' hw => set_comm_jobs (fun i => [outs.getD i []]) w w' hw) (by omega)
      _ _ _ _ (by simp) (by simp)) ?_⟩
  · rintro s ⟨_, hs⟩
    rw [hs]
    apply runJobs_set_all _ _ _ (by omega)
    intro i hi m _
    simp [runActs, hi]

theorem evaluateP_upto (l : Layer F) (inputs : List (List F)) (nCore : Int) (d : Nat → List F) :
    Upto (fun e => ∃ x ∈ inputs, evaluateChunk l x = .error e) (fun _ => True) (l.evaluateP inputs nCore) (newSemaphoreP (V := Msg F) .tok nCore fun sem =>
      .wgNew (tab inputs.length fun i => goOr (d i) (evaluateChunk l (inputs.getD i []))).length fun wg =>
        poolLoop .tok true sem wg (tab inputs.length fun i => goOr (d i) (evaluateChunk l (inputs.getD i []))).length
          (fun i => [fun res => res.set i ((tab inputs.length fun i => goOr (d i) (evaluateChunk l (inputs.getD i []))).getD i [])]) 0) := by
  unfold Layer.evaluateP
  refine upto_semaphore trivial _ fun sem => ?_
  rw [tab_length]
  refine .wgNew _ fun wg => ?_
  unfold poolLoop
  refine upto_loop (fun _ => .same (fun _ => trivial) _) _ _ ?_ _
  intro i _ hi _ next next' hnext
  have hi : i < inputs.length := by omega
  simp only [poolBody, if_true, actsP, List.foldr]
  refine .go (.recv _ fun _ _ => ?_) (hnext _)
  rw [idx_ok hi]
  change Upto _ _ (liftGo (evaluateChunk l inputs[i]) _) _
  refine upto_liftGo _ (fun e he => ⟨_, List.getElem_mem hi, he⟩) fun a ha => ?_
  have : (tab inputs.length fun i => goOr (d i) (evaluateChunk l (inputs.getD i []))).getD i [] = a := by
    rw [List.getD_eq_getElem _ _ (by simpa using hi), tab_get, List.getD_eq_getElem _ _ hi, ha]
    rfl
  rw [this]
  exact .same (fun _ => trivial) _

theorem evaluateP_crashes {l : Layer F} {inputs res0 : List (List F)} {nCore : Int} (hn : 1 ≤ nCore) {e : Abort}
    (h : mapGo (evaluateChunk l) inputs = .error e) (h0 : res0.length = inputs.length) :
    ∃ bound, Crashes (fun e => ∃ x ∈ inputs, evaluateChunk l x = .error e) bound (startOf (l.evaluateP inputs nCore) res0 .tok) := by
  obtain ⟨i, hi, e', he⟩ := mapGo_error h
  obtain ⟨B, g₁⟩ := evaluatePool_good (tab inputs.length fun i => goOr [] (evaluateChunk l (inputs.getD i []))) res0 hn (by simpa using h0)
  obtain ⟨B', g₂⟩ := evaluatePool_good (tab inputs.length fun i => goOr [0] (evaluateChunk l (inputs.getD i []))) res0 hn (by simpa using h0)
  refine ⟨_, crashes_of_two (upto_start (evaluateP_upto l inputs nCore fun _ => []) res0 .tok)
    (upto_start (evaluateP_upto l inputs nCore fun _ => [0]) res0 .tok) g₁ g₂ ?_⟩
  intro u v w huv huw hv hw _
  have h1 := hv.symm.trans (huv.mem.trans (huw.mem.symm.trans hw))
  have h2 := congrArg (fun t => t.getD i []) h1
  rw [List.getD_eq_getElem _ _ (by simpa using hi), List.getD_eq_getElem _ _ (by simpa using hi), tab_get, tab_get,
    List.getD_eq_getElem _ _ hi, he] at h2
  simp [goOr] at h2

/-- `GetClaim` with given claims of the chunks. -/
def claimP (n : Nat) (x : Nat → F) (nCore : Int) : Prog Unit (Msg F) :=
  .make n fun c0 =>
  newSemaphoreP .tok nCore fun c1 =>
  loopP (fun i _ next => .go (acquireP c1 <| .send c0 (.elem (x i)) <| releaseP c1 .tok <| .ret .tok) (next ()))
    (fun _ => loopP (fun _ res next => recvElem c0 fun x => next (x + res)) (fun res => .ret (.elem res)) 0 n (0 : F)) 0 n ()

theorem claimP_good (n : Nat) (x : Nat → F) {nCore : Int} (hn : 1 ≤ nCore) :
    ∃ bound, GoodRun 1 nCore.toNat (fun s => s.gs 0 = .ret (.elem (∑ i ∈ range n, x i))) bound (startOf (claimP n x nCore) () .tok) := by
  rw [start_eq]
  obtain ⟨N, rfl⟩ := Int.eq_ofNat_of_zero_le (show 0 ≤ nCore by omega)
  unfold claimP
  refine goodRun_cons_ex (soloConf_solo _ _ _ _ _ _ _) (soloConf_make _ _ _ _ _ _ _ _) (goodRun_semaphore_ex _ _ _ _ _ _ _ _ ?_)
  have e : ∀ c0 c1, c0 = 0 → c1 = 1 → loopP (fun i (_ : Unit) next => .go (acquireP c1 <| .send c0 (.elem (x i)) <| releaseP c1 .tok <| .ret .tok) (next ()))
    (fun _ => loopP (fun _ res next => recvElem c0 fun x => next (x + res)) (fun res => .ret (.elem res)) 0 n (0 : F)) 0 n () = claimLaunch n x 0 := by
    rintro _ _ rfl rfl; rfl
  rw [e _ _ rfl rfl]
  refine ⟨claimLeft n 0 (fun _ => 0) [], goodRun_of_inv
    (fun μ s => ∃ j t C Q, claimLeft n j t C = μ ∧ ClaimInv n N x j t C Q s) ?_ ?_ ?_⟩
  · rintro μ s s' ⟨j, t, C, Q, rfl, h⟩ hs
    obtain ⟨j', t', C', Q', h1, h2⟩ := h.step hs
    exact ⟨_, h1, j', t', C', Q', rfl, h2⟩
  · rintro μ s ⟨j, t, C, Q, _, h⟩
    exact h.good (by omega)
  · exact ⟨0, _, [], [], rfl, claim_start _ _ _ _ _ _ _ (by simp) (by simp)⟩

theorem getClaimP_upto (p : MProver F) (nCore : Int) (d : Nat → F) :
    Upto (fun e => ∃ i < p.eq.length, (p.subProver i >>= SProver.getClaim) = .error e) (fun _ => True) (p.getClaimP nCore)
      (claimP p.eq.length (fun i => goOr (d i) (p.subProver i >>= SProver.getClaim)) nCore) := by
  unfold MProver.getClaimP claimP
  refine .make _ fun c0 => upto_semaphore trivial _ fun c1 => upto_loop (fun _ => .same (fun _ => trivial) _) _ _ ?_ _
  intro i _ hi _ next next' hnext
  refine .go (.recv _ fun _ _ => ?_) (hnext _)
  refine upto_liftGo _ (fun e he => ⟨i, by omega, by rw [he]; rfl⟩) fun sp h1 => ?_
  refine upto_liftGo _ (fun e he => ⟨i, by omega, by rw [h1]; exact he⟩) fun a h2 => ?_
  have : (p.subProver i >>= SProver.getClaim) = .ok a := by rw [h1]; exact h2
  dsimp only
  rw [this]
  exact .same (fun _ => trivial) _

theorem getClaimP_crashes {p : MProver F} {nCore : Int} (hn : 1 ≤ nCore) {i : Nat} (hi : i < p.eq.length) {e : Abort}
    (h : (p.subProver i >>= SProver.getClaim) = .error e) :
    ∃ bound, Crashes (fun e => ∃ i < p.eq.length, (p.subProver i >>= SProver.getClaim) = .error e) bound
      (startOf (p.getClaimP nCore) () .tok) := by
  obtain ⟨B, g₁⟩ := claimP_good p.eq.length (fun i => goOr 0 (p.subProver i >>= SProver.getClaim)) hn
  obtain ⟨B', g₂⟩ := claimP_good p.eq.length (fun j => goOr (if j = i then 1 else 0) (p.subProver j >>= SProver.getClaim)) hn
  refine ⟨_, crashes_of_two (upto_start (getClaimP_upto p nCore fun _ => 0) () .tok)
    (upto_start (getClaimP_upto p nCore fun j => if j = i then 1 else 0) () .tok) g₁ g₂ ?_⟩
  rintro u v w huv huw hv hw ⟨r, hr⟩
  have h1 := huv.gs 0
  have h2 := huw.gs 0
  rw [hv, hr] at h1
  rw [hw, hr] at h2
  cases h1
  generalize hx : (∑ i ∈ range p.eq.length, goOr 0 (p.subProver i >>= SProver.getClaim) : F) = x at h2
  generalize hy : (∑ j ∈ range p.eq.length, goOr (if j = i then 1 else 0) (p.subProver j >>= SProver.getClaim) : F) = y at h2
  cases h2
  rw [← hy, ← sub_eq_zero, ← Finset.sum_sub_distrib, Finset.sum_eq_single i] at hx
  · rw [h] at hx; simp [goOr] at hx
  · intro j _ hj
    simp [hj]
  · intro hi'
    exact absurd (Finset.mem_range.2 hi) hi'

end GkrMimc
