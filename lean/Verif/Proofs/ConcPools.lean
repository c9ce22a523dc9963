import Verif.Model.ConcPool
import Verif.Proofs.ConcPool
import Verif.Proofs.Common
import Verif.Proofs.GoLemmas
import Verif.Proofs.SumcheckPar

/-! The pools of /repo as instances of the generic pool, and `GetClaim`. -/

set_option linter.unusedSectionVars false

namespace GkrMimc

open Spec Finset

variable {M V : Type}

theorem loopP_congr {σ : Type} {body body' : Nat → σ → (σ → Prog M V) → Prog M V} {k : σ → Prog M V} :
    ∀ (n j : Nat) (s : σ), (∀ i, j ≤ i → i < j + n → ∀ s next, body i s next = body' i s next) →
      loopP body k j n s = loopP body' k j n s
  | 0, _, _, _ => rfl
  | n + 1, j, s, h => by
    change body j s _ = body' j s _
    rw [h j le_rfl (by omega)]
    congr 1
    funext s'
    exact loopP_congr n (j + 1) s' (fun i h1 h2 => h i (by omega) (by omega))

/-- Nobody ever passes a semaphore without tokens. -/
theorem pool_deadlock {tok : V} {sem wg n : Nat} {acts : Nat → List (M → M)} {m0 : M} (hn : 0 < n)
    (hcomm : ∀ w w', w ≠ w' → ∀ f ∈ acts w, ∀ g ∈ acts w', ∀ m, f (g m) = g (f m))
    (chans : Nat → Chan V) (nC : Nat) (wgs : Nat → Nat) (nW : Nat)
    (hsem : chans sem = ⟨[], 0, false⟩) (hwg : wgs wg = n) :
    Deadlocks (poolLeft n acts (.launch 0) (fun _ => 0)) (soloConf tok (poolLoop tok true sem wg n acts 0) chans nC wgs nW m0) := by
  apply deadlocks_of_inv (fun μ s => ∃ ph t, poolLeft n acts ph t = μ ∧ PoolInv tok true sem wg 0 n acts m0 ph t s ∧
    ∀ w < n, t w = 0)
  · rintro μ s s' ⟨ph, t, rfl, h, ht⟩ hs
    have hr : ∃ i, exec s i = some s' := by
      obtain ⟨_, hr | hr⟩ := hs
      · exact hr
      · obtain ⟨i, j, c, v, k, k', _, hi, _⟩ := hr
        cases i with
        | zero => exact absurd hi h.no_send_main
        | succ w =>
          obtain ⟨hw, ht'⟩ := h.job_send hi
          have := ht w (lt_of_lt_of_le hw (launched_le h.valid))
          omega
    obtain ⟨i, hi⟩ := hr
    have hstep : ∃ ph' t', poolLeft n acts ph' t' < poolLeft n acts ph t ∧ PoolInv tok true sem wg 0 n acts m0 ph' t' s' := by
      cases i with
      | zero => exact h.main_exec hi
      | succ w =>
        obtain ⟨x, h1, h2⟩ := h.job_exec hcomm hi
        exact ⟨ph, _, h1, h2⟩
    obtain ⟨ph', t', h1, h2⟩ := hstep
    refine ⟨_, h1, ph', t', rfl, h2, ?_⟩
    -- a job that moved has a token, or moved from a state in which it held one
    cases i with
    | zero =>
      intro w hw
      by_contra hne
      -- the caller's steps only start jobs at 0: recompute
      have hheld := h2.tokens
      have hz : holding acts w (t' w) = 0 := by
        have h3 := Finset.single_le_sum (f := fun w => holding acts w (t' w)) (fun _ _ => Nat.zero_le _) (Finset.mem_range.2 hw)
        omega
      have hbig : (acts w).length + 2 ≤ t' w := by
        unfold holding at hz
        split_ifs at hz with hc
        have := Nat.pos_of_ne_zero hne
        omega
      have hsum : ∑ w ∈ range n, finished acts w (t' w) = 0 := by
        have hwg' : s'.wgs wg = s.wgs wg := by
          have hm := h.main
          cases ph with
          | launch j =>
            have hv : j ≤ n := h.valid
            simp only [poolMain] at hm
            rcases Nat.lt_or_ge j n with hj | hj
            · rw [poolLoop_lt hj] at hm
              simp only [poolBody, if_true] at hm
              simp only [exec, hm, Option.some.injEq] at hi
              subst hi; rfl
            · obtain rfl : j = n := by omega
              rw [poolLoop_end] at hm
              simp only [exec, hm] at hi
              split_ifs at hi
              simp only [Option.some.injEq] at hi
              subst hi; rfl
          | mid j => exact absurd h.valid.2 (by simp)
          | closing => have := h.ended (.inl rfl) 0 hn; have := ht 0 hn; omega
          | done => have := h.ended (.inr rfl) 0 hn; have := ht 0 hn; omega
        have h4 := h.count
        have h5 := h2.count
        have h6 : ∑ w ∈ range n, finished acts w (t w) = 0 := by
          apply Finset.sum_eq_zero
          intro i hi
          rw [ht i (Finset.mem_range.1 hi)]
          unfold finished
          rw [if_neg (by omega)]
        omega
      have hjob := h2.job w
      have hgs : s'.gs (w + 1) = s.gs (w + 1) ∨ s'.gs (w + 1) = jobAt tok sem wg acts w 0 := by
        have hm := h.main
        cases ph with
        | launch j =>
          have hv : j ≤ n := h.valid
          simp only [poolMain] at hm
          rcases Nat.lt_or_ge j n with hj | hj
          · rw [poolLoop_lt hj] at hm
            simp only [poolBody, if_true] at hm
            simp only [exec, hm, Option.some.injEq] at hi
            subst hi
            have hnG := h.nG
            simp only [launched] at hnG
            by_cases hwj : w = j
            · right
              subst hwj
              simp only [hnG, Function.update_self]
              rfl
            · left
              simp only [hnG]
              rw [Function.update_of_ne (by omega), Function.update_of_ne (by omega)]
          · obtain rfl : j = n := by omega
            rw [poolLoop_end] at hm
            simp only [exec, hm] at hi
            split_ifs at hi
            simp only [Option.some.injEq] at hi
            subst hi
            left
            simp [Conf.goOn]
        | mid j => exact absurd h.valid.2 (by simp)
        | closing => have := h.ended (.inl rfl) 0 hn; have := ht 0 hn; omega
        | done => have := h.ended (.inr rfl) 0 hn; have := ht 0 hn; omega
      have hl' : w < launched n ph' := by
        by_contra hc
        exact hne (h2.fresh w (by omega))
      rw [if_pos hl'] at hjob
      have hnf : t' w ≠ (acts w).length + 3 := by
        intro he
        have h3 := Finset.single_le_sum (f := fun w => finished acts w (t' w)) (fun _ _ => Nat.zero_le _) (Finset.mem_range.2 hw)
        simp only [finished, he, if_true] at h3
        unfold finished at hsum
        omega
      have hpos := h2.pos w
      have he2 : t' w = (acts w).length + 2 := by omega
      rw [he2, jobAt_done] at hjob
      have hold := h.job w
      rw [ht w hw] at hold
      rcases hgs with hgs | hgs
      · rw [hgs, hold] at hjob
        split_ifs at hjob <;> cases hjob
      · rw [hgs] at hjob; cases hjob
    | succ v =>
      exfalso
      have hj := h.job v
      by_cases hv : v < launched n ph
      · rw [if_pos hv, ht v (lt_of_lt_of_le hv (launched_le h.valid)), jobAt_acq] at hj
        have hb : (s.chans sem).buf = [] := by
          have := h.tokens
          exact List.length_eq_zero_iff.1 (by omega)
        have hc : (s.chans sem).closed = false := by
          apply h.not_closed
          rintro rfl
          have := h.ended (.inr rfl) 0 hn
          have := ht 0 hn
          omega
        simp [exec, hj, hb, hc] at hi
      · rw [if_neg hv] at hj
        simp [exec, hj] at hi
  · rintro μ s ⟨ph, t, _, h, ht⟩
    refine ⟨h.alive, ?_⟩
    rintro ⟨r, hr⟩
    have hm := h.main
    rw [hr] at hm
    cases ph with
    | launch j =>
      have hv : j ≤ n := h.valid
      simp only [poolMain] at hm
      rcases Nat.lt_or_ge j n with hj | hj
      · rw [poolLoop_lt hj] at hm
        cases hm
      · obtain rfl : j = n := by omega
        rw [poolLoop_end] at hm
        cases hm
    | mid j => cases hm
    | closing => cases hm
    | done => have := h.ended (.inr rfl) 0 hn; have := ht 0 hn; omega
  · refine ⟨.launch 0, fun _ => 0, rfl, ⟨rfl, Nat.zero_le _, ?_, ?_, rfl, ?_, fun _ _ => rfl, ?_, ?_, ?_, ?_, ?_, ?_, ?_⟩, fun _ _ => rfl⟩
    · simp [soloConf, poolMain]
    · intro w; simp [soloConf, launched]
    · intro w; simp
    · intro _ w hw; simp [launched] at hw
    · simp [soloConf, hsem]
    · simp [soloConf, hsem]
    · simp [soloConf, hsem, midToken, holding]
    · simp [soloConf, hwg, finished]
    · rintro (h | h) <;> cases h
    · simp only [Nat.zero_sub, List.take_zero, soloConf]
      have : ∀ k, runJobs (fun _ : Nat => ([] : List (M → M))) k m0 = m0 := by
        intro k
        induction k with
        | zero => rfl
        | succ k ih => simp only [runJobs]; rw [ih]; rfl
      exact (this n).symm

/-- Writing the cells of a slice, job `i` writing cell `i`. -/
theorem runJobs_set {α : Type} (acts : Nat → List (List α → List α)) (outs : List α) :
    ∀ (k : Nat) (m : List α), m.length = outs.length → k ≤ outs.length →
    (∀ i (hi : i < outs.length), ∀ m : List α, m.length = outs.length → runActs (acts i) m = m.set i outs[i]) →
    (runJobs acts k m).length = outs.length ∧ ∀ i (hi : i < k) (h : i < outs.length), (runJobs acts k m)[i]? = some outs[i]
  | 0, m, hm, _, _ => ⟨hm, fun i hi => by omega⟩
  | k + 1, m, hm, hk, h => by
    obtain ⟨h1, h2⟩ := runJobs_set acts outs k m hm (by omega) h
    simp only [runJobs]
    rw [h k (by omega) _ h1]
    refine ⟨by simpa using h1, ?_⟩
    intro i hi hl
    by_cases hik : i = k
    · subst hik
      rw [List.getElem?_set_self (by omega)]
    · rw [List.getElem?_set_ne (by omega)]
      exact h2 i (by omega) hl

theorem runJobs_set_all {α : Type} (acts : Nat → List (List α → List α)) (outs m : List α) (hm : m.length = outs.length)
    (h : ∀ i (hi : i < outs.length), ∀ m : List α, m.length = outs.length → runActs (acts i) m = m.set i outs[i]) :
    runJobs acts outs.length m = outs := by
  obtain ⟨h1, h2⟩ := runJobs_set acts outs outs.length m hm le_rfl h
  apply List.ext_getElem?
  intro i
  rcases Nat.lt_or_ge i outs.length with hi | hi
  · rw [h2 i hi hi, List.getElem?_eq_getElem hi]
  · rw [List.getElem?_eq_none (by omega), List.getElem?_eq_none hi]

theorem mapGo_ok_iff {α β : Type} {f : α → Go β} : ∀ {xs : List α} {ys : List β}, mapGo f xs = .ok ys →
    xs.length = ys.length ∧ ∀ i (hi : i < xs.length) (hi' : i < ys.length), f xs[i] = .ok ys[i]
  | [], ys, h => by
    simp only [mapGo, Except.ok.injEq] at h
    subst h
    exact ⟨rfl, fun i hi => by simp at hi⟩
  | x :: xs, ys, h => by
    simp only [mapGo] at h
    cases hx : f x with
    | error e => rw [hx] at h; cases h
    | ok y =>
      rw [hx] at h
      cases hr : mapGo f xs with
      | error e => simp only [hr] at h; cases h
      | ok ys' =>
        simp only [hr, Except.ok.injEq] at h
        subst h
        obtain ⟨h1, h2⟩ := mapGo_ok_iff hr
        refine ⟨by simp [h1], ?_⟩
        intro i hi hi'
        cases i with
        | zero => simpa using hx
        | succ i => simpa using h2 i (by simpa using hi) (by simpa using hi')

variable {F : Type} [Field F] [DecidableEq F]

theorem goodRun_cons_ex {sem nCore : Nat} {post : Conf M V → Prop} {s s1 : Conf M V} (h : Solo s)
    (h1 : exec s 0 = some s1) (hB : ∃ B, GoodRun sem nCore post B s1) : ∃ B, GoodRun sem nCore post B s :=
  hB.elim fun _ h2 => ⟨_, goodRun_cons h h1 h2⟩

theorem goodRun_semaphore_ex {sem nCore : Nat} {post : Conf M V → Prop} (tok : V) (N : Nat) (k : Nat → Prog M V)
    (chans : Nat → Chan V) (nC : Nat) (wgs : Nat → Nat) (nW : Nat) (m : M)
    (h : ∃ B, GoodRun sem nCore post B (soloConf tok (k nC) (Function.update chans nC ⟨List.replicate N tok, N, false⟩) (nC + 1) wgs nW m)) :
    ∃ B, GoodRun sem nCore post B (soloConf tok (newSemaphoreP tok N k) chans nC wgs nW m) :=
  h.elim fun _ h2 => ⟨_, goodRun_semaphore tok N k chans nC wgs nW m h2⟩

theorem goodRun_post {sem nCore B : Nat} {post post' : Conf M V → Prop} {s : Conf M V} (h : GoodRun sem nCore post B s)
    (hp : ∀ s, post s → post' s) : GoodRun sem nCore post' B s := by
  intro n s' hr
  obtain ⟨h1, h2⟩ := h n s' hr
  exact ⟨h1, h2.alive, h2.live, fun hr => hp _ (h2.result hr), h2.sends, h2.excl⟩

theorem semaphoreSection_ok {n : Int} {jobs : Nat} (h : semaphoreSection n jobs = .ok ()) (hj : 0 < jobs) : 1 ≤ n := by
  unfold semaphoreSection at h
  split_ifs at h with h1 h2
  omega

/-- The code of `Layer.Evaluate` is a pool. -/
theorem evaluateP_eq {l : Layer F} {inputs outs : List (List F)} {nCore : Int}
    (h : mapGo (evaluateChunk l) inputs = .ok outs) : l.evaluateP inputs nCore =
      newSemaphoreP .tok nCore fun sem => .wgNew inputs.length fun wg =>
        poolLoop .tok true sem wg inputs.length (fun i => [fun res => res.set i (outs.getD i [])]) 0 := by
  obtain ⟨hl, hi⟩ := mapGo_ok_iff h
  unfold Layer.evaluateP
  congr 1
  funext sem
  congr 1
  funext wg
  unfold poolLoop
  apply loopP_congr
  intro i _ h2 s next
  rw [idx_ok (by omega)]
  simp only [liftGo]
  rw [hi i (by omega) (by omega)]
  simp only [poolBody, if_true, actsP, List.foldr]
  rw [List.getD_eq_getElem _ _ (by omega)]
  rfl

/-- The code of `LayerAsBKTWithCopy` is a pool. -/
theorem layerAsBKTWithCopyP_eq {values : List (List (List F))} {layer : Nat} {v : List (List F)} {nCore : Int}
    (h : idx values layer = .ok v) : layerAsBKTWithCopyP values layer nCore =
      .wgNew v.length fun wg => newSemaphoreP .tok nCore fun sem =>
        poolLoop .tok true sem wg v.length
          (fun i => [fun res => res.set i (List.replicate (v.getD i []).length 0), fun res => res.set i (v.getD i [])]) 0 := by
  unfold layerAsBKTWithCopyP
  rw [h]
  simp only [liftGo]
  congr 1
  funext wg
  congr 1
  funext sem
  unfold poolLoop
  apply loopP_congr
  intro i _ h2 s next
  rw [idx_ok (by omega)]
  simp only [poolBody, if_true, actsP, List.foldr]
  rw [List.getD_eq_getElem _ _ (by omega)]
  rfl

theorem set_comm_jobs {α : Type} (a : Nat → List α) (w w' : Nat) (hw : w ≠ w') :
    ∀ f ∈ (a w).map (fun x (res : List α) => res.set w x), ∀ g ∈ (a w').map (fun x (res : List α) => res.set w' x), ∀ m : List α,
      f (g m) = g (f m) := by
  intro f hf g hg m
  obtain ⟨x, _, rfl⟩ := List.mem_map.1 hf
  obtain ⟨y, _, rfl⟩ := List.mem_map.1 hg
  exact List.set_comm _ _ (by omega)

theorem evaluateP_good {l : Layer F} {inputs outs res0 : List (List F)} {nCore : Int} (hn : 1 ≤ nCore)
    (h : mapGo (evaluateChunk l) inputs = .ok outs) (h0 : res0.length = inputs.length) :
    ∃ bound, GoodRun 0 nCore.toNat (fun s => s.mem = outs) bound (startOf (l.evaluateP inputs nCore) res0 .tok) := by
  obtain ⟨hl, hi⟩ := mapGo_ok_iff h
  rw [evaluateP_eq h, start_eq]
  obtain ⟨N, rfl⟩ := Int.eq_ofNat_of_zero_le (show 0 ≤ nCore by omega)
  refine goodRun_semaphore_ex _ _ _ _ _ _ _ _ (goodRun_cons_ex (soloConf_solo _ _ _ _ _ _ _) (soloConf_wgNew _ _ _ _ _ _ _ _) ?_)
  refine ⟨_, goodRun_post (pool_good (V := Msg F) (tok := .tok) (inside := true) (sem := 0) (wg := 0) (n := inputs.length) (N := N)
      (acts := fun i => [fun (res : List (List F)) => res.set i (outs.getD i [])]) (m0 := res0)
      (fun w w' hw => set_comm_jobs (fun i => [outs.getD i []]) w w' hw) (by omega)
      _ _ _ _ (by simp) (by simp)) ?_⟩
  · rintro s ⟨_, hs⟩
    rw [hs, hl]
    apply runJobs_set_all _ _ _ (by omega)
    intro i hi m _
    simp [runActs, hi]

theorem layerAsBKTWithCopyP_good {values : List (List (List F))} {layer : Nat} {v res0 : List (List F)} {nCore : Int} (hn : 1 ≤ nCore)
    (h : idx values layer = .ok v) (h0 : res0.length = v.length) :
    ∃ bound, GoodRun 0 nCore.toNat (fun s => s.mem = v) bound (startOf (layerAsBKTWithCopyP values layer nCore) res0 .tok) := by
  rw [layerAsBKTWithCopyP_eq h, start_eq]
  obtain ⟨N, rfl⟩ := Int.eq_ofNat_of_zero_le (show 0 ≤ nCore by omega)
  refine goodRun_cons_ex (soloConf_solo _ _ _ _ _ _ _) (soloConf_wgNew _ _ _ _ _ _ _ _) (goodRun_semaphore_ex _ _ _ _ _ _ _ _ ?_)
  refine ⟨_, goodRun_post (pool_good (V := Msg F) (tok := .tok) (inside := true) (sem := 0) (wg := 0) (n := v.length) (N := N)
      (acts := fun i => [fun (res : List (List F)) => res.set i (List.replicate (v.getD i []).length 0),
        fun (res : List (List F)) => res.set i (v.getD i [])]) (m0 := res0)
      (fun w w' hw => set_comm_jobs (fun i => [List.replicate (v.getD i []).length 0, v.getD i []]) w w' hw) (by omega)
      _ _ _ _ (by simp) (by simp)) ?_⟩
  · rintro s ⟨_, hs⟩
    rw [hs]
    apply runJobs_set_all _ _ _ (by omega)
    intro i hi m _
    simp [runActs, hi]

theorem evaluateP_deadlock {l : Layer F} {inputs outs res0 : List (List F)}
    (h : mapGo (evaluateChunk l) inputs = .ok outs) (hne : inputs ≠ []) :
    ∃ bound, Deadlocks bound (startOf (l.evaluateP inputs 0) res0 .tok) := by
  rw [evaluateP_eq h, start_eq]
  unfold newSemaphoreP
  rw [if_neg (by omega)]
  refine ⟨_, deadlocks_cons (soloConf_solo _ _ _ _ _ _ _) (soloConf_make _ _ _ _ _ _ _ _)
    (deadlocks_cons (soloConf_solo _ _ _ _ _ _ _) (soloConf_wgNew _ _ _ _ _ _ _ _) (pool_deadlock ?_ ?_ _ _ _ _ ?_ ?_))⟩
  · exact List.length_pos_iff.2 hne
  · exact fun w w' hw => set_comm_jobs (fun i => [outs.getD i []]) w w' hw
  · simp
  · simp

theorem layerAsBKTWithCopyP_deadlock {values : List (List (List F))} {layer : Nat} {v res0 : List (List F)}
    (h : idx values layer = .ok v) (hne : v ≠ []) :
    ∃ bound, Deadlocks bound (startOf (layerAsBKTWithCopyP values layer 0) res0 .tok) := by
  rw [layerAsBKTWithCopyP_eq h, start_eq]
  unfold newSemaphoreP
  simp only [if_neg (show ¬ ((0 : Int) < 0) by omega)]
  refine ⟨_, deadlocks_cons (soloConf_solo _ _ _ _ _ _ _) (soloConf_wgNew _ _ _ _ _ _ _ _)
    (deadlocks_cons (soloConf_solo _ _ _ _ _ _ _) (soloConf_make _ _ _ _ _ _ _ _) (pool_deadlock ?_ ?_ _ _ _ _ ?_ ?_))⟩
  · exact List.length_pos_iff.2 hne
  · exact fun w w' hw => set_comm_jobs (fun i => [List.replicate (v.getD i []).length 0, v.getD i []]) w w' hw
  · simp
  · simp

/-! ### `Sub` and `Mul` -/

theorem loopP_acts {W : Type} (write : Nat → W → W) (k : Prog W V) : ∀ (n j : Nat),
    loopP (fun i (_ : Unit) next => .act (write i) (next ())) (fun _ => k) j n () = actsP ((List.range' j n).map write) k
  | 0, _ => rfl
  | n + 1, j => by
    simp only [loopP, List.range'_succ, List.map_cons, actsP, List.foldr_cons]
    rw [loopP_acts write k n (j + 1)]
    rfl

theorem runJobs_chunks {W : Type} (write : Nat → W → W) (N c : Nat) (m : W) : ∀ k,
    runJobs (fun i => (List.range' (i * c) (min N ((i + 1) * c) - i * c)).map write) k m =
      runActs ((List.range (min N (k * c))).map write) m
  | 0 => by simp [runJobs, runActs]
  | k + 1 => by
    simp only [runJobs]
    rw [runJobs_chunks write N c m k]
    have e : List.range (min N ((k + 1) * c)) = List.range (min N (k * c)) ++ List.range' (k * c) (min N ((k + 1) * c) - k * c) := by
      rcases Nat.le_total N (k * c) with h | h
      · have h2 : N ≤ (k + 1) * c := by rw [Nat.add_mul]; omega
        rw [Nat.min_eq_left h, Nat.min_eq_left h2, show N - k * c = 0 by omega]
        simp
      · rw [Nat.min_eq_right h]
        have h2 : k * c ≤ min N ((k + 1) * c) := by rw [Nat.add_mul]; omega
        obtain ⟨d, hd⟩ := Nat.exists_eq_add_of_le h2
        rw [hd, Nat.add_sub_cancel_left, List.range_eq_range', List.range_eq_range', ← List.range'_append]
        simp
    rw [e, List.map_append]
    simp [runActs]

theorem liftGo_ok {α : Type} (a : α) (k : α → Prog M V) : liftGo (.ok a) k = k a := rfl

theorem chunkedLoopP_good {W : Type} (write : Nat → W → W) (size : Nat) {nCore : Int} (hn : 1 ≤ nCore) (m0 : W)
    (hcomm : ∀ i < size, ∀ j < size, i ≠ j → ∀ m, write i (write j m) = write j (write i m)) :
    ∃ bound, GoodRun 0 nCore.toNat (fun s => s.mem = runActs ((List.range size).map write) m0) bound
      (startOf (chunkedLoopP (F := F) write size nCore) m0 .tok) := by
  have hpos : 0 < chunkSizeOf nCore size := by unfold chunkSizeOf; omega
  unfold chunkedLoopP
  rw [intoChunkRanges_eq (by omega), liftGo_ok]
  generalize chunkSizeOf nCore size = c at *
  rw [start_eq]
  obtain ⟨N, rfl⟩ := Int.eq_ofNat_of_zero_le (show 0 ≤ nCore by omega)
  have hK : ∀ i, i < (size + c - 1) / c ↔ i * c < size := by
    intro i
    rw [Nat.lt_div_iff_mul_lt (by omega)]
    omega
  generalize (size + c - 1) / c = K at *
  have hcover : size ≤ K * c := by
    by_contra hc
    exact absurd ((hK K).2 (by omega)) (lt_irrefl _)
  refine goodRun_semaphore_ex _ _ _ _ _ _ _ _ (goodRun_cons_ex (soloConf_solo _ _ _ _ _ _ _) (soloConf_wgNew _ _ _ _ _ _ _ _) ?_)
  · have hloop : loopP (fun c_1 (_ : Unit) next =>
          liftGo (idx (tab K fun i => (⟨i * c, min size ((i + 1) * c)⟩ : ChunkRange)) c_1) fun a =>
          acquireP 0 (Prog.go (loopP (fun i (_ : Unit) next => Prog.act (write i) (next ())) (fun _ => jobEnd (F := F) 0 0)
              a.begin_ (a.end_ - a.begin_) ()) (next ())))
        (fun _ => Prog.wgWait 0 (Prog.ret Msg.tok)) 0 K () =
        poolLoop .tok false 0 0 K (fun i => (List.range' (i * c) (min size ((i + 1) * c) - i * c)).map write) 0 := by
      unfold poolLoop
      apply loopP_congr
      intro i _ h2 s next
      rw [idx_tab (by omega), liftGo_ok]
      simp only [poolBody, Bool.false_eq_true, if_false]
      rw [loopP_acts]
      rfl
    rw [tab_length, hloop]
    refine ⟨_, goodRun_post (pool_good (V := Msg F) (tok := .tok) (inside := false) (sem := 0) (wg := 0) (n := K) (N := N)
      (acts := fun i => (List.range' (i * c) (min size ((i + 1) * c) - i * c)).map write) (m0 := m0)
      (by
        intro w w' hw f hf g hg m
        obtain ⟨i, hi, rfl⟩ := List.mem_map.1 hf
        obtain ⟨j, hj, rfl⟩ := List.mem_map.1 hg
        rw [List.mem_range'_1] at hi hj
        refine hcomm i (by omega) j (by omega) ?_ m
        intro hij
        subst hij
        apply hw
        have e1 : w = i / c := by
          symm
          apply Nat.div_eq_of_lt_le <;> [omega; (have : min size ((w + 1) * c) ≤ (w + 1) * c := Nat.min_le_right _ _; omega)]
        have e2 : w' = i / c := by
          symm
          apply Nat.div_eq_of_lt_le <;> [omega; (have : min size ((w' + 1) * c) ≤ (w' + 1) * c := Nat.min_le_right _ _; omega)]
        rw [e1, e2]) (by omega)
      _ _ _ _ (by simp) (by simp)) ?_⟩
    rintro s ⟨_, hs⟩
    rw [hs, runJobs_chunks, Nat.min_eq_left hcover]

end GkrMimc
