import Verif.Proofs.BenchSlots
import Verif.Props.Bench
import Verif.Props.Harness
import Verif.Props.UnitTests

/-! Property C68: the claims of C58, C59 and C60 that fail of the code of the tests and benchmarks hold of the repaired functions of
Model/RepairedBench.lean. -/

namespace GkrMimc

open Spec

/-! ### The multi-process benchmark -/

/-- C68. The repaired multi-process benchmark under all schedules, for any number of processes: no races at all, no deadlock, no
panic, and at the end entry `j` holds a proof, which the verifier accepts, for the values that process `j` drew in the last round. -/
theorem C68_multi (k m n nChunks bN N : Nat) (draw : Nat → Nat → Nat → Fr) (nCore : Int) (hn : 1 ≤ n) (hc : (n : Int) ≤ nCore)
    (hk : nChunks / n = 2 ^ k) (hb : bN = m + k + log2Ceil n) (h0 : Heap (GkrProof Fr)) :
    ∃ bound, GoodSlotsRun n (fun r => ∀ j < n, N = 0 ∧ r j = h0.cells 0 j ∨ 1 ≤ N ∧ GoodProof k m (draw (N - 1) j) (r j)) bound
      (startOf (benchmarkMultiR mimcHash frString arks draw bN n nCore nChunks N) h0 ()) := by
  have hp := tdiv_pos hn hc
  have key := fun i j => benchSetup_ok k m (draw i j) (nCore.tdiv n) (nCore.tdiv n) hp hp
  choose p proofs e1 e2 e3 using key
  obtain ⟨bound, h⟩ := Slots.benchRounds_run
    (setup := fun i j => benchSetup frString arks (draw i j) (nChunks / n) (bN - log2Ceil n) (nCore.tdiv n))
    (run := fun p => p.prove mimcHash (nCore.tdiv n)) (p := p) (cc := proofs)
    (fun i j => by rw [hk, hb]; have := e1 i j; push_cast at this ⊢; rw [add_sub_cancel_right]; exact this) e2 n N h0
  refine ⟨bound, ?_⟩
  have e : benchmarkMultiR mimcHash frString arks draw bN n nCore nChunks N =
      benchRoundsR (fun i j => benchSetup frString arks (draw i j) (nChunks / n) (bN - log2Ceil n) (nCore.tdiv n))
        (fun p => p.prove mimcHash (nCore.tdiv n)) n 0 N := by
    unfold benchmarkMultiR
    rw [if_neg (by omega)]
    rfl
  rw [e]
  intro l s hl
  obtain ⟨h1, h2⟩ := h l s hl
  refine ⟨h1, h2.alive, h2.live, fun hr => ⟨(h2.result hr).1, fun j hj => ?_⟩, h2.accesses, h2.norace, h2.frame⟩
  have := (h2.result hr).2 j hj
  by_cases hN : N = 0
  · exact .inl ⟨hN, by rw [this, if_pos hN]⟩
  · exact .inr ⟨by omega, by rw [this, if_neg hN]; exact e3 _ _⟩

/-- C68. The labels of the memory accesses of the repaired benchmark are right. -/
theorem C68_labels {C σ : Type} (setup : Nat → Nat → Go σ) (run : σ → Go C) (n i N : Nat) : Labelled (benchRoundsR setup run n i N) := by
  induction N generalizing i with
  | zero => trivial
  | succ N ih =>
    intro a b c
    have loop : ∀ (l j : Nat), Labelled (loopP (fun k _ next => Prog.go (benchWorkerR k (setup i k) run a b c) (next ()))
        (fun _ => .wgWait a <| .wgDone b <| .wgWait c (benchRoundsR setup run n (i + 1) N)) j l ()) := by
      intro l
      induction l with
      | zero => intro j; exact ih (i + 1)
      | succ l ihl =>
        intro j
        refine ⟨?_, ihl (j + 1)⟩
        unfold benchWorkerR
        refine liftBlock_labelled _ _ fun p => ?_
        refine liftBlock_labelled _ _ fun v => ?_
        exact ⟨⟨v, fun _ => rfl⟩, fun _ _ => rfl, fun _ => trivial⟩
    exact loop n 0

/-! ### The eq test -/

variable {F : Type} [Field F] [DecidableEq F]

/-- The repaired `Assign` of the eq test assigns all the variables. -/
theorem eqTest_assignR (n m : Nat) (H Q : Nat → Nat → F) :
    EqTestCircuit.assignR (allocateEqTest n m) (tab n fun i => tab m (H i)) (tab n fun i => tab m (Q i)) =
      .ok ⟨tab n fun i => tab m fun j => some (H i j), tab n fun i => tab m fun j => some (Q i j),
        tab n fun i => some (eqPoly (tab m (Q i)) (tab m (H i)))⟩ := by
  unfold EqTestCircuit.assignR allocateEqTest
  rw [tab_length]
  have inner : ∀ k, k < n → (forN (tab m (Q k)).length (List.replicate m (none : Option F), List.replicate m (none : Option F))
      fun n' (s : List (Option F) × List (Option F)) => do
        let x ← idx2 (tab n fun i => tab m (H i)) k n'
        let h ← slotsAssign s.1 n' x
        let y ← idx2 (tab n fun i => tab m (Q i)) k n'
        let q ← slotsAssign s.2 n' y
        return (h, q)) = .ok (tab m fun j => some (H k j), tab m fun j => some (Q k j)) := by
    intro k hk
    rw [tab_length]
    have := forN_eq (body := fun n' (s : List (Option F) × List (Option F)) => do
        let x ← idx2 (tab n fun i => tab m (H i)) k n'
        let h ← slotsAssign s.1 n' x
        let y ← idx2 (tab n fun i => tab m (Q i)) k n'
        let q ← slotsAssign s.2 n' y
        return (h, q))
      (fun i => (tab m (soFar i (fun _ => none) fun j => some (H k j)), tab m (soFar i (fun _ => none) fun j => some (Q k j)))) m (by
        intro i hi
        dsimp only
        unfold idx2
        rw [idx_tab hk, ok_bind, idx_tab hi, ok_bind, slotsAssign_tab hi _ (by simp [soFar]), ok_bind, idx_tab hk,
          ok_bind, idx_tab hi, ok_bind, slotsAssign_tab hi _ (by simp [soFar]), ok_bind, go_pure]
        congr 2
        · exact congrArg _ (update_soFar i _ fun j => some (H k j))
        · exact congrArg _ (update_soFar i _ fun j => some (Q k j)))
    simp only [tab_soFar_zero, tab_soFar_all] at this
    rw [replicate_eq_tab]
    exact this
  have := forN_eq (body := fun k (c : EqTestCircuit (Option F)) => do
    let Qk ← idx (tab n fun i => tab m (Q i)) k
    let h ← idx c.h k
    let q ← idx c.q k
    let (h, q) ← forN Qk.length (h, q) fun n' (h, q) => do
      let x ← idx2 (tab n fun i => tab m (H i)) k n'
      let h ← slotsAssign h n' x
      let y ← idx2 (tab n fun i => tab m (Q i)) k n'
      let q ← slotsAssign q n' y
      return (h, q)
    let hs ← setIdx c.h k h
    let qs ← setIdx c.q k q
    let Hk ← idx (tab n fun i => tab m (H i)) k
    let e ← evalEq Qk Hk
    let es ← slotsAssign c.expectedValue k e
    return (⟨hs, qs, es⟩ : EqTestCircuit (Option F)))
    (fun i => ⟨tab n (soFar i (fun _ => List.replicate m none) fun i => tab m fun j => some (H i j)),
      tab n (soFar i (fun _ => List.replicate m none) fun i => tab m fun j => some (Q i j)),
      tab n (soFar i (fun _ => none) fun i => some (eqPoly (tab m (Q i)) (tab m (H i))))⟩) n (by
      intro i hi
      dsimp only
      have e1 : ∀ r : Nat → List (Option F), soFar i (fun _ => List.replicate m (none : Option F)) r i = List.replicate m none := by
        intro r; simp [soFar]
      rw [idx_tab hi, ok_bind, idx_tab hi, ok_bind, idx_tab hi, ok_bind, e1, e1]
      refine (congrArg (· >>= _) (inner i hi)).trans ?_
      rw [ok_bind]
      dsimp only
      rw [setIdx_tab hi, ok_bind, setIdx_tab hi, ok_bind, idx_tab hi, ok_bind, evalEq_eq _ _ (by simp), ok_bind,
        slotsAssign_tab hi _ (by simp [soFar]), ok_bind, go_pure]
      congr 2
      · exact congrArg _ (update_soFar i _ fun i => tab m fun j => some (H i j))
      · exact congrArg _ (update_soFar i _ fun i => tab m fun j => some (Q i j))
      · exact congrArg _ (update_soFar i _ fun i => some (eqPoly (tab m (Q i)) (tab m (H i)))))
  simp only [tab_soFar_zero, tab_soFar_all] at this
  rw [replicate_eq_tab n, replicate_eq_tab n]
  exact this

/-- C68. The repaired `TestEq` passes for every draw, every number of tests and every number of coordinates. -/
theorem C68_eq (n m : Nat) (draw : Nat → F) : (eqTestR n m draw).Satisfied := by
  have h := eqTest_assignR n m (fun k j => draw (k * m + j)) (fun k j => draw (n * m + k * m + j))
  unfold eqTestR Cs.Satisfied
  dsimp only
  rw [Cs.sat_bind, Cs.sat_go]
  refine ⟨_, h, ?_⟩
  rw [Cs.sat_bind, Cs.sat_go]
  refine ⟨⟨tab n fun k => tab m fun j => draw (k * m + j), tab n fun k => tab m fun j => draw (n * m + k * m + j),
    tab n fun k => eqPoly (tab m fun j => draw (n * m + k * m + j)) (tab m fun j => draw (k * m + j))⟩, ?_, ?_⟩
  · unfold EqTestCircuit.values
    dsimp only
    have e1 : ∀ f : Nat → Nat → F, (tab n fun i => tab m fun j => some (f i j)) = (tab n fun i => tab m (f i)).map (List.map some) := by
      intro f; rw [tab_map]; apply tab_congr; intro i _; rw [tab_map]
    have e2 : ∀ f : Nat → F, (tab n fun i => some (f i)) = (tab n f).map some := by
      intro f; rw [tab_map]
    rw [e1, e1, e2, slotsValues_some2, ok_bind, slotsValues_some2, ok_bind, slotsValues_some, ok_bind]
    rfl
  · refine (C59_eq_circuit _ ?_).2 ?_
    · intro i hi
      simp only [tab_length] at hi
      exact ⟨_, by rw [tab_getElem?, if_pos hi], by simp⟩
    · intro i hi
      simp only [tab_length] at hi
      rw [tab_getElem?, if_pos hi, tab_get, List.getD_eq_getElem?_getD, tab_getElem?, if_pos hi]
      rfl

/-! ### Timer and recorders -/

variable {R σ C : Type}

/-- The repaired `ProfileTrace` in terms of the original, if the trace file can be created. -/
theorem profileTraceR_eq (bad : FileErrors) (name : String) (profiled traced : Bool) (fn : Bm R Unit) (s : Host R)
    (h : traced = true → bad (tracePath name) = none) :
    profileTraceR bad name profiled traced fn s =
      after (fun s => if traced then { s with opened := s.opened.erase (tracePath name) } else s)
        (profileTrace bad name profiled traced fn { s with timer := false }) := by
  cases traced with
  | false =>
    show profileTrace bad name profiled false fn { s with timer := false } = after id _
    rcases profileTrace bad name profiled false fn { s with timer := false } with ⟨_ | _ | _, s'⟩ <;> rfl
  | true =>
    refine (osCreate_ok (h rfl) _ { s with timer := false }).trans ((deferring_modify _ _ _).trans (congrArg _ ?_))
    symm
    exact osCreate_ok (h rfl) _ _

/-- C68. The repaired `ProfileTrace` leaves no file open, however its function ends and whether or not the recorders start, unless the
process ends; and the timer is off. -/
theorem C68_files (bad : FileErrors) (name : String) (profiled traced : Bool) (fn : Bm R Unit)
    (hfn : ∀ s, (fn s).1 ≠ .halted → ∀ f, (fn s).2.opened.count f = s.opened.count f) (s s' : Host R) (r : CallEnd Unit)
    (e : profileTraceR bad name profiled traced fn s = (r, s')) (hr : r ≠ .halted) :
    (∀ f, s'.opened.count f = s.opened.count f) ∧ s'.timer = false := by
  by_cases hb : traced = true ∧ bad (tracePath name) ≠ none
  · obtain ⟨rfl, hb⟩ := hb
    obtain ⟨x, hx⟩ := Option.ne_none_iff_exists'.1 hb
    have : profileTraceR bad name profiled true fn s = (.panic (.explicit x), ({ s with timer := false } : Host R).did .create) := by
      have h1 : (osCreate bad (tracePath name) : Bm R Unit) { s with timer := false } =
          (.panic (.explicit x), ({ s with timer := false } : Host R).did .create) := by
        unfold osCreate
        rw [hx]
        rfl
      show Bm.bind (osCreate bad (tracePath name)) _ { s with timer := false } = _
      unfold Bm.bind
      rw [h1]
    rw [this] at e
    cases e
    exact ⟨fun _ => rfl, rfl⟩
  have hb' : traced = true → bad (tracePath name) = none := fun h => by by_contra hc; exact hb ⟨h, hc⟩
  rw [profileTraceR_eq _ _ _ _ _ _ hb'] at e
  by_cases hc : CanRecord bad name profiled traced ({ s with timer := false } : Host R)
  · obtain ⟨s1, h1, h2⟩ := C60_profileTrace bad name profiled traced fn { s with timer := false } hc
    rcases h2 with ⟨h2, h3⟩ | ⟨h2, s3, h3, h4⟩
    · rw [h3] at e
      rcases after_cases (fun s => if traced then { s with opened := s.opened.erase (tracePath name) } else s) (fn s1) with ⟨-, h5⟩ | ⟨h5, -⟩
      · rw [h5] at e
        rw [e] at h2
        exact absurd h2 hr
      · exact absurd h2 h5
    · rw [h3] at e
      rcases after_cases (fun s => if traced then { s with opened := s.opened.erase (tracePath name) } else s) ((fn s1).1, s3) with ⟨h5, -⟩ | ⟨-, h5⟩
      · exact absurd h5 h2
      · rw [h5] at e
        cases e
        have h6 := hfn s1 h2
        have hne := tracePath_ne name
        refine ⟨fun f => ?_, ?_⟩
        · have h7 := h6 f
          have h8 := h4.opened
          have h9 := h1.opened
          cases profiled <;> cases traced <;> simp only [if_true, if_false, Bool.false_eq_true, List.append_nil] at h8 h9 ⊢
          · rw [h8, h7, h9]
          · rw [List.count_erase, h8, h7, h9, List.count_append, List.count_singleton]; omega
          · rw [h8, List.count_erase, h7, h9, List.count_append, List.count_singleton]; omega
          · rw [List.count_erase, h8, List.count_erase, h7, h9, List.count_append, List.count_append, List.count_singleton, List.count_singleton]; omega
        · have := h4.timer
          cases traced <;> exact this
  · have prof : ∀ s : Host R, (profiled = true ∧ ¬ (bad (profilePath name) = none ∧ s.profiling = none)) → ∀ x : Unit → Bm R Unit,
        (profileStart bad (profilePath name) >>= x) s = (.halted, s) := by
      rintro s ⟨-, h⟩ x
      show Bm.bind _ _ s = _
      unfold Bm.bind profileStart
      rw [if_pos]
      · rfl
      · cases h1 : s.profiling with
        | some _ => simp
        | none =>
          cases h2 : bad (profilePath name) with
          | some _ => simp
          | none => exact absurd ⟨h2, h1⟩ h
    cases traced with
    | false =>
      have h' : profiled = true ∧ ¬ (bad (profilePath name) = none ∧ s.profiling = none) := by
        by_contra h1
        exact hc ⟨nofun, fun hp => by by_contra h2; exact h1 ⟨hp, h2⟩⟩
      have hp := h'.1
      subst hp
      have h1 : profileTrace bad name true false fn { s with timer := false } = (.halted, { s with timer := false }) :=
        prof { s with timer := false } h' _
      rw [h1] at e
      exact absurd (congrArg Prod.fst e).symm hr
    | true =>
      cases h2 : s.tracing with
      | some f =>
        have h1 : ∃ s1, profileTrace bad name profiled true fn { s with timer := false } =
            (.panic (.explicit "tracing is already enabled"), s1) ∧ s1.opened = s.opened ++ [tracePath name] ∧ s1.timer = false :=
          ⟨_, (osCreate_ok (hb' rfl) _ _).trans (traceStart_err _ _ (f := f) (by exact h2)), rfl, rfl⟩
        obtain ⟨s1, h1, ho, ht⟩ := h1
        rw [h1] at e
        cases e
        refine ⟨fun f => ?_, ht⟩
        show (s1.opened.erase (tracePath name)).count f = _
        rw [ho, List.count_erase, List.count_append, List.count_singleton]
        omega
      | none =>
        have h' : profiled = true ∧ ¬ (bad (profilePath name) = none ∧ s.profiling = none) := by
          by_contra h1
          exact hc ⟨fun _ => ⟨hb' rfl, h2⟩, fun hp => by by_contra h3; exact h1 ⟨hp, h3⟩⟩
        have hp := h'.1
        subst hp
        have h1 : ∃ s1, profileTrace bad name true true fn { s with timer := false } = (.halted, s1) :=
          ⟨_, (osCreate_ok (hb' rfl) _ _).trans ((traceStart_ok _ _ (by exact h2)).trans
            ((deferring_modify _ _ _).trans (congrArg _ (prof _ (by exact h') _))))⟩
        obtain ⟨s1, h1⟩ := h1
        rw [h1] at e
        exact absurd (congrArg Prod.fst e).symm hr

/-- What a repaired benchmark of `n` rounds leaves behind: all the files are closed, the recorders are off as before, the timer has
measured exactly the computations, each round did its work in order, and the result is that of the last round. -/
structure Clean (name : String) (profiled traced : Bool) (c : Nat → C) (n : Nat) (s s' : Host (Option C)) : Prop where
  opened : ∀ f, s'.opened.count f = s.opened.count f
  tracing : s'.tracing = s.tracing
  profiling : s'.profiling = s.profiling
  elapsed : s'.elapsed = (List.range n).map .run
  log : s'.log = s.log ++ (List.range n).flatMap fun i => .setup i :: (startWork profiled traced ++ [.run i] ++ stopWork profiled traced)
  result : s'.result = if n = 0 then s.result else some (c (n - 1))
  traceFile : s.profiling = none → traced = true → 1 ≤ n → s'.files (tracePath name) =
    if profiled then [.profileStart, .run (n - 1), .profileStop] else [.run (n - 1)]

/-- One more round. -/
theorem Clean.step {bad : FileErrors} {name : String} {profiled traced : Bool} {c : Nat → C} {n : Nat} {s s1 s2 : Host (Option C)}
    (h : Clean name profiled traced c n s s1) (h2 : s2.tracing = s1.tracing ∧ s2.profiling = s1.profiling ∧
      s2.opened = s1.opened ∧ s2.log = s1.log ++ [.setup n] ∧ s2.elapsed = s1.elapsed) (hc : CanRecord bad name profiled traced s) :
    ∃ s3, profileTraceR bad name profiled traced (runAndStore n (.ok (c n))) s2 = (.ret (), s3) ∧
      Clean name profiled traced c (n + 1) s s3 ∧ s3.timer = false := by
  obtain ⟨a1, a2, a3, a4, a5⟩ := h2
  have hc2 : CanRecord bad name profiled traced ({ s2 with timer := false } : Host (Option C)) := by
    unfold CanRecord
    simp only
    rw [a1, a2, h.tracing, h.profiling]
    exact hc
  obtain ⟨s3, e, h3⟩ := ran bad name profiled traced n (c n) { s2 with timer := false } hc2
  have e' := profileTraceR_eq bad name profiled traced (runAndStore n (.ok (c n))) s2 fun ht => (hc.1 ht).1
  rw [e] at e'
  refine ⟨_, e', ⟨fun f => ?_, ?_, ?_, ?_, ?_, ?_, fun hp ht _ => ?_⟩, ?_⟩
  · have h4 := h3.opened f
    rw [← h.opened f, ← a3]
    cases traced with
    | false => simpa using h4
    | true =>
      simp only [if_true, List.count_erase, beq_iff_eq]
      simp only [true_and, eq_comm (a := f)] at h4
      omega
  · have h4 := h3.tracing
    cases traced <;> exact h4.trans (a1.trans h.tracing)
  · have h4 := h3.profiling
    cases traced <;> exact h4.trans (a2.trans h.profiling)
  · have h4 := h3.elapsed
    simp only [Bool.false_eq_true, if_false, List.append_nil] at h4
    rw [List.range_succ, List.map_append, ← h.elapsed, ← a5]
    cases traced <;> exact h4
  · have h4 := h3.log
    rw [List.range_succ, List.flatMap_append, ← List.append_assoc, ← h.log]
    have h5 : s3.log = s1.log ++ List.flatMap (fun i => Work.setup i :: (startWork profiled traced ++ [.run i] ++ stopWork profiled traced)) [n] := by
      rw [h4]
      simp only [a4]
      simp
    cases traced <;> exact h5
  · have h4 := h3.result
    rw [if_neg (by omega), Nat.add_sub_cancel]
    cases traced <;> exact h4
  · have h4 := h3.traceFile (by rw [a2, h.profiling, hp]) ht
    subst ht
    exact h4
  · have h4 := h3.timer
    cases traced <;> exact h4

variable {setup : Nat → Go σ} {run : σ → Go C} {p : Nat → σ} {c : Nat → C}

/-- C68. The three kinds of repaired benchmarks, whatever the timer did before: see `Clean`. -/
theorem C68_timers (bad : FileErrors) (name : String) (profiled traced : Bool) (n : Nat) (s : Host (Option C))
    (hs : ∀ i < n, setup i = .ok (p i)) (hr : ∀ i < n, run (p i) = .ok (c i)) (h : CanRecord bad name profiled traced s)
    (bench : Bm (Option C) Unit) (hb : bench ∈ [timedProverR bad name profiled traced setup run n,
      timedMultiR bad name profiled traced setup run n, timedSumcheckR bad name profiled traced setup run n]) :
    ∃ s', bench s = (.ret (), s') ∧ Clean name profiled traced c n s s' := by
  have zero : ∀ s1 : Host (Option C), s1.tracing = s.tracing → s1.profiling = s.profiling → s1.opened = s.opened → s1.log = s.log →
      s1.result = s.result → s1.elapsed = [] → Clean name profiled traced c 0 s s1 := by
    intro s1 a1 a2 a3 a4 a5 a6
    exact ⟨fun f => by rw [a3], a1, a2, by simpa using a6, by simpa using a4, by simpa using a5, fun _ _ h => by omega⟩
  have one : ∃ s', timedProverR bad name profiled traced setup run n s = (.ret (), s') ∧ Clean name profiled traced c n s s' := by
    obtain ⟨s', e, h1⟩ := Bm.forN_inv (R := Option C) (body := fun i => do
        stopTimer
        let p ← Bm.work (.setup i) (setup i)
        profileTraceR bad name profiled traced (runAndStore i (run p)))
      (fun n s1 => Clean name profiled traced c n s s1) n { s with elapsed := [] } (zero _ rfl rfl rfl rfl rfl rfl) (by
        intro i hi s1 h1
        obtain ⟨s3, e3, h3, -⟩ := h1.step (s2 := ({ s1 with timer := false } : Host (Option C)).did (.setup i))
          ⟨rfl, rfl, rfl, rfl, rfl⟩ h
        refine ⟨s3, ?_, h3⟩
        rw [← e3, ← hr i hi, hs i hi]
        rfl)
    exact ⟨s', e, h1⟩
  simp only [List.mem_cons, List.not_mem_nil, or_false] at hb
  rcases hb with rfl | rfl | rfl
  · exact one
  · obtain ⟨s', e, h1, -⟩ := Bm.forN_inv (R := Option C) (body := fun i => do
        let p ← Bm.work (.setup i) (setup i)
        startTimer
        profileTraceR bad name profiled traced (runAndStore i (run p))
        stopTimer)
      (fun n s1 => Clean name profiled traced c n s s1 ∧ s1.timer = false) n { s with elapsed := [], timer := false }
      ⟨zero _ rfl rfl rfl rfl rfl rfl, rfl⟩ (by
        rintro i hi s1 ⟨h1, h2⟩
        obtain ⟨s3, e3, h3, h4⟩ := h1.step (s2 := ({ s1.did (.setup i) with timer := true } : Host (Option C)))
          ⟨rfl, rfl, rfl, rfl, by simp [Host.did, h2]⟩ h
        refine ⟨{ s3 with timer := false }, ?_, ⟨h3.opened, h3.tracing, h3.profiling, h3.elapsed, h3.log, h3.result, h3.traceFile⟩, rfl⟩
        have : (profileTraceR bad name profiled traced (runAndStore i (run (p i))) >>= fun _ => stopTimer)
            ({ s1.did (.setup i) with timer := true } : Host (Option C)) = (.ret (), { s3 with timer := false }) := by
          show Bm.bind _ _ _ = _
          unfold Bm.bind
          rw [hr i hi, e3]
          rfl
        rw [← this, hs i hi]
        rfl)
    exact ⟨s', e, h1⟩
  · exact one

/-! ### Instances -/

/-- Two processes of which each proves 2 chunks of 2 instances, in three rounds. -/
example (draw : Nat → Nat → Nat → Fr) (h0 : Heap (GkrProof Fr)) :
    ∃ bound, GoodSlotsRun 2 (fun r => ∀ j < 2, 3 = 0 ∧ r j = h0.cells 0 j ∨ 1 ≤ 3 ∧ GoodProof 1 1 (draw 2 j) (r j)) bound
      (startOf (benchmarkMultiR mimcHash frString arks draw 3 2 8 4 3) h0 ()) :=
  C68_multi 1 1 2 4 3 3 draw 8 (by omega) (by omega) rfl (by decide +kernel) h0

/-- The sizes with which the test of the source fails. -/
example (draw : Nat → Fr) : (eqTestR 5 3 draw).Satisfied ∧ ¬ (eqTest 5 3 draw).Satisfied :=
  ⟨C68_eq 5 3 draw, C59_eq_negation 5 3 (by omega) (by omega) draw⟩

/-- The two benchmarks of `C60_negation_timer`. -/
example : ∃ s', timedMultiR (fun _ => none) "B" false true (fun i => .ok i) (fun i => .ok i) 2 (freshHost Nat) = (.ret (), s') ∧
    s'.elapsed = [.run 0, .run 1] ∧ ∀ f, s'.opened.count f = 0 := by
  obtain ⟨s', e, h⟩ := C68_timers (setup := fun i => .ok i) (run := fun i => .ok i) (p := id) (c := id) (fun _ => none) "B" false true 2
    (freshHost Nat) (fun _ _ => rfl) (fun _ _ => rfl) ⟨fun _ => ⟨rfl, rfl⟩, nofun⟩ _ (List.mem_cons_of_mem _ List.mem_cons_self)
  exact ⟨s', e, h.elapsed, fun f => by rw [h.opened f]; rfl⟩

/-- The trace file is closed also when the function panics. -/
example (s s' : Host Unit) (r : CallEnd Unit)
    (e : profileTraceR (fun _ => none) "B" true true (Bm.panic .index) s = (r, s')) (hr : r ≠ .halted) (f : String) :
    s'.opened.count f = s.opened.count f := (C68_files _ _ _ _ _ (fun _ _ _ => rfl) s s' r e hr).1 f

end GkrMimc
