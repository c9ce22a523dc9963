import Verif.Proofs.BenchFail
import Verif.Props.Tests
import Verif.Props.Snark

/-! Property C58: the benchmarks of the MiMC prover, with one process and with many. -/

set_option linter.unusedSectionVars false

namespace GkrMimc

open Spec

/-- The proof is a good one for the `2^(m+k)` hashes that were drawn: the outputs are those of the circuit, the gadget accepts, and
with at least two chunks so does the verifier. -/
def GoodProof (k m : Nat) (draw : Nat → Fr) (proof : GkrProof Fr) : Prop :=
  ∃ inputs c values outputs, randomInputs draw (2 ^ k) (m + k) = .ok inputs ∧ createMimcCircuit frString arks = .ok c ∧
    c.assign inputs 1 = .ok values ∧ values.getLast? = some outputs ∧
    (snarkAssertValid arks (snarkCircuit arks) proof [] (qPrime0 (m + k)) (interleave (2 ^ k) (2 ^ (1 + m)) inputs)
      (interleave (2 ^ k) (2 ^ m) outputs)).Satisfied ∧
    (1 ≤ k → gkrVerify mimcHash (m + k) c proof inputs outputs = .ok true)

/-- The set-up of a prover and its run succeed, for all draws and core counts. -/
theorem benchSetup_ok (k m : Nat) (draw : Nat → Fr) (nCore nCore' : Int) (h1 : 1 ≤ nCore) (h2 : 1 ≤ nCore') :
    ∃ p proof, benchSetup frString arks draw (2 ^ k) ((m + k : Nat) : Int) nCore = .ok p ∧ p.prove mimcHash nCore' = .ok proof ∧
      GoodProof k m draw proof := by
  obtain ⟨inputs, hi, hin, _⟩ := C56_inputs k m draw
  obtain ⟨c, values, outputs, p, proof, e1, e2, e3, e4, e5, _, e6, _⟩ := honest_gadget k m inputs hin nCore nCore' h1 h2
  rw [mimc_circuit] at e1
  obtain rfl := Except.ok.inj e1
  obtain ⟨a1, a2⟩ := mimc_run_values m inputs hin.2 1 le_rfl
  obtain ⟨b1, b2⟩ := mimc_run_values m inputs hin.2 nCore h1
  rw [b1] at e2
  obtain rfl := Except.ok.inj e2
  refine ⟨p, proof, ?_, e5, inputs, _, _, outputs, hi, mimc_circuit, a1, e3, e6, fun hk => ?_⟩
  · unfold benchSetup
    rw [mimc_circuit, ok_bind, if_neg (by omega)]
    simp only [Int.toNat_natCast, hi, ok_bind, b1]
    exact e4
  · obtain ⟨c', values', outputs', p', proof', f1, f2, f3, f4, f5, f6⟩ := C22_mimc_partial k m hk inputs hin nCore nCore' h1 h2
    rw [mimc_circuit] at f1
    obtain rfl := Except.ok.inj f1
    rw [b1] at f2
    obtain rfl := Except.ok.inj f2
    rw [e3] at f3
    obtain rfl := Option.some.inj f3
    rw [e4] at f4
    obtain rfl := Except.ok.inj f4
    rw [e5] at f5
    obtain rfl := Except.ok.inj f5
    exact f6

/-- C58. `benchmarkMIMCCircuit` for all draws, sizes, core counts and numbers of rounds: it ends without panic, and leaves a good
proof of the last draw in the global variable. -/
theorem C58_single (k m N : Nat) (draw : Nat → Nat → Fr) (nCore : Int) (h : 1 ≤ nCore) :
    ∃ r, benchmarkMimc mimcHash frString arks draw (m + k) nCore (2 ^ k) N = .ok r ∧
      (N = 0 ∧ r = none ∨ 1 ≤ N ∧ ∃ proof, r = some proof ∧ GoodProof k m (draw (N - 1)) proof) := by
  obtain ⟨r, h1, h2⟩ := forN_inv (body := fun i (_ : Option (GkrProof Fr)) => (do
      let prover ← benchSetup frString arks (draw i) (2 ^ k) ((m + k : Nat) : Int) 1
      let proof ← prover.prove mimcHash nCore
      return some proof : Go (Option (GkrProof Fr))))
    (fun i r => i = 0 ∧ r = none ∨ 1 ≤ i ∧ ∃ proof, r = some proof ∧ GoodProof k m (draw (i - 1)) proof) N none (.inl ⟨rfl, rfl⟩) (by
      intro i _ _ _
      obtain ⟨p, proof, e1, e2, e3⟩ := benchSetup_ok k m (draw i) 1 nCore le_rfl h
      refine ⟨some proof, ?_, .inr ⟨by omega, proof, rfl, e3⟩⟩
      simp only [e1, e2, ok_bind]
      rfl)
  exact ⟨r, h1, h2⟩

example : ∃ r, benchmarkMimc mimcHash frString arks (fun i j => ((i + j : Nat) : Fr)) 3 4 2 1 = .ok (some r) := by
  obtain ⟨r, h, h' | ⟨_, proof, rfl, _⟩⟩ := C58_single 1 2 1 (fun i j => ((i + j : Nat) : Fr)) 4 (by omega)
  · exact absurd h'.1 (by omega)
  · exact ⟨proof, h⟩

theorem benchmarkMulti_eq (draw : Nat → Nat → Nat → Fr) (bN n : Nat) (nCore : Int) (nChunks N : Nat) :
    benchmarkMulti mimcHash frString arks draw bN (n : Int) nCore nChunks N =
      benchRounds (fun i k => benchSetup frString arks (draw i k) (nChunks / n) (bN - log2Ceil n) (nCore.tdiv n))
        (fun p => p.prove mimcHash (nCore.tdiv n)) n 0 N := by
  unfold benchmarkMulti
  rw [if_neg (by omega)]
  simp

theorem tdiv_pos {a : Int} {n : Nat} (hn : 1 ≤ n) (h : (n : Int) ≤ a) : 1 ≤ a.tdiv n := by
  rw [Int.tdiv_eq_ediv_of_nonneg (by omega)]
  exact (Int.le_ediv_iff_mul_le (by omega)).2 (by omega)

/-- C58. `benchmarkMIMCGKRProverMultiProcess` with at least as many cores as processes, for all draws and numbers of rounds: there
are good proofs, one for each round and process, such that under all schedules: no panic, no deadlock, boundedly many steps, the
caller returns after all the goroutines, the variable then holds one of the proofs of the last round, and nothing else is
written. Missing: the absence of races. It holds for one process, see `C58_race` for more. -/
theorem C58_multi_partial (k m n nChunks bN N : Nat) (draw : Nat → Nat → Nat → Fr) (nCore : Int) (hn : 1 ≤ n) (hc : (n : Int) ≤ nCore)
    (hk : nChunks / n = 2 ^ k) (hb : bN = m + k + log2Ceil n) (h0 : Heap (GkrProof Fr)) :
    ∃ proofs : Nat → Nat → GkrProof Fr, (∀ i j, GoodProof k m (draw i j) (proofs i j)) ∧
      ∃ bound, GoodBenchRun n (fun v => N = 0 ∧ v = h0.cells 0 0 ∨ 1 ≤ N ∧ ∃ j < n, v = proofs (N - 1) j) bound
        (startOf (benchmarkMulti mimcHash frString arks draw bN n nCore nChunks N) h0 ()) := by
  have hp := tdiv_pos hn hc
  have key := fun i j => benchSetup_ok k m (draw i j) (nCore.tdiv n) (nCore.tdiv n) hp hp
  choose p proofs e1 e2 e3 using key
  obtain ⟨bound, h⟩ := benchRounds_run (setup := fun i j => benchSetup frString arks (draw i j) (nChunks / n) (bN - log2Ceil n) (nCore.tdiv n))
    (run := fun p => p.prove mimcHash (nCore.tdiv n)) (p := p) (cc := proofs)
    (fun i j => by rw [hk, hb]; have := e1 i j; push_cast at this ⊢; rw [add_sub_cancel_right]; exact this) e2 n N h0
  refine ⟨proofs, e3, bound, ?_⟩
  rw [benchmarkMulti_eq]
  intro l s hl
  obtain ⟨h1, h2⟩ := h l s hl
  refine ⟨h1, ⟨h2.alive, h2.live, fun hr => ⟨(h2.result hr).1, ?_⟩, h2.accesses, h2.norace, h2.frame⟩⟩
  rcases (h2.result hr).2 with ⟨h3, h4⟩ | ⟨h3, _, h4⟩
  · exact .inl ⟨by omega, h4⟩
  · exact .inr ⟨h3, h4⟩

/-- C58. With two processes or more there is a data race: a schedule where two goroutines are about to write `_mimcProof`. -/
theorem C58_race (k m n nChunks bN N : Nat) (draw : Nat → Nat → Nat → Fr) (nCore : Int) (hn : 2 ≤ n) (hc : (n : Int) ≤ nCore)
    (hk : nChunks / n = 2 ^ k) (hb : bN = m + k + log2Ceil n) (hN : 1 ≤ N) (h0 : Heap (GkrProof Fr)) :
    ∃ s, Reach (startOf (benchmarkMulti mimcHash frString arks draw bN n nCore nChunks N) h0 ()) s ∧ Race s := by
  have hp := tdiv_pos (by omega) hc
  have key := fun i j => benchSetup_ok k m (draw i j) (nCore.tdiv n) (nCore.tdiv n) hp hp
  choose p proofs e1 e2 e3 using key
  rw [benchmarkMulti_eq]
  exact benchRounds_race (setup := fun i j => benchSetup frString arks (draw i j) (nChunks / n) (bN - log2Ceil n) (nCore.tdiv n))
    (run := fun p => p.prove mimcHash (nCore.tdiv n)) (p := p) (cc := proofs)
    (fun i j => by rw [hk, hb]; have := e1 i j; push_cast at this ⊢; rw [add_sub_cancel_right]; exact this) e2 hn hN h0

theorem liftBlock_labelled {C α : Type} (x : Go α) (k : α → Prog (Heap C) Unit) (h : ∀ a, Labelled (k a)) : Labelled (liftBlock x k) := by
  unfold liftBlock
  split
  · exact h _
  · exact fun _ _ => trivial
  · trivial

/-- C58. The labels of the accesses in `C58_multi_partial` and `C58_race` are right, for any set-up and any computation: the
goroutines store one value in the variable, and read nothing. -/
theorem C58_labels {C σ : Type} (setup : Nat → Nat → Go σ) (run : σ → Go C) (n i N : Nat) : Labelled (benchRounds setup run n i N) := by
  induction N generalizing i with
  | zero => trivial
  | succ N ih =>
    intro a b c
    have loop : ∀ (l j : Nat), Labelled (loopP (fun k _ next => Prog.go (benchWorker (setup i k) run a b c) (next ()))
        (fun _ => .wgWait a <| .wgDone b <| .wgWait c (benchRounds setup run n (i + 1) N)) j l ()) := by
      intro l
      induction l with
      | zero => intro j; exact ih (i + 1)
      | succ l ihl =>
        intro j
        refine ⟨?_, ihl (j + 1)⟩
        unfold benchWorker
        refine liftBlock_labelled _ _ fun p => ?_
        refine liftBlock_labelled _ _ fun v => ?_
        exact ⟨⟨v, fun _ => rfl⟩, fun _ _ => rfl, fun _ => trivial⟩
    exact loop n 0

/-- Eight cores, two processes, 32 hashes in eight chunks. -/
example (draw : Nat → Nat → Nat → Fr) (h0 : Heap (GkrProof Fr)) :
    ∃ proofs : Nat → Nat → GkrProof Fr, (∀ i j, GoodProof 2 2 (draw i j) (proofs i j)) ∧
      ∃ bound, GoodBenchRun 2 (fun v => 3 = 0 ∧ v = h0.cells 0 0 ∨ 1 ≤ 3 ∧ ∃ j < 2, v = proofs 2 j) bound
        (startOf (benchmarkMulti mimcHash frString arks draw 5 (2 : Nat) 8 8 3) h0 ()) :=
  C58_multi_partial 2 2 2 8 5 3 draw 8 (by omega) (by decide) rfl
    (by rw [show ((2 : Nat) : Int) = ((2 ^ 1 : Nat) : Int) from rfl, log2Ceil_pow]) h0

/-- Eight cores, two processes, 32 hashes in eight chunks. -/
example (draw : Nat → Nat → Nat → Fr) (h0 : Heap (GkrProof Fr)) :
    ∃ s, Reach (startOf (benchmarkMulti mimcHash frString arks draw 5 (2 : Nat) 8 8 1) h0 ()) s ∧ Race s :=
  C58_race 2 2 2 8 5 1 draw 8 le_rfl (by decide) rfl (by rw [show ((2 : Nat) : Int) = ((2 ^ 1 : Nat) : Int) from rfl, log2Ceil_pow]) le_rfl h0

theorem mimc_assign_fails (inputs : List (List Fr)) (nCore : Int) (e : Abort) (h : semaphoreSection nCore inputs.length = .error e) :
    (newCircuit (mimcWiring frString (arks.take 91))).assign inputs nCore = .error e := by
  have hne : (newCircuit (mimcWiring frString (arks.take 91)) : Circuit Fr).layers ≠ [] := by simp [newCircuit, mimc_ne]
  unfold Circuit.assign
  cases hl : (newCircuit (mimcWiring frString (arks.take 91)) : Circuit Fr).layers with
  | nil => exact absurd hl hne
  | cons l ls =>
    unfold assignFrom Layer.evaluate
    rw [h]
    rfl

/-- The inputs can be drawn whenever there is a chunk. -/
theorem randomInputs_len (draw : Nat → Fr) (nChunks bN : Nat) (h : 1 ≤ nChunks) :
    ∃ inputs, randomInputs draw nChunks bN = .ok inputs ∧ inputs.length = nChunks := by
  unfold randomInputs goDiv
  dsimp only
  rw [if_neg (by omega), ok_bind]
  exact ⟨_, gen_ok _ _ fun i _ => rfl, by simp⟩

theorem benchSetup_fails (draw : Nat → Fr) (nChunks bN : Nat) (nCore : Int) (hk : 1 ≤ nChunks) (e : Abort)
    (h : semaphoreSection nCore nChunks = .error e) : benchSetup frString arks draw nChunks bN nCore = .error e := by
  obtain ⟨inputs, hi, hl⟩ := randomInputs_len draw nChunks bN hk
  unfold benchSetup
  rw [mimc_circuit, ok_bind, if_neg (by omega)]
  simp only [Int.toNat_natCast, hi, ok_bind]
  rw [mimc_assign_fails _ _ e (by rw [hl]; exact h)]
  rfl

/-- C58. With fewer cores than processes the benchmark blocks under all schedules: each process gets `nCore / nProcesses = 0`
cores. -/
theorem C58_blocks (n nChunks bN N : Nat) (draw : Nat → Nat → Nat → Fr) (nCore : Int) (hn : 1 ≤ n) (hc : -n < nCore ∧ nCore < n)
    (hk : n ≤ nChunks) (hb : log2Ceil n ≤ bN) (hN : 1 ≤ N) (h0 : Heap (GkrProof Fr)) :
    ∃ bound, Deadlocks bound (startOf (benchmarkMulti mimcHash frString arks draw bN n nCore nChunks N) h0 ()) := by
  have hz : nCore.tdiv n = 0 := by
    rcases le_or_gt 0 nCore with h | h
    · exact Int.tdiv_eq_zero_of_lt h hc.2
    · have h1 : (-nCore).tdiv n = -(nCore.tdiv n) := Int.neg_tdiv ..
      rw [Int.tdiv_eq_zero_of_lt (by omega) (by omega)] at h1
      omega
  have hk' : 1 ≤ nChunks / n := (Nat.one_le_div_iff (by omega)).2 hk
  rw [benchmarkMulti_eq]
  refine benchRounds_deadlock (fun j => ?_) hn hN h0
  rw [show ((bN : Int) - (log2Ceil n : Int)) = ((bN - log2Ceil n : Nat) : Int) by omega]
  refine benchSetup_fails _ _ _ _ hk' _ ?_
  rw [hz]
  unfold semaphoreSection
  rw [if_neg (by omega), if_pos ⟨rfl, by omega⟩]

/-- Four cores, eight processes. -/
example (draw : Nat → Nat → Nat → Fr) (h0 : Heap (GkrProof Fr)) :
    ∃ bound, Deadlocks bound (startOf (benchmarkMulti mimcHash frString arks draw 5 (8 : Nat) 4 8 1) h0 ()) :=
  C58_blocks 8 8 5 1 draw 4 (by omega) (by omega) le_rfl
    (by rw [show ((8 : Nat) : Int) = ((2 ^ 3 : Nat) : Int) from rfl, log2Ceil_pow]; omega) le_rfl h0

/-- C58. The other failures: more processes than chunks (division by zero), more processes than hashes (negative shift),
a negative core count, a negative number of processes. In each of them the whole process panics under all schedules. -/
theorem C58_panics (n nChunks bN N : Nat) (draw : Nat → Nat → Nat → Fr) (nCore : Int) (hn : 1 ≤ n) (hN : 1 ≤ N)
    (h0 : Heap (GkrProof Fr)) :
    (bN < log2Ceil n → ∃ bound, Panics (.explicit "negative shift amount") bound
      (startOf (benchmarkMulti mimcHash frString arks draw bN n nCore nChunks N) h0 ())) ∧
    (log2Ceil n ≤ bN → nChunks < n → ∃ bound, Panics .divZero bound
      (startOf (benchmarkMulti mimcHash frString arks draw bN n nCore nChunks N) h0 ())) ∧
    (log2Ceil n ≤ bN → n ≤ nChunks → nCore ≤ -n → ∃ bound, Panics .makeNeg bound
      (startOf (benchmarkMulti mimcHash frString arks draw bN n nCore nChunks N) h0 ())) ∧
    ∃ bound, Panics (.explicit "sync: negative WaitGroup counter") bound
      (startOf (benchmarkMulti mimcHash frString arks draw bN (-n) nCore nChunks N) h0 ()) := by
  refine ⟨fun h => ?_, fun h1 h2 => ?_, fun h1 h2 h3 => ?_, ?_⟩
  · rw [benchmarkMulti_eq]
    refine benchRounds_panics (by simp) (fun j => ?_) hn hN h0
    unfold benchSetup
    rw [mimc_circuit, ok_bind, if_pos (by omega)]
    rfl
  · rw [benchmarkMulti_eq]
    refine benchRounds_panics (by simp) (fun j => ?_) hn hN h0
    unfold benchSetup
    rw [mimc_circuit, ok_bind, if_neg (by omega), Nat.div_eq_of_lt h2]
    simp only
    unfold randomInputs goDiv
    rfl
  · have hz : nCore.tdiv n < 0 := by
      have : (-nCore).tdiv n = -(nCore.tdiv n) := Int.neg_tdiv ..
      have := tdiv_pos hn (show (n : Int) ≤ -nCore by omega)
      omega
    rw [benchmarkMulti_eq]
    refine benchRounds_panics (by simp) (fun j => ?_) hn hN h0
    rw [show ((bN : Int) - (log2Ceil n : Int)) = ((bN - log2Ceil n : Nat) : Int) by omega]
    refine benchSetup_fails _ _ _ _ ((Nat.one_le_div_iff (by omega)).2 h2) _ ?_
    unfold semaphoreSection
    rw [if_pos hz]
  · refine ⟨1, fun l s hl => ?_⟩
    unfold benchmarkMulti at hl
    rw [if_pos (by omega)] at hl
    rcases reachIn_first hl with ⟨rfl, rfl⟩ | ⟨l', s1, rfl, ⟨_, hs⟩, hl'⟩
    · refine ⟨by omega, ?_, .inl rfl, fun hst => absurd ⟨rfl, .inl ⟨0, rfl⟩⟩ (hst _)⟩
      rintro ⟨r, hr⟩
      simp [startOf] at hr
    · have e : s1 = (startOf (Prog.crash (.explicit "sync: negative WaitGroup counter")) h0 ()).panic
          (.explicit "sync: negative WaitGroup counter") := solo_step (solo_startOf _ _) rfl ⟨rfl, hs⟩
      subst e
      rcases reachIn_first hl' with ⟨rfl, rfl⟩ | ⟨_, _, rfl, ⟨hc, _⟩, _⟩
      · refine ⟨by omega, ?_, .inr rfl, fun _ => rfl⟩
        rintro ⟨r, hr⟩
        simp [startOf, Conf.panic] at hr
      · cases hc

/-- Two processes and one chunk. -/
example (draw : Nat → Nat → Nat → Fr) (h0 : Heap (GkrProof Fr)) :
    ∃ bound, Panics .divZero bound (startOf (benchmarkMulti mimcHash frString arks draw 5 (2 : Nat) 8 1 1) h0 ()) :=
  (C58_panics 2 1 5 1 draw 8 (by omega) le_rfl h0).2.1
    (by rw [show ((2 : Nat) : Int) = ((2 ^ 1 : Nat) : Int) from rfl, log2Ceil_pow]; omega) (by omega)

end GkrMimc
