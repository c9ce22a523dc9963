import Verif.Proofs.GadgetBench
import Verif.Props.SumcheckTesting
import Verif.Props.MachInt

/-! C64: the benchmarks of the gadgets and of single steps. -/

namespace GkrMimc

open Spec

/-- C64. The random inputs: entry `j` of chunk `i` is the result of its own call of `SetRandom`, the calls being made in the order of
the entries. -/
theorem C64_draws {F : Type} (draw : Nat → F) (start n m : Nat) :
    (∀ j, (randomFrArray draw start n)[j]? = if j < n then some (draw (start + j)) else none) ∧
    (randomFrDoubleSlice draw start n m).map List.length = List.replicate n m ∧
    (randomFrDoubleSlice draw start n m).flatten = randomFrArray draw start (n * m) := by
  refine ⟨fun j => ?_, ?_, ?_⟩
  · unfold randomFrArray
    split_ifs with h
    · simp [h]
    · simp; omega
  · unfold randomFrDoubleSlice
    rw [List.map_map]
    refine List.ext_getElem (by simp) fun i h1 h2 => by simp
  · unfold randomFrDoubleSlice randomFrArray
    induction n with
    | zero => simp
    | succ n ih =>
      rw [List.range_succ, List.map_append, List.flatten_append, ih, Nat.succ_mul, List.range_add, List.map_append, List.map_map]
      simp [Function.comp_def, Nat.add_assoc]

/-- What each call of a phase should report: its computations, nothing else. -/
def onlyRuns (ns : List Nat) : List (List Work) := ns.map fun n => (List.range n).map .run

theorem double_slice (draw : Nat → Fr) (k m : Nat) :
    WellChunked k (1 + m) (randomFrDoubleSlice draw 0 (2 ^ k) (2 * 2 ^ (m + k) / 2 ^ k)) := by
  have : 2 * 2 ^ (m + k) / 2 ^ k = 2 ^ (1 + m) := by
    rw [show 2 * 2 ^ (m + k) = 2 ^ (1 + m) * 2 ^ k by rw [← pow_add]; ring, Nat.mul_div_cancel _ (by positivity)]
  rw [this]
  refine ⟨by simp [randomFrDoubleSlice], fun c hc => ?_⟩
  obtain ⟨i, -, rfl⟩ := List.mem_map.1 hc
  simp

/-- The values of the native circuit on inputs, as the benchmark reads them. -/
theorem assign_91 (k m : Nat) (inputs : List (List Fr)) (hin : WellChunked k (1 + m) inputs) (nCore : Int) (hc : 1 ≤ nCore)
    {c : Circuit Fr} {values : List (List (List Fr))} (h1 : createMimcCircuit frString arks = .ok c)
    (h2 : c.assign inputs nCore = .ok values) :
    idx values 91 = .ok (inputs.map fun c => mimcExpected (unchunk (2 ^ m) c)) ∧
    values.getLast? = some (inputs.map fun c => mimcExpected (unchunk (2 ^ m) c)) := by
  obtain ⟨g1, g2⟩ := mimc_run_values m inputs hin.2 nCore hc
  rw [mimc_circuit] at h1
  obtain rfl := Except.ok.inj h1
  rw [h2] at g1
  obtain rfl := Except.ok.inj g1
  refine ⟨?_, g2⟩
  have hcl : (arks.take 91).length = 91 := by
    have := arks_length
    rw [List.length_take]; omega
  have hne : mimcWiring frString (arks.take 91) ≠ [] := by
    cases h : arks.take 91 with
    | nil => rw [h] at hcl; cases hcl
    | cons c cs => cases cs <;> simp [mimcWiring]
  have hA := honest_of_wired _ hne (mimcWiring_good frString (arks.take 91)) 1 k m (mimcWiring_chained _ _) _ hin
  have : (newCircuit (mimcWiring frString (arks.take 91))).layers.length = 91 := by
    simpa [newCircuit] using (mimcWiring_ends (arks.take 91) 89 hcl).1
  rw [List.getLast?_eq_getElem?, hA.lengths, this] at g2
  exact idx_some g2

/-- The steps of the four phases on the variables. -/
def stepA (a : List (List (List Fr))) (o : List (List Fr)) (v : GkrBenchVars Fr) : GkrBenchVars Fr := { v with assignment := a, outputs := o }
@[inherit_doc stepA]
def stepG (p : GkrProof Fr) (v : GkrBenchVars Fr) : GkrBenchVars Fr := { v with proof := p }
@[inherit_doc stepA]
def stepW (w : GkrMimcTestCircuit Fr (Option Fr)) (v : GkrBenchVars Fr) : GkrBenchVars Fr := { v with witness := w }
@[inherit_doc stepA]
def stepP (y : System Fr) (v : GkrBenchVars Fr) : GkrBenchVars Fr := { v with proved := v.proved ++ [(y, v.witness)] }

theorem stepP_iterate (y : System Fr) (n : Nat) (v : GkrBenchVars Fr) :
    (stepP y)^[n] v = { v with proved := v.proved ++ List.replicate n (y, v.witness) } := by
  induction n with
  | zero => simp
  | succ n ih =>
    rw [Function.iterate_succ_apply', ih]
    simp [stepP, List.replicate_succ']

/-- The phase with the proofs of `groth16`. -/
theorem phaseP_ran (y : System Fr) (ns : List Nat) (s : Host (Phases (GkrBenchVars Fr))) :
    ∃ s', bRun (phasePlain fun v : GkrBenchVars Fr => return { v with proved := v.proved ++ [(y, v.witness)] }) ns s = (.ret (), s') ∧
      s'.result.vars = { s.result.vars with proved := s.result.vars.proved ++ List.replicate ns.sum (y, s.result.vars.witness) } ∧
      s'.result.reports = s.result.reports ++ onlyRuns ns := by
  obtain ⟨s', h1, h2, h3, -⟩ := bRun_ran (P := fun _ => True) (step := stepP y)
    (fun n s hP ht he => phasePlain_ran (P := fun _ => True) (fun v _ => ⟨rfl, trivial⟩) n s hP ht he) ns s trivial
  exact ⟨s', h1, by rw [h2, stepP_iterate], h3⟩

/-- The run of the prover and the witness it is assigned to. -/
theorem honest_witness_full (k m : Nat) (inputs : List (List Fr)) (hin : WellChunked k (1 + m) inputs) (nCore : Int) (hc : 1 ≤ nCore) :
    ∃ (c : Circuit Fr) (values : _) (outputs : _) (p : _) (proof : GkrProof Fr) (t : GkrMimcTestCircuit Fr (Option Fr))
        (w : GkrMimcTestCircuit Fr Fr), createMimcCircuit frString arks = .ok c ∧ c.assign inputs nCore = .ok values ∧
      values.getLast? = some outputs ∧ newGkrProver c values = .ok p ∧ p.prove mimcHash nCore = .ok proof ∧
      allocateTestCircuit arks (m + k) = .ok t ∧
      t.assign proof inputs outputs (getInitialQPrimeAndQ (m + k) 0).1 = .ok w.filled ∧
      w.vInput = interleave (2 ^ k) (2 ^ (1 + m)) inputs ∧ w.vOutput = interleave (2 ^ k) (2 ^ m) outputs ∧
      SameShape t w ∧ w.circuit = t.circuit ∧ (w.define arks).Satisfied ∧
      w.proof = proof ∧ w.qInitial = [] ∧ w.qInitialprime = qPrime0 (m + k) := by
  obtain ⟨c, values, outputs, p, proof, t, h1, h2, h3, h4, h5, h6, h7, h8⟩ := honest_shape k m inputs hin nCore nCore hc hc
  obtain ⟨c', values', outputs', p', proof', sc, g1, g2, g3, g4, g5, g6, _, g8, g9, g10⟩ := C37_assign k m inputs hin nCore nCore hc hc
  obtain rfl : c = c' := by rw [h1] at g1; exact Except.ok.inj g1
  obtain rfl : values = values' := by rw [h2] at g2; exact Except.ok.inj g2
  obtain rfl : outputs = outputs' := by rw [h3] at g3; exact Option.some.inj g3
  obtain rfl : p = p' := by rw [h4] at g4; exact Except.ok.inj g4
  obtain rfl : proof = proof' := by rw [h5] at g5; exact Except.ok.inj g5
  obtain rfl : snarkCircuit arks = sc := by rw [snark_circuit] at g6; exact Except.ok.inj g6
  refine ⟨c, values, outputs, p, proof, t, _, h1, h2, h3, h4, h5, h6, ?_, rfl, rfl, h7, rfl, h8, rfl, rfl, rfl⟩
  have ht : t = ⟨snarkCircuit arks, snarkAllocateProof (m + k) (snarkCircuit arks), [], List.replicate (m + k) none,
      allocateMultilinear (m + k + 1), allocateMultilinear (m + k)⟩ := by
    unfold allocateTestCircuit at h6
    rw [snark_circuit, ok_bind] at h6
    exact (Except.ok.inj h6).symm
  subst ht
  have hq := assignPoint_ok (qPrime0 (m + k))
  rw [qPrime0_length] at hq
  unfold GkrMimcTestCircuit.assign
  dsimp only
  rw [g8, ok_bind]
  change (forN (qPrime0 (m + k)).length _ (fun i t => do
      let x ← idx (qPrime0 (m + k)) i
      slotsAssign t i x) >>= _) = _
  rw [qPrime0_length, hq, ok_bind, show m + k + 1 = 1 + (m + k) by omega, g9, ok_bind, g10, ok_bind]
  rfl

theorem honest_witness (k m : Nat) (inputs : List (List Fr)) (hin : WellChunked k (1 + m) inputs) (nCore : Int) (hc : 1 ≤ nCore) :
    ∃ (c : Circuit Fr) (values : _) (outputs : _) (p : _) (proof : GkrProof Fr) (t : GkrMimcTestCircuit Fr (Option Fr))
        (w : GkrMimcTestCircuit Fr Fr), createMimcCircuit frString arks = .ok c ∧ c.assign inputs nCore = .ok values ∧
      values.getLast? = some outputs ∧ newGkrProver c values = .ok p ∧ p.prove mimcHash nCore = .ok proof ∧
      allocateTestCircuit arks (m + k) = .ok t ∧
      t.assign proof inputs outputs (getInitialQPrimeAndQ (m + k) 0).1 = .ok w.filled ∧
      w.vInput = interleave (2 ^ k) (2 ^ (1 + m)) inputs ∧ w.vOutput = interleave (2 ^ k) (2 ^ m) outputs ∧
      SameShape t w ∧ w.circuit = t.circuit ∧ (w.define arks).Satisfied := by
  obtain ⟨c, values, outputs, p, proof, t, w, h1, h2, h3, h4, h5, h6, h7, h8, h9, h10, h11, h12, _⟩ := honest_witness_full k m inputs hin nCore hc
  exact ⟨c, values, outputs, p, proof, t, w, h1, h2, h3, h4, h5, h6, h7, h8, h9, h10, h11, h12⟩

/-- The four phases, when each of the first three runs. -/
theorem phases_run (k m : Nat) (inputs : List (List Fr)) (hin : WellChunked k (1 + m) inputs) (nCore : Int) (h : 1 ≤ nCore) (y : System Fr)
    (nsA nsG nsW nsP : List Nat) (hA : 1 ≤ nsA.sum) (hG : 1 ≤ nsG.sum) (hW : 1 ≤ nsW.sum)
    (s : Host (Phases (GkrBenchVars Fr))) (hs : s.result = ⟨GkrBenchVars.zero, []⟩) :
    ∃ c t s' w, createMimcCircuit frString arks = .ok c ∧ allocateTestCircuit arks (m + k) = .ok t ∧
      gkrGadgetPhases mimcHash arks (m + k) nCore y c inputs nsA nsG nsW nsP s = (.ret (), s') ∧
      s'.result.reports = onlyRuns (nsA ++ nsG ++ nsW ++ nsP) ∧ s'.result.vars.proved = List.replicate nsP.sum (y, w.filled) ∧
      w.vInput = interleave (2 ^ k) (2 ^ (1 + m)) inputs ∧
      w.vOutput = interleave (2 ^ k) (2 ^ m) (inputs.map fun c => mimcExpected (unchunk (2 ^ m) c)) ∧
      SameShape t w ∧ w.circuit = t.circuit ∧ (w.define arks).Satisfied := by
  obtain ⟨c, values, outputs, p, proof, t, w, h1, h2, h3, h4, h5, h6, h7, h8, h9, h10, h11, h12⟩ := honest_witness k m inputs hin nCore h
  obtain ⟨e1, e2⟩ := assign_91 k m inputs hin nCore h h1 h2
  have ho : outputs = inputs.map fun c => mimcExpected (unchunk (2 ^ m) c) := by rw [h3] at e2; exact Option.some.inj e2
  rw [← ho] at e1
  obtain ⟨s1, r1, v1, rep1, -⟩ := bRun_ran (P := fun _ => True) (step := stepA values outputs)
    (body := phasePlain fun v : GkrBenchVars Fr => do
      let a ← c.assign inputs nCore
      let o ← idx a 91
      return { v with assignment := a, outputs := o })
    (fun n s hP ht he => phasePlain_ran (P := fun _ => True) (fun v _ => ⟨by rw [h2, ok_bind, e1, ok_bind]; rfl, trivial⟩) n s hP ht he) nsA s trivial
  rw [iterate_idem (f := stepA values outputs) (fun v => rfl) hA] at v1
  obtain ⟨s2, r2, v2, rep2, -⟩ := bRun_ran (P := fun v => v.assignment = values) (step := stepG proof)
    (body := fun n => do
      resetTimer
      phaseTimed (fun v : GkrBenchVars Fr => newGkrProver c v.assignment) (fun v p => do
        let proof ← p.prove mimcHash nCore
        return { v with proof := proof }) n)
    (fun n s hP ht he => by
      obtain ⟨s', x1, x2, x3⟩ := phaseTimed_ran (setup := fun v : GkrBenchVars Fr => newGkrProver c v.assignment)
        (run := fun v p => do
          let proof ← p.prove mimcHash nCore
          return { v with proof := proof }) (step := stepG proof) (P := fun v => v.assignment = values)
        (fun v hv => ⟨⟨p, by rw [hv]; exact h4, by rw [h5, ok_bind]; rfl⟩, hv⟩) n { s with elapsed := [] } hP rfl
      exact ⟨s', by rw [resetTimer_bind]; exact x1, ⟨x2.vars, x2.reports, x2.elapsed, x2.tracing, x2.profiling⟩, x3⟩) nsG s1 (by rw [v1]; rfl)
  rw [iterate_idem (f := stepG proof) (fun v => rfl) hG] at v2
  obtain ⟨s3, r3, v3, rep3, -⟩ := bRun_ran (P := fun v => v.proof = proof ∧ v.outputs = outputs) (step := stepW w.filled)
    (body := phaseTimed (fun _ => allocateTestCircuit arks (m + k)) fun (v : GkrBenchVars Fr) w => do
      let w ← w.assign v.proof inputs v.outputs (getInitialQPrimeAndQ (F := Fr) (m + k) 0).1
      return { v with witness := w })
    (fun n s hP ht he => phaseTimed_ran (step := stepW w.filled) (P := fun v => v.proof = proof ∧ v.outputs = outputs)
      (fun v hv => ⟨⟨t, h6, by
        rw [show t.assign v.proof inputs v.outputs _ = .ok w.filled by rw [hv.1, hv.2]; exact h7, ok_bind]; rfl⟩, hv⟩) n s hP he) nsW s2 (by rw [v2, v1]; exact ⟨rfl, rfl⟩)
  rw [iterate_idem (f := stepW w.filled) (fun v => rfl) hW] at v3
  obtain ⟨s4, r4, v4, rep4⟩ := phaseP_ran y nsP s3
  refine ⟨c, t, s4, w, h1, h6, ?_, ?_, ?_, h8, by rw [← ho]; exact h9, h10, h11, h12⟩
  · unfold gkrGadgetPhases
    rw [bm_bind_ret r1, bm_bind_ret r2, bm_bind_ret r3]
    exact r4
  · rw [rep4, rep3, rep2, rep1, hs]
    simp [onlyRuns]
  · rw [v4, v3, v2, v1, hs]
    simp [stepW, stepG, stepA, GkrBenchVars.zero]

/-- What comes before the phases. -/
theorem gkrGadget_eq (env : Env) (bN nChunks : Nat) (hn : 1 ≤ nChunks) (sc sb : String) (hc : env "NCHUNKS_GKR" = some sc)
    (hc' : Numeral sc (nChunks : Int)) (hb : env "BN_GKR" = some sb) (hb' : Numeral sb (bN : Int)) (nCore : Int) (draw : Nat → Fr)
    (nsA nsG nsW nsP : List Nat) (s : Host (Phases (GkrBenchVars Fr))) {t : _} {y : _} {c : _} (h1 : allocateTestCircuit arks bN = .ok t)
    (h2 : t.compile arks = .ok y) (h3 : createMimcCircuit frString arks = .ok c) :
    benchmarkGkrGadget mimcHash frString arks env nCore draw nsA nsG nsW nsP s =
      gkrGadgetPhases mimcHash arks bN nCore y c (randomFrDoubleSlice draw 0 nChunks (2 * 2 ^ bN / nChunks)) nsA nsG nsW nsP s := by
  unfold benchmarkGkrGadget
  rw [bm_bind_ret (bm_go_ok (((C60_getters env getBN "BN_GKR" (by simp)).1 _).2 ⟨sb, hb, hb'⟩) _),
    bm_bind_ret (bm_go_ok (((C60_getters env getNChunks "NCHUNKS_GKR" (by simp)).1 _).2 ⟨sc, hc, hc'⟩) _),
    if_neg (by omega), if_neg (by omega), Int.toNat_natCast, bm_bind_ret (bm_go_ok h1 _), bm_bind_ret (bm_go_ok h2 _),
    bm_bind_ret (bm_go_ok h3 _), if_neg (by omega), Int.toNat_natCast]

/-- C64. `BenchmarkMimcCircuit` for every environment with the numerals of a number of chunks `2 ^ k` and of `bN = m + k`, all draws,
core counts and numbers of rounds: it returns; every call of a phase measures its computations and nothing else; and `groth16.Prove` is
given, each time, the compiled system and a witness without holes that it accepts, with the drawn inputs and their MiMC values. -/
theorem C64_gkr (env : Env) (k m : Nat) (sc sb : String) (hc : env "NCHUNKS_GKR" = some sc) (hc' : Numeral sc ((2 ^ k : Nat) : Int))
    (hb : env "BN_GKR" = some sb) (hb' : Numeral sb ((m + k : Nat) : Int)) (nCore : Int) (h : 1 ≤ nCore) (draw : Nat → Fr)
    (nsA nsG nsW nsP : List Nat) (hA : 1 ≤ nsA.sum) (hG : 1 ≤ nsG.sum) (hW : 1 ≤ nsW.sum)
    (s : Host (Phases (GkrBenchVars Fr))) (hs : s.result = ⟨GkrBenchVars.zero, []⟩) :
    ∃ s' t y w, benchmarkGkrGadget mimcHash frString arks env nCore draw nsA nsG nsW nsP s = (.ret (), s') ∧
      s'.result.reports = onlyRuns (nsA ++ nsG ++ nsW ++ nsP) ∧
      s'.result.vars.proved = List.replicate nsP.sum (y, w.filled) ∧
      allocateTestCircuit arks (m + k) = .ok t ∧ t.compile arks = .ok y ∧ SameShape t w ∧ Accepts y w.vars ∧
      ∃ inputs, inputs = randomFrDoubleSlice draw 0 (2 ^ k) (2 ^ (1 + m)) ∧ w.vInput = interleave (2 ^ k) (2 ^ (1 + m)) inputs ∧
        w.vOutput = interleave (2 ^ k) (2 ^ m) (inputs.map fun c => mimcExpected (unchunk (2 ^ m) c)) := by
  obtain ⟨a, y, y1, y2, -⟩ := C62_gadget_size (m + k)
  have hsz : 2 * 2 ^ (m + k) / 2 ^ k = 2 ^ (1 + m) := by
    rw [show 2 * 2 ^ (m + k) = 2 ^ (1 + m) * 2 ^ k by rw [← pow_add]; ring, Nat.mul_div_cancel _ (by positivity)]
  have hin := double_slice draw k m
  rw [hsz] at hin
  obtain ⟨c, t, s', w, h1, h2, h3, h4, h5, h6, h7, h8, h9, h10⟩ := phases_run k m _ hin nCore h y nsA nsG nsW nsP hA hG hW s hs
  obtain rfl : a = t := by rw [h2] at y1; exact (Except.ok.inj y1).symm
  refine ⟨s', a, y, w, ?_, h4, h5, h2, y2, h8, ((C62_gadget_system _ a h2 y y2).1 _ h8 h9).2 h10, _, rfl, h6, h7⟩
  rw [gkrGadget_eq env (m + k) (2 ^ k) (Nat.one_le_two_pow) sc sb hc hc' hb hb' nCore draw nsA nsG nsW nsP s h2 y2 h1, hsz]
  exact h3

/-! Phases that do not run through. -/

theorem bm_work_error {R α : Type} {w : Work} {x : Go α} (h : x = .error .index) (s : Host R) :
    Bm.work w x s = (.panic .index, s.did w) := by
  subst h; rfl

theorem bRun_panic {V : Type} {body : Nat → Bm (Phases V) Unit} {e : Abort} {n : Nat} {ns : List Nat} {s s' : Host (Phases V)}
    (h : body n { s with elapsed := [], timer := true } = (.panic e, s')) : bRun body (n :: ns) s = (.panic e, s') := by
  unfold bRun
  rw [resetTimer_bind, startTimer_bind, bm_bind_panic h]

/-- The set-up fails. -/
theorem phaseTimed_panic {V σ : Type} {setup : V → Go σ} {run : V → σ → Go V} {n : Nat} (hn : 1 ≤ n) (s : Host (Phases V))
    (h : setup s.result.vars = .error .index ∨ ∃ p, setup s.result.vars = .ok p ∧ run s.result.vars p = .error .index) :
    ∃ s', phaseTimed setup run n s = (.panic .index, s') := by
  obtain ⟨n, rfl⟩ : ∃ j, n = j + 1 := ⟨n - 1, by omega⟩
  unfold phaseTimed
  rw [stopTimer_bind]
  rcases h with h | ⟨p, h, h'⟩
  · exact ⟨_, Bm.forN_panic (by rw [getVars_bind, bm_bind_panic (bm_work_error h _)]) n⟩
  · exact ⟨_, Bm.forN_panic (by
      rw [getVars_bind, bm_bind_ret (bm_work_ok h _), startTimer_bind, bm_bind_panic (bm_work_error h' _)]) n⟩

theorem allocated_form {bN : Nat} {t : GkrMimcTestCircuit Fr (Option Fr)} (h : allocateTestCircuit arks bN = .ok t) :
    t = ⟨snarkCircuit arks, snarkAllocateProof bN (snarkCircuit arks), [], List.replicate bN none,
      allocateMultilinear (bN + 1), allocateMultilinear bN⟩ := by
  unfold allocateTestCircuit at h
  rw [snark_circuit, ok_bind] at h
  exact (Except.ok.inj h).symm

/-- The allocated proof has layers, so that it cannot be assigned the empty proof. -/
theorem assign_empty {bN : Nat} {t : GkrMimcTestCircuit Fr (Option Fr)} (h : allocateTestCircuit arks bN = .ok t)
    (inputs outputs : List (List Fr)) (q : List Fr) :
    0 < t.proof.claimsLeft.length ∧ t.assign ⟨[], [], []⟩ inputs outputs q = .error .index := by
  have hl : 0 < (snarkCircuit arks).layers.length := by decide +kernel
  rw [allocated_form h]
  refine ⟨by simpa [snarkAllocateProof] using hl, ?_⟩
  have hlen : 0 < (snarkAllocateProof bN (snarkCircuit arks)).sumcheckProofs.length := by simpa [snarkAllocateProof] using hl
  unfold GkrMimcTestCircuit.assign snarkAssign
  dsimp only
  rw [forN_error_first (e := .index) hlen (by rw [idx_ok hlen, ok_bind]; rfl)]
  rfl

/-- C64. The phases depend on each other, but each can be left out on the command line: without the first one the second panics; without
the second the third panics; and without the third `groth16.Prove`, whose error is ignored, is given a witness that is none of the
compiled circuit. -/
theorem C64_gkr_skipped (env : Env) (k m : Nat) (sc sb : String) (hc : env "NCHUNKS_GKR" = some sc) (hc' : Numeral sc ((2 ^ k : Nat) : Int))
    (hb : env "BN_GKR" = some sb) (hb' : Numeral sb ((m + k : Nat) : Int)) (nCore : Int) (h : 1 ≤ nCore) (draw : Nat → Fr)
    (s : Host (Phases (GkrBenchVars Fr))) (hs : s.result = ⟨GkrBenchVars.zero, []⟩) (n : Nat) (hn : 1 ≤ n) (ns nsA nsW nsP : List Nat) :
    (benchmarkGkrGadget mimcHash frString arks env nCore draw [] (n :: ns) nsW nsP s).1 = .panic .index ∧
    (benchmarkGkrGadget mimcHash frString arks env nCore draw nsA [] (n :: ns) nsP s).1 = .panic .index ∧
    ∃ t s' y w, benchmarkGkrGadget mimcHash frString arks env nCore draw nsA [] [] (n :: ns) s = (.ret (), s') ∧
      s'.result.vars.proved = List.replicate (n :: ns).sum (y, w) ∧
      allocateTestCircuit arks (m + k) = .ok t ∧ t.compile arks = .ok y ∧ ∀ w', SameShape t w' → w ≠ w'.filled := by
  obtain ⟨t, y, h1, h2, -⟩ := C62_gadget_size (m + k)
  have hin := double_slice draw k m
  set inputs := randomFrDoubleSlice draw 0 (2 ^ k) (2 * 2 ^ (m + k) / 2 ^ k) with hi
  obtain ⟨c, values, outputs, p, proof, t', w, h3, h4, h5, -⟩ := honest_witness k m inputs hin nCore h
  obtain ⟨e1, -⟩ := assign_91 k m inputs hin nCore h h3 h4
  set outputs := inputs.map fun c => mimcExpected (unchunk (2 ^ m) c) with ho
  have key : ∀ nsA nsG nsW nsP, benchmarkGkrGadget mimcHash frString arks env nCore draw nsA nsG nsW nsP s =
      gkrGadgetPhases mimcHash arks (m + k) nCore y c inputs nsA nsG nsW nsP s := fun nsA nsG nsW nsP =>
    gkrGadget_eq env (m + k) (2 ^ k) (Nat.one_le_two_pow) sc sb hc hc' hb hb' nCore draw nsA nsG nsW nsP s h1 h2 h3
  obtain ⟨s1, r1, v1, -, pr⟩ := bRun_ran (P := fun v : GkrBenchVars Fr => v.proof = ⟨[], [], []⟩ ∧ v.proved = [] ∧ v.witness = GkrBenchVars.zero.witness)
    (step := stepA values outputs)
    (body := phasePlain fun v : GkrBenchVars Fr => do
      let a ← c.assign inputs nCore
      let o ← idx a 91
      return { v with assignment := a, outputs := o })
    (fun n s hP ht he => phasePlain_ran (step := stepA values outputs) (P := fun v : GkrBenchVars Fr => v.proof = ⟨[], [], []⟩ ∧ v.proved = [] ∧ v.witness = GkrBenchVars.zero.witness)
      (fun v hv => ⟨by rw [h4, ok_bind, e1, ok_bind]; rfl, hv⟩) n s hP ht he) nsA s
    (by rw [hs]; exact ⟨rfl, rfl, rfl⟩)
  refine ⟨?_, ?_, ?_⟩
  · rw [key]
    unfold gkrGadgetPhases
    obtain ⟨s', g⟩ := phaseTimed_panic (setup := fun v : GkrBenchVars Fr => newGkrProver c v.assignment)
      (run := fun v p => do
        let proof ← p.prove mimcHash nCore
        return { v with proof := proof }) hn { s with elapsed := [], timer := true } (.inl (by rw [hs]; rfl))
    rw [bm_bind_ret (x := bRun _ []) (s' := s) (a := ()) rfl, bm_bind_panic (bRun_panic (by rw [resetTimer_bind]; exact g))]
  · rw [key]
    unfold gkrGadgetPhases
    rw [bm_bind_ret r1, bm_bind_ret (x := bRun _ []) (s' := s1) (a := ()) rfl]
    obtain ⟨s', g⟩ := phaseTimed_panic (setup := fun _ : GkrBenchVars Fr => allocateTestCircuit arks (m + k))
      (run := fun (v : GkrBenchVars Fr) w => do
        let w ← w.assign v.proof inputs v.outputs (getInitialQPrimeAndQ (F := Fr) (m + k) 0).1
        return { v with witness := w }) hn { s1 with elapsed := [], timer := true } (.inr ⟨t, h1, by
          dsimp only
          rw [pr.1, (assign_empty h1 _ _ _).2]; rfl⟩)
    rw [bm_bind_panic (bRun_panic g)]
  · obtain ⟨s4, r4, v4, -⟩ := phaseP_ran y (n :: ns) s1
    refine ⟨t, s4, y, GkrBenchVars.zero.witness, ?_, ?_, h1, h2, ?_⟩
    · rw [key]
      unfold gkrGadgetPhases
      rw [bm_bind_ret r1, bm_bind_ret (x := bRun _ []) (s' := s1) (a := ()) rfl, bm_bind_ret (x := bRun _ []) (s' := s1) (a := ()) rfl]
      exact r4
    · rw [v4]
      simp [pr.2.1, pr.2.2]
    · intro w' hw' e
      have e2 := congrArg (fun c => c.proof.claimsLeft.length) e
      have := hw'.2.1
      have := (assign_empty h1 [] [] []).1
      simp [GkrMimcTestCircuit.filled, GkrBenchVars.zero] at e2
      omega

/-- C64. The environments on which `BenchmarkMimcCircuit` panics before the first phase: a missing or malformed value, a negative `bN`,
no chunks, and a negative number of chunks. -/
theorem C64_gkr_env (env : Env) (nCore : Int) (draw : Nat → Fr) (nsA nsG nsW nsP : List Nat) (s : Host (Phases (GkrBenchVars Fr))) :
    ((¬ ∃ sb v, env "BN_GKR" = some sb ∧ Numeral sb v) →
      (benchmarkGkrGadget mimcHash frString arks env nCore draw nsA nsG nsW nsP s).1 =
        .panic (.explicit "Please set \"BN_GKR\" before running the benchmark")) ∧
    ∀ sb bN, env "BN_GKR" = some sb → Numeral sb bN →
      ((¬ ∃ sc v, env "NCHUNKS_GKR" = some sc ∧ Numeral sc v) →
        (benchmarkGkrGadget mimcHash frString arks env nCore draw nsA nsG nsW nsP s).1 =
          .panic (.explicit "Please set \"NCHUNKS_GKR\" before running the benchmark")) ∧
      ∀ sc nc, env "NCHUNKS_GKR" = some sc → Numeral sc nc →
        (bN < 0 → (benchmarkGkrGadget mimcHash frString arks env nCore draw nsA nsG nsW nsP s).1 = .panic (.explicit "negative shift amount")) ∧
        (0 ≤ bN → nc = 0 → (benchmarkGkrGadget mimcHash frString arks env nCore draw nsA nsG nsW nsP s).1 = .panic .divZero) ∧
        (0 ≤ bN → nc < 0 → (benchmarkGkrGadget mimcHash frString arks env nCore draw nsA nsG nsW nsP s).1 = .panic .makeNeg) := by
  obtain ⟨gB, gB'⟩ := C60_getters env getBN "BN_GKR" (by simp)
  obtain ⟨gC, gC'⟩ := C60_getters env getNChunks "NCHUNKS_GKR" (by simp)
  refine ⟨fun h => ?_, fun sb bN h1 h2 => ⟨fun h => ?_, fun sc nc h3 h4 => ⟨fun h => ?_, fun h h' => ?_, fun h h' => ?_⟩⟩⟩ <;>
    unfold benchmarkGkrGadget
  · rw [gB' h]
    rfl
  · rw [(gB _).2 ⟨sb, h1, h2⟩, bm_bind_ret (bm_go_ok rfl _), gC' h]
    rfl
  · rw [(gB _).2 ⟨sb, h1, h2⟩, bm_bind_ret (bm_go_ok rfl _), (gC _).2 ⟨sc, h3, h4⟩, bm_bind_ret (bm_go_ok rfl _), if_pos h]
    rfl
  · rw [(gB _).2 ⟨sb, h1, h2⟩, bm_bind_ret (bm_go_ok rfl _), (gC _).2 ⟨sc, h3, h4⟩, bm_bind_ret (bm_go_ok rfl _), if_neg (by omega), if_pos h']
    rfl
  · obtain ⟨t, y, g1, g2, -⟩ := C62_gadget_size bN.toNat
    rw [(gB _).2 ⟨sb, h1, h2⟩, bm_bind_ret (bm_go_ok rfl _), (gC _).2 ⟨sc, h3, h4⟩, bm_bind_ret (bm_go_ok rfl _), if_neg (by omega),
      if_neg (by omega), bm_bind_ret (bm_go_ok g1 _), bm_bind_ret (bm_go_ok g2 _), bm_bind_ret (bm_go_ok mimc_circuit _), if_pos h']
    rfl

/-! ### The benchmark of the hash gadget -/

theorem parseUint_digits (ds : List Char) (n : Nat) (hn : n < 2 ^ 64) (h : ∀ c ∈ ds, c.isDigit = true) :
    parseUintLoop ds n = (if ds.foldl (fun n c => n * 10 + (c.toNat - '0'.toNat)) n < 2 ^ 64 then
      .value (ds.foldl (fun n c => n * 10 + (c.toNat - '0'.toNat)) n) else .rangeErr) := by
  have grow : ∀ (ds : List Char) (a : Nat), a ≤ ds.foldl (fun n c => n * 10 + (c.toNat - '0'.toNat)) a := by
    intro ds
    induction ds with
    | nil => intro a; exact le_rfl
    | cons c ds ih => intro a; exact le_trans (by dsimp only; omega) (ih _)
  induction ds generalizing n with
  | nil =>
    show ParseEnd.value n = if n < 2 ^ 64 then _ else _
    rw [if_pos hn]; rfl
  | cons c ds ih =>
    unfold parseUintLoop
    rw [if_pos (h c (by simp)), List.foldl_cons]
    dsimp only
    by_cases hl : 2 ^ 64 ≤ n * 10 + (c.toNat - '0'.toNat)
    · rw [if_pos hl, if_neg (not_lt.2 (le_trans hl (grow _ _)))]
    · rw [if_neg hl, ih _ (not_le.1 hl) fun c hc => h c (by simp [hc])]

theorem parseUint_other (ds : List Char) (n : Nat) (c : Char) (hc : c ∈ ds) (hd : c.isDigit = false) (hl : n < 10 ^ (19 - ds.length)) (hl' : ds.length ≤ 19) :
    parseUintLoop ds n = .syntaxErr := by
  induction ds generalizing n with
  | nil => simp at hc
  | cons a ds ih =>
    unfold parseUintLoop
    by_cases ha : a.isDigit = true
    · rw [if_pos ha]
      dsimp only
      have hs : a.toNat - '0'.toNat ≤ 9 := by
        have := (isDigit_iff a).1 ha
        have h2 : a.toNat ≤ '9'.toNat := by simpa [Char.le_def, UInt32.le_iff_toNat_le] using this.2
        have : '9'.toNat = 57 := rfl
        have : '0'.toNat = 48 := rfl
        omega
      have e : 10 ^ (19 - ds.length) = 10 ^ (19 - (a :: ds).length) * 10 := by
        rw [← pow_succ]; congr 1; simp at hl' ⊢; omega
      have hn' : n * 10 + (a.toNat - '0'.toNat) < 10 ^ (19 - ds.length) := by rw [e]; omega
      have hp : 10 ^ (19 - ds.length) ≤ 10 ^ 19 := Nat.pow_le_pow_right (by norm_num) (by omega)
      rw [if_neg (by have : (10:Nat) ^ 19 < 2 ^ 64 := by norm_num
                     omega)]
      refine ih _ ?_ hn' (by simp at hl'; omega)
      rcases List.mem_cons.1 hc with rfl | h
      · rw [ha] at hd; cases hd
      · exact h
    · rw [if_neg ha]

/-- Sign and digits. -/
theorem atoiIgnored_split {s : String} {sign ds : List Char} (h : s.toList = sign ++ ds) (hs : sign = [] ∨ sign = ['+'] ∨ sign = ['-'])
    (hd : sign = [] → ∀ c t, ds = c :: t → c ≠ '+' ∧ c ≠ '-') (hne : ds ≠ []) :
    atoiIgnored s = match parseUintLoop ds 0 with
      | .syntaxErr => 0
      | .rangeErr => if sign = ['-'] then -2 ^ 63 else 2 ^ 63 - 1
      | .value n =>
        if sign = ['-'] then (if 2 ^ 63 < n then -2 ^ 63 else -(n : Int))
        else if 2 ^ 63 ≤ n then 2 ^ 63 - 1 else (n : Int) := by
  have hE : ds.isEmpty = false := by simpa using hne
  unfold atoiIgnored
  rcases hs with rfl | rfl | rfl
  · rw [h]
    simp only [List.nil_append]
    cases ds with
    | nil => exact absurd rfl hne
    | cons c t =>
      have hc := hd rfl c t rfl
      split
      · simp_all
      · simp_all
        cases parseUintLoop (c :: t) 0 <;> rfl
  · rw [h]
    simp only [List.cons_append, List.nil_append, hE]
    cases parseUintLoop ds 0 <;> rfl
  · rw [h]
    simp only [List.cons_append, List.nil_append, hE]
    cases parseUintLoop ds 0 <;> rfl

/-- C64. What `strconv.Atoi` returns where its error is ignored: for a numeral its value; for a numeral of an integer out of range the
nearest `int`; for an unset variable, and for every other string of up to 19 characters after the sign, 0. -/
theorem C64_atoi_ignored :
    (∀ s v, Numeral s v → atoiIgnored s = v) ∧
    (∀ s sign ds, s.toList = sign ++ ds → (sign = [] ∨ sign = ['+'] ∨ sign = ['-']) → ds ≠ [] → (∀ c ∈ ds, '0' ≤ c ∧ c ≤ '9') →
      (sign ≠ ['-'] → 2 ^ 63 ≤ Nat.ofDigits 10 (ds.reverse.map fun c => c.toNat - '0'.toNat) → atoiIgnored s = 2 ^ 63 - 1) ∧
      (sign = ['-'] → 2 ^ 63 < Nat.ofDigits 10 (ds.reverse.map fun c => c.toNat - '0'.toNat) → atoiIgnored s = -2 ^ 63)) ∧
    (∀ env name, env name = none → atoiIgnored (getenv env name) = 0) ∧
    (∀ s sign ds, s.toList = sign ++ ds → (sign = [] ∨ sign = ['+'] ∨ sign = ['-']) → ds.length ≤ 19 →
      (∃ c ∈ ds, ¬ ('0' ≤ c ∧ c ≤ '9')) → (sign = [] → ∀ c t, ds = c :: t → c ≠ '+' ∧ c ≠ '-') → atoiIgnored s = 0) := by
  refine ⟨?_, ?_, ?_, ?_⟩
  · rintro s v ⟨sign, ds, h1, h2, h4, h5, h6, h7⟩
    rw [atoiIgnored_split h1 h2 (fun _ c t h => isDigit_ne_sign ((isDigit_iff c).2 (h5 c (by rw [h]; simp)))) h4,
      parseUint_digits ds 0 (by norm_num) fun c hc => (isDigit_iff c).2 (h5 c hc), foldl_digits, zero_mul, zero_add]
    generalize Nat.ofDigits 10 (ds.reverse.map fun c => c.toNat - '0'.toNat) = N at *
    split at h6
    · rw [if_pos (by omega)]
      dsimp only
      rw [if_pos (by assumption), if_neg (by omega)]
      omega
    · rw [if_pos (by omega)]
      dsimp only
      rw [if_neg (by assumption), if_neg (by omega)]
      omega
  · intro s sign ds h1 h2 h4 h5
    rw [atoiIgnored_split h1 h2 (fun _ c t h => isDigit_ne_sign ((isDigit_iff c).2 (h5 c (by rw [h]; simp)))) h4,
      parseUint_digits ds 0 (by norm_num) fun c hc => (isDigit_iff c).2 (h5 c hc), foldl_digits, zero_mul, zero_add]
    generalize Nat.ofDigits 10 (ds.reverse.map fun c => c.toNat - '0'.toNat) = N at *
    constructor
    · intro hs hN
      by_cases hb : N < 2 ^ 64
      · rw [if_pos hb]; dsimp only; rw [if_neg hs, if_pos hN]
      · rw [if_neg hb]; dsimp only; rw [if_neg hs]
    · intro hs hN
      by_cases hb : N < 2 ^ 64
      · rw [if_pos hb]; dsimp only; rw [if_pos hs, if_pos hN]
      · rw [if_neg hb]; dsimp only; rw [if_pos hs]
  · intro env name h
    unfold getenv
    rw [h]
    rfl
  · rintro s sign ds h1 h2 hl ⟨c, hc, hd⟩ h3
    have hd' : c.isDigit = false := by
      rw [← Bool.not_eq_true, isDigit_iff]; exact hd
    rw [atoiIgnored_split h1 h2 h3 (List.ne_nil_of_mem hc), parseUint_other ds 0 c hc hd' (by positivity) hl]

/-- The size of the circuit, `1<<bN`. -/
theorem hash_size (v : Int) (hv : -2 ^ 63 ≤ v ∧ v < 2 ^ 63) :
    (v < 0 → wShl 1 (reg v) = .error (.explicit "negative shift amount")) ∧
    (0 ≤ v → v ≤ 62 → wShl 1 (reg v) = .ok (2 ^ v.toNat) ∧ wMake0 (2 ^ v.toNat) = .ok (2 ^ v.toNat)) ∧
    (v = 63 → ∃ a, wShl 1 (reg v) = .ok a ∧ wMake0 a = .error .makeNeg) ∧
    (64 ≤ v → wShl 1 (reg v) = .ok 0 ∧ wMake0 0 = .ok 0) := by
  have hr := sgn_reg hv.1 hv.2
  unfold wShl
  rw [hr]
  have h1 : sgn 1 = 1 := rfl
  rw [h1, one_mul]
  refine ⟨fun h => if_pos h, fun h h' => ?_, fun h => ?_, fun h => ?_⟩
  · rw [if_neg (by omega)]
    have hp : 2 ^ v.toNat ≤ 2 ^ 62 := Nat.pow_le_pow_right (by norm_num) (by omega)
    have e : (2 : Int) ^ v.toNat = ((2 ^ v.toNat : Nat) : Int) := by push_cast; rfl
    refine ⟨by rw [e, reg_nat (lt_of_le_of_lt hp (by norm_num))], ?_⟩
    unfold wMake0
    rw [sgn_nat (lt_of_le_of_lt hp (by norm_num)), if_neg (not_lt.2 (Int.natCast_nonneg _)), Int.toNat_natCast]
  · subst h
    exact ⟨_, rfl, by decide +kernel⟩
  · rw [if_neg (by omega)]
    refine ⟨?_, rfl⟩
    obtain ⟨j, hj⟩ : ∃ j, v.toNat = 64 + j := ⟨v.toNat - 64, by omega⟩
    rw [hj, pow_add]
    unfold reg
    have : (2 : Int) ^ 64 = 18446744073709551616 := by norm_num
    rw [this, Int.mul_emod_right]
    rfl

/-- A phase of the proofs of the hash gadget. -/
def stepH (y : System Fr) (v : HashBenchVars Fr) : HashBenchVars Fr := { v with proved := v.proved ++ [(y, v.witness)] }

theorem stepH_iterate (y : System Fr) (n : Nat) (v : HashBenchVars Fr) :
    (stepH y)^[n] v = { v with proved := v.proved ++ List.replicate n (y, v.witness) } := by
  induction n with
  | zero => simp
  | succ n ih =>
    rw [Function.iterate_succ_apply', ih]
    simp [stepH, List.replicate_succ']

/-- The witness of the hash gadget for the messages of one word. -/
theorem hash_witness (n : Nat) (draw : Nat → Fr) :
    (allocateHashTest (F := Fr) n 1).assign arks ((List.range n).map fun i => randomFrArray draw i 1) =
      .ok ⟨(List.range n).map (fun i => [some (draw i)]), (List.range n).map fun i => some (mimcHash [draw i])⟩ := by
  have h := hashTest_assign arks n 1 (fun k => randomFrArray draw k 1) (fun i _ => randomFrArray_length _ _ _)
    (fun k => mimcHash (randomFrArray draw k 1)) (fun i _ => C26_hash _)
  have e : ∀ i, randomFrArray draw i 1 = [draw i] := fun i => by simp [randomFrArray]
  simp only [e] at h
  simpa [tab, e] using h

/-- The run of `BenchmarkMimc` once the size is known. -/
theorem hash_run (env : Env) (size size' : Nat) (draw : Nat → Fr) (nsA nsP : List Nat) (hA : 1 ≤ nsA.sum)
    (s : Host (Phases (HashBenchVars Fr))) (hs : s.result = ⟨HashBenchVars.zero, []⟩)
    (h1 : wShl 1 (reg (atoiIgnored (getenv env "BN_GKR"))) = .ok size') (h2 : wMake0 size' = .ok size) :
    ∃ s' y, benchmarkHashGadget arks env draw nsA nsP s = (.ret (), s') ∧ s'.result.reports = onlyRuns (nsA ++ nsP) ∧
      (allocateHashTest (F := Fr) size 1).compile arks = .ok y ∧
      s'.result.vars.proved = List.replicate nsP.sum (y, ⟨(List.range size).map (fun i => [some (draw i)]),
        (List.range size).map fun i => some (mimcHash [draw i])⟩) := by
  obtain ⟨y, hy, -⟩ := C62_direct_size size 1
  set w : HashTestCircuit (Option Fr) := ⟨(List.range size).map (fun i => [some (draw i)]),
    (List.range size).map fun i => some (mimcHash [draw i])⟩ with hw
  obtain ⟨s1, r1, v1, rep1, -⟩ := bRun_ran (P := fun _ => True) (step := fun v : HashBenchVars Fr => { v with witness := w })
    (body := phaseTimed (fun _ => .ok (allocateHashTest (F := Fr) size 1)) fun (v : HashBenchVars Fr) w => do
      let w ← w.assign arks ((List.range size).map fun i => randomFrArray draw i 1)
      return { v with witness := w })
    (fun n s hP ht he => phaseTimed_ran (step := fun v : HashBenchVars Fr => { v with witness := w }) (P := fun _ => True)
      (fun v hv => ⟨⟨_, rfl, by rw [hash_witness, ok_bind]; rfl⟩, trivial⟩) n s hP he) nsA s trivial
  rw [iterate_idem (f := fun v : HashBenchVars Fr => { v with witness := w }) (fun v => rfl) hA] at v1
  obtain ⟨s2, r2, v2, rep2, -⟩ := bRun_ran (P := fun _ => True) (step := stepH y)
    (fun n s hP ht he => phasePlain_ran (P := fun _ => True) (fun v _ => ⟨rfl, trivial⟩) n s hP ht he) nsP s1 trivial
  rw [stepH_iterate] at v2
  refine ⟨s2, y, ?_, ?_, hy, ?_⟩
  · unfold benchmarkHashGadget
    dsimp only
    rw [bm_bind_ret (bm_go_ok h1 _), bm_bind_ret (bm_go_ok h2 _), bm_bind_ret (bm_go_ok hy _), bm_bind_ret r1]
    exact r2
  · rw [rep2, rep1, hs]
    simp [onlyRuns]
  · rw [v2, v1, hs]
    simp [HashBenchVars.zero]

/-- C64. `BenchmarkMimc` for every `bN` up to 62 (for larger ones see `C64_hash_sizes`): it returns, measures only its computations, and
`groth16.Prove` is given the compiled system for `2 ^ bN` messages of one word and a witness without holes that it accepts, with the
drawn words and their hashes. -/
theorem C64_hash (env : Env) (sb : String) (bN : Nat) (hbN : bN ≤ 62) (hb : env "BN_GKR" = some sb) (hb' : Numeral sb (bN : Int))
    (draw : Nat → Fr) (nsA nsP : List Nat) (hA : 1 ≤ nsA.sum) (s : Host (Phases (HashBenchVars Fr)))
    (hs : s.result = ⟨HashBenchVars.zero, []⟩) :
    ∃ s' y, benchmarkHashGadget arks env draw nsA nsP s = (.ret (), s') ∧ s'.result.reports = onlyRuns (nsA ++ nsP) ∧
      (allocateHashTest (F := Fr) (2 ^ bN) 1).compile arks = .ok y ∧
      s'.result.vars.proved = List.replicate nsP.sum (y, ⟨(List.range (2 ^ bN)).map (fun i => [some (draw i)]),
        (List.range (2 ^ bN)).map fun i => some (mimcHash [draw i])⟩) ∧
      Accepts y (((List.range (2 ^ bN)).map fun i => draw i) ++ (List.range (2 ^ bN)).map fun i => mimcHash [draw i]) := by
  have hv : atoiIgnored (getenv env "BN_GKR") = bN := by
    unfold getenv
    rw [hb]
    exact C64_atoi_ignored.1 sb _ hb'
  have hsz := (hash_size (bN : Int) (by omega)).2.1 (by omega) (by omega)
  rw [Int.toNat_natCast] at hsz
  obtain ⟨s', y, h1, h2, h3, h4⟩ := hash_run env _ _ draw nsA nsP hA s hs (by rw [hv]; exact hsz.1) hsz.2
  refine ⟨s', y, h1, h2, h3, h4, ?_⟩
  have := (C62_direct_system (2 ^ bN) 1 y h3 ((List.range (2 ^ bN)).map fun i => [draw i]) ((List.range (2 ^ bN)).map fun i => mimcHash [draw i])
    (by simp) (by simp) (by simp)).2 (by simp)
  rwa [show ((List.range (2 ^ bN)).map fun i => [draw i]).flatten = (List.range (2 ^ bN)).map fun i => draw i by
    rw [← List.flatMap_def, List.map_eq_flatMap]] at this

/-- C64. The other values of the environment variable. Where the other benchmarks panic because it is missing or malformed, `BenchmarkMimc`
takes 0, that is one message; a negative number and 63 panic; and from 64 on `1<<bN` is 0 and the circuit hashes nothing. -/
theorem C64_hash_sizes (env : Env) (draw : Nat → Fr) (nsA nsP : List Nat) (hA : 1 ≤ nsA.sum) (s : Host (Phases (HashBenchVars Fr)))
    (hs : s.result = ⟨HashBenchVars.zero, []⟩) :
    (env "BN_GKR" = none → (∃ e, getBN env = .error e) ∧
      ∃ s' y, benchmarkHashGadget arks env draw nsA nsP s = (.ret (), s') ∧ (allocateHashTest (F := Fr) 1 1).compile arks = .ok y ∧
        s'.result.vars.proved = List.replicate nsP.sum (y, ⟨[[some (draw 0)]], [some (mimcHash [draw 0])]⟩)) ∧
    ∀ sb v, env "BN_GKR" = some sb → Numeral sb v →
      (v < 0 → (benchmarkHashGadget arks env draw nsA nsP s).1 = .panic (.explicit "negative shift amount")) ∧
      (v = 63 → (benchmarkHashGadget arks env draw nsA nsP s).1 = .panic .makeNeg) ∧
      (64 ≤ v → ∃ s' y, benchmarkHashGadget arks env draw nsA nsP s = (.ret (), s') ∧
        (allocateHashTest (F := Fr) 0 1).compile arks = .ok y ∧ y.2.1 = [] ∧ y.2.2 = [] ∧
        s'.result.vars.proved = List.replicate nsP.sum (y, ⟨[], []⟩)) := by
  refine ⟨fun h => ⟨⟨_, (C60_getters env getBN "BN_GKR" (by simp)).2 (by rw [h]; simp)⟩, ?_⟩, fun sb v hb hb' => ?_⟩
  · have hv : atoiIgnored (getenv env "BN_GKR") = 0 := C64_atoi_ignored.2.2.1 _ _ h
    have hsz := (hash_size 0 (by omega)).2.1 (by omega) (by omega)
    obtain ⟨s', y, h1, h2, h3, h4⟩ := hash_run env _ _ draw nsA nsP hA s hs (by rw [hv]; exact hsz.1) hsz.2
    exact ⟨s', y, h1, h3, h4⟩
  · have hv : atoiIgnored (getenv env "BN_GKR") = v := by
      unfold getenv
      rw [hb]
      exact C64_atoi_ignored.1 sb _ hb'
    have hr : -2 ^ 63 ≤ v ∧ v < 2 ^ 63 := by
      obtain ⟨_, _, -, -, -, -, -, h⟩ := hb'
      exact h
    obtain ⟨z1, -, z3, z4⟩ := hash_size v hr
    refine ⟨fun h => ?_, fun h => ?_, fun h => ?_⟩
    · unfold benchmarkHashGadget
      dsimp only
      rw [hv, z1 h]
      rfl
    · obtain ⟨a, g1, g2⟩ := z3 h
      unfold benchmarkHashGadget
      dsimp only
      rw [hv, bm_bind_ret (bm_go_ok g1 _), g2]
      rfl
    · obtain ⟨s', y, h1, h2, h3, h4⟩ := hash_run env _ _ draw nsA nsP hA s hs (by rw [hv]; exact (z4 h).1) (z4 h).2
      obtain ⟨y', g1, g2, g3⟩ := C62_direct_size 0 1
      obtain rfl : y = y' := by rw [h3] at g1; exact Except.ok.inj g1
      exact ⟨s', y, h1, h3, by simpa using g2, by simpa using g3, h4⟩

/-! ### The benchmarks of single steps -/

section Steps

set_option linter.unusedSectionVars false

variable {F : Type} [Field F] [DecidableEq F]

open Finset

/-- The first sum of the benchmark as a function of the first left variable, for the values `0, 1, 2, …`. -/
def fineL (bN : Nat) (t : F) : F := ∑ h ∈ range (2 ^ bN), chi (testQPrime bN) h * t * ((h : F) + t * 2 ^ bN - ((h : F) + 2) ^ 7)

/-- The second one, as a function of the first right variable, when the left one is 2. -/
def fineR (bN : Nat) (t : F) : F :=
  ∑ h ∈ range (2 ^ bN), chi (testQPrime bN) h * (2 * (1 - t)) * ((h : F) + 2 * 2 ^ bN - ((h : F) + t * 2 ^ bN + 2) ^ 7)

/-- The third one, as a function of the first variable of the instance, when the other two are 2. -/
def fineP (bN : Nat) (t : F) : F :=
  ∑ h ∈ range (2 ^ bN), chi (testQPrime bN) h * (3 * t - 1) *
    (-2 * ((h : F) + t * 2 ^ bN + 4 * 2 ^ bN - ((h : F) + t * 2 ^ bN + 4 * 2 ^ bN + 2) ^ 7))

theorem testProver_mkP (toStr : F → String) (bN : Nat) : ∃ st : Nat → Nat → F,
    initializeProverForTests toStr bN = .ok (mkP (testGates toStr) 2 2 (2 ^ bN) (fun i => (i : F)) (fun i => (i : F)) (chi (testQPrime bN)) st) ∧
    st 0 0 = 0 ∧ st 0 1 = 0 ∧ st 0 2 = 2 ∧ st 0 3 = 0 ∧ st 1 0 = 0 ∧ st 1 1 = 0 ∧ st 1 2 = -1 ∧ st 1 3 = 0 := by
  refine ⟨fun i u => ((testStatics : List (Table F)).getD i []).getD u 0, ?_, ?_⟩
  · rw [testInit_single]
    unfold mkP
    congr 2
    · rw [pow_succ']
    · rw [pow_succ']
    · rw [testStatics_eq]
      rfl
  · rw [testStatics_eq]
    simp

theorem test_length (toStr : F → String) : (testGates toStr).length = 2 := rfl
theorem test_gate0 (toStr : F → String) (x y : F) : gateF (testGates toStr) 0 x y = x := rfl
theorem test_gate1 (toStr : F → String) (x y : F) : gateF (testGates toStr) 1 x y = (y + 2) ^ 7 + x := by
  show cipherPow (y + 2) + x = _
  unfold cipherPow
  ring

theorem fine_evals (toStr : F → String) (bN : Nat) : ∃ p, initializeProverForTests toStr bN = .ok p ∧
    p.getEvalsOnHL = .ok ((List.range 3).map fun t : Nat => fineL bN (t : F)) ∧
    (p.foldHL 2).getEvalsOnHR = .ok ((List.range 9).map fun t : Nat => fineR bN (t : F)) ∧
    ((p.foldHL 2).foldHR 2).getEvalsOnHPrime = .ok ((List.range 9).map fun t : Nat => match bN with
      | 0 => 0
      | b + 1 => fineP b (t : F)) := by
  obtain ⟨st, h, a0, a1, a2, a3, b0, b1, b2, b3⟩ := testProver_mkP toStr bN
  obtain ⟨hg, -⟩ := testGates_ok toStr
  have hN : 0 < 2 ^ bN := by positivity
  refine ⟨_, h, ?_, ?_, ?_⟩
  · have := getEvalsOnHL_mkP (testGates toStr) hg (by simp [testGates]) 1 2 (2 ^ bN) (by omega) hN (fun i => (i : F)) (fun i => (i : F))
      (chi (testQPrime bN)) st
    rw [show 2 * 1 = 2 from rfl] at this
    rw [this]
    congr 1
    refine (tab_congr (n := 3) (g := fun t : Nat => fineL bN (t : F)) fun t _ => ?_)
    unfold foldSumL hsum fineL
    apply Finset.sum_congr rfl
    intro h _
    simp only [test_length, Finset.sum_range_succ, Finset.sum_range_zero, test_gate0, test_gate1, foldF]
    norm_num [a0, a1, a2, a3, b0, b1, b2, b3]
    ring
  · have e := foldHL_mkP (testGates toStr) 1 2 (2 ^ bN) (fun i => (i : F)) (fun i => (i : F)) (chi (testQPrime bN)) st 2
    rw [show 2 * 1 = 2 from rfl] at e
    rw [e]
    have := getEvalsOnHR_mkP (testGates toStr) hg 1 (2 ^ bN) hN (foldF (1 * 2 ^ bN) (fun i => (i : F)) 2) (fun i => (i : F))
      (chi (testQPrime bN)) (fun i => foldF (1 * 2) (st i) 2)
    rw [show 2 * 1 = 2 from rfl] at this
    rw [this]
    congr 1
    refine (tab_congr (n := 9) (g := fun t : Nat => fineR bN (t : F)) fun t _ => ?_)
    unfold foldSumR hsum fineR
    apply Finset.sum_congr rfl
    intro h _
    simp only [test_length, Finset.sum_range_succ, Finset.sum_range_zero, test_gate0, test_gate1, foldF]
    norm_num [a0, a1, a2, a3, b0, b1, b2, b3]
    ring
  · have e := foldHL_mkP (testGates toStr) 1 2 (2 ^ bN) (fun i => (i : F)) (fun i => (i : F)) (chi (testQPrime bN)) st 2
    rw [show 2 * 1 = 2 from rfl] at e
    rw [e]
    have e := foldHR_mkP (testGates toStr) 1 (2 ^ bN) (foldF (1 * 2 ^ bN) (fun i => (i : F)) 2) (fun i => (i : F))
      (chi (testQPrime bN)) (fun i => foldF (1 * 2) (st i) 2) 2
    rw [show 2 * 1 = 2 from rfl] at e
    rw [e]
    cases bN with
    | zero =>
      have e0 : ∀ (vL vR e : Nat → F) (s : Nat → Nat → F), (mkP (testGates toStr) 1 1 (2 ^ 0) vL vR e s).getEvalsOnHPrime =
        (mkP (testGates toStr) 1 1 (2 * 0) vL vR e s).getEvalsOnHPrime := by
        intro vL vR e s
        unfold SProver.getEvalsOnHPrime SProver.accumulateEvalsOnHPrime mkP newSProver
        simp only [tab_length]
        rw [show 2 ^ 0 / 2 = 0 from rfl, show 2 * 0 / 2 = 0 from rfl]
        rfl
      rw [e0, getEvalsOnHPrime_mkP]
      congr 1
    | succ b =>
      have hl : (testQPrime b : List F).length = b := by simp [testQPrime]
      have hq : (testQPrime (b + 1) : List F) = 2 :: testQPrime b := rfl
      rw [pow_succ', getEvalsOnHPrime_mkP]
      congr 1
      refine (tab_congr (n := 9) (g := fun t : Nat => fineP b (t : F)) fun t _ => ?_)
      unfold foldSumP hsum fineP
      apply Finset.sum_congr rfl
      intro h hh
      have hh : h < 2 ^ (testQPrime b : List F).length := by rw [hl]; exact Finset.mem_range.1 hh
      have c1 := chi_cons_lo (2 : F) (testQPrime b) hh
      have c2 := chi_cons_hi (2 : F) (testQPrime b) hh
      rw [hl] at c2
      simp only [test_length, Finset.sum_range_succ, Finset.sum_range_zero, test_gate0, test_gate1, foldF, hq]
      norm_num [a0, a1, a2, a3, b0, b1, b2, b3, c1, c2]
      ring

/-- `ProfileTrace` without recorders, around a phase. -/
theorem profileTrace_ran {V : Type} {body : Bm (Phases V) Unit} {step : V → V} {n : Nat} {s s' : Host (Phases V)} (bad : FileErrors) (name : String)
    (h : body { s with timer := true } = (.ret (), s')) (r : PhaseRan step n { s with timer := true } s') :
    ∃ s'', profileTrace bad name false false body s = (.ret (), s'') ∧ PhaseRan step n s s'' ∧ s''.result = s'.result := by
  refine ⟨{ s' with timer := false }, ?_, ⟨r.vars, r.reports, r.elapsed, r.tracing, r.profiling⟩, rfl⟩
  unfold profileTrace
  simp only [Bool.false_eq_true, if_false]
  rw [startTimer_bind]
  unfold Bm.deferring
  rw [h]
  rfl

theorem append_iterate {α : Type} (e : α) (n : Nat) (v : List α) : (fun v => v ++ [e])^[n] v = v ++ List.replicate n e := by
  induction n with
  | zero => simp
  | succ n ih => rw [Function.iterate_succ_apply', ih, List.replicate_succ', List.append_assoc]

/-- A phase of the fine-grained benchmark. -/
theorem finePhase_ran {x : Go (List F)} {e : List F} (h : x = .ok e) (ns : List Nat) (s : Host (Phases (List (List F)))) :
    ∃ s', bRun (fun n => profileTrace (fun _ => none) "" false false (phasePlain (fun v : List (List F) => do
        let e ← x
        return v ++ [e]) n)) ns s = (.ret (), s') ∧
      s'.result.vars = s.result.vars ++ List.replicate ns.sum e ∧ s'.result.reports = s.result.reports ++ onlyRuns ns := by
  obtain ⟨s', h1, h2, h3, -⟩ := bRun_ran (P := fun _ => True) (step := fun v : List (List F) => v ++ [e])
    (body := fun n => profileTrace (fun _ => none) "" false false (phasePlain (fun v : List (List F) => do
        let e ← x
        return v ++ [e]) n))
    (fun n s hP ht he => by
      obtain ⟨t, g1, g2, -⟩ := phasePlain_ran (P := fun _ => True) (step := fun v : List (List F) => v ++ [e]) (run := fun v : List (List F) => do
        let e ← x
        return v ++ [e]) (fun v _ => ⟨by rw [h, ok_bind]; rfl, trivial⟩) n { s with timer := true } trivial rfl he
      obtain ⟨t', g3, g4, -⟩ := profileTrace_ran (fun _ => none) "" g1 g2
      exact ⟨t', g3, g4, trivial⟩) ns s trivial
  exact ⟨s', h1, by rw [h2, append_iterate], h3⟩

/-- C64. The fine-grained benchmark of the sumcheck, for every `bN`: with `b.N` other than 1 it panics; with 1 it returns, measures
exactly the calls it is about, and these compute the values at `0, 1, 2, …` of the three sums with the variables before them at 2. -/
theorem C64_fine_grained (toStr : F → String) (bN : Nat) (nsL nsR nsP : List Nat) (s : Host (Phases (List (List F)))) (hs : s.result = ⟨[], []⟩) :
    (∀ n, n ≠ 1 → (fineGrained toStr bN n nsL nsR nsP s).1 = .panic (.explicit "Call it with N = 1")) ∧
    ∃ s', fineGrained toStr bN 1 nsL nsR nsP s = (.ret (), s') ∧ s'.result.reports = onlyRuns (nsL ++ nsR ++ nsP) ∧
      s'.result.vars = List.replicate nsL.sum ((List.range 3).map fun t : Nat => fineL bN (t : F)) ++
        List.replicate nsR.sum ((List.range 9).map fun t : Nat => fineR bN (t : F)) ++
        List.replicate nsP.sum ((List.range 9).map fun t : Nat => match bN with
          | 0 => 0
          | b + 1 => fineP b (t : F)) := by
  refine ⟨fun n hn => by unfold fineGrained; rw [if_pos hn]; rfl, ?_⟩
  obtain ⟨p, h1, h2, h3, h4⟩ := fine_evals toStr bN
  obtain ⟨s1, r1, v1, rep1⟩ := finePhase_ran h2 nsL s
  obtain ⟨s2, r2, v2, rep2⟩ := finePhase_ran h3 nsR s1
  obtain ⟨s3, r3, v3, rep3⟩ := finePhase_ran h4 nsP s2
  refine ⟨s3, ?_, ?_, ?_⟩
  · unfold fineGrained
    rw [if_neg (by simp), bm_bind_ret (bm_go_ok h1 _), bm_bind_ret r1]
    dsimp only
    rw [bm_bind_ret r2]
    exact r3
  · rw [rep3, rep2, rep1, hs]
    simp [onlyRuns]
  · rw [v3, v2, v1, hs]
    simp

/-- C64. What the benchmarks of book_keeping_test.go compute: the fold at 5 of the table `0, 1, 2, …` has the entries `i + 5 m`, and its
function evaluations are all `m`, where `m` is half of the (even) size. -/
theorem C64_book_keeping (m : Nat) :
    (benchFold (2 * m) : Table F) = (List.range m).map (fun i : Nat => (i : F) + 5 * m) ∧
    (benchEvals (2 * m) : Table F) = List.replicate m (m : F) := by
  constructor
  · unfold benchFold benchTable
    have := fold_tab' m (fun i => (i : F)) 5
    refine this.trans (tab_congr fun i _ => ?_)
    simp [foldF]
    ring
  · unfold benchEvals benchTable
    have := functionEvals_tab m (fun i => (i : F))
    refine this.trans ?_
    rw [List.eq_replicate_iff]
    refine ⟨by simp, fun b hb => ?_⟩
    obtain ⟨i, -, rfl⟩ := List.mem_map.1 hb
    push_cast
    ring

end Steps

/-! Examples that the hypotheses can be met. -/

/-- An environment with `bN = 3` and two chunks. -/
example (draw : Nat → Fr) (s : Host (Phases (GkrBenchVars Fr))) (hs : s.result = ⟨GkrBenchVars.zero, []⟩) :
    ∃ s', benchmarkGkrGadget mimcHash frString arks (fun x => if x = "BN_GKR" then some "3" else some "2") 4 draw [1, 10] [1] [2] [1, 5] s = (.ret (), s') ∧
      s'.result.vars.proved.length = 6 ∧ s'.result.reports.map List.length = [1, 10, 1, 2, 1, 5] := by
  obtain ⟨s', t, y, w, h1, h2, h3, -⟩ := C64_gkr (fun x => if x = "BN_GKR" then some "3" else some "2") 1 2 "2" "3" (by simp)
    (C60_numeral 2 (by norm_num)) (by simp) (C60_numeral 3 (by norm_num)) 4 (by norm_num) draw [1, 10] [1] [2] [1, 5]
    (by norm_num) (by norm_num) (by norm_num) s hs
  exact ⟨s', h1, by rw [h3]; rfl, by rw [h2]; rfl⟩

/-- Only the last phase is selected. -/
example (draw : Nat → Fr) (s : Host (Phases (GkrBenchVars Fr))) (hs : s.result = ⟨GkrBenchVars.zero, []⟩) :
    ∃ s', benchmarkGkrGadget mimcHash frString arks (fun x => if x = "BN_GKR" then some "3" else some "2") 4 draw [] [] [] [1] s = (.ret (), s') := by
  obtain ⟨-, -, t, s', y, w, h, -⟩ := C64_gkr_skipped (fun x => if x = "BN_GKR" then some "3" else some "2") 1 2 "2" "3" (by simp)
    (C60_numeral 2 (by norm_num)) (by simp) (C60_numeral 3 (by norm_num)) 4 (by norm_num) draw s hs 1 (by norm_num) [] [] [] []
  exact ⟨s', h⟩

/-- No chunks. -/
example (draw : Nat → Fr) (s : Host (Phases (GkrBenchVars Fr))) :
    (benchmarkGkrGadget mimcHash frString arks (fun x => if x = "BN_GKR" then some "3" else some "0") 4 draw [1] [1] [1] [1] s).1 = .panic .divZero :=
  (((C64_gkr_env (fun x => if x = "BN_GKR" then some "3" else some "0") 4 draw [1] [1] [1] [1] s).2 "3" 3 (by simp) (C60_numeral 3 (by norm_num))).2 "0" 0
    (by simp) (C60_numeral 0 (by norm_num))).2.1 (by norm_num) rfl

/-- Values that `strconv.Atoi` returns with an error. -/
example : atoiIgnored "" = 0 ∧ atoiIgnored "12x" = 0 ∧ atoiIgnored "-" = 0 ∧ atoiIgnored "1_000" = 0 ∧ atoiIgnored "-17" = -17 ∧
    atoiIgnored "9223372036854775808" = 9223372036854775807 ∧ atoiIgnored "-99999999999999999999" = -9223372036854775808 ∧
    atoiIgnored "99999999999999999999x" = 9223372036854775807 := by decide +kernel

example (draw : Nat → Fr) (s : Host (Phases (HashBenchVars Fr))) (hs : s.result = ⟨HashBenchVars.zero, []⟩) :
    ∃ s', benchmarkHashGadget arks (fun _ => some "2") draw [1] [1] s = (.ret (), s') ∧ s'.result.vars.proved.length = 1 := by
  obtain ⟨s', y, h1, -, -, h2, -⟩ := C64_hash (fun _ => some "2") "2" 2 (by norm_num) rfl (C60_numeral 2 (by norm_num)) draw [1] [1] (by norm_num) s hs
  exact ⟨s', h1, by rw [h2]; rfl⟩

/-- `bN = 64`: the circuit is empty. -/
example (draw : Nat → Fr) (s : Host (Phases (HashBenchVars Fr))) (hs : s.result = ⟨HashBenchVars.zero, []⟩) :
    ∃ s' y, benchmarkHashGadget arks (fun _ => some "64") draw [1] [1] s = (.ret (), s') ∧ s'.result.vars.proved = [(y, ⟨[], []⟩)] ∧ y.2.1 = [] := by
  obtain ⟨s', y, h1, -, h2, -, h3⟩ := ((C64_hash_sizes (fun _ => some "64") draw [1] [1] (by norm_num) s hs).2 "64" 64 rfl (C60_numeral 64 (by norm_num))).2.2 (by norm_num)
  exact ⟨s', y, h1, h3, h2⟩

/-- The first sum for `bN = 1`: the values at 0, 1 and 2. -/
example : (initializeProverForTests frString 1 >>= SProver.getEvalsOnHL) = .ok [0, -4242, -8480] := by decide +kernel
example : fineL 1 (1 : Fr) = -4242 ∧ fineL 1 (2 : Fr) = -8480 := by
  constructor <;> simp [fineL, Finset.sum_range_succ, testQPrime, chi_cons, chi_nil] <;> norm_num

example : (benchFold 6 : Table Fr) = [15, 16, 17] ∧ (benchEvals 6 : Table Fr) = [3, 3, 3] := by decide +kernel

/-- Two chunks of three. -/
example (draw : Nat → Fr) : randomFrDoubleSlice draw 0 2 3 = [[draw 0, draw 1, draw 2], [draw 3, draw 4, draw 5]] := rfl

end GkrMimc
