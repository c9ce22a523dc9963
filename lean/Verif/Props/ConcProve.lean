import Verif.Proofs.ConcProve
import Verif.Props.ConcPool

/-! Properties C19 and C20: the multi-threaded `Prove` under every schedule; use of semaphores and channels. In `Prove`
channel 0 is `evalsChan`, channel 1 `finChan`, channel 2 the semaphore and channel `3 + i` is `rChans[i]`. -/

set_option linter.unusedSectionVars false

namespace GkrMimc

open Spec Finset

variable {F : Type} [Field F] [DecidableEq F]

/-- C19. Whenever the workers, run one after the other, give `out` (and all the chunks have the same size), every schedule of
`Prove` ends within a bound that does not depend on the schedule, with result `out`; in no schedule is there a deadlock or a
panic. -/
theorem C19_prove (H : List F → F) (p : MProver F) (nCore : Int) (out : SumcheckOut F) (h : p.prove H nCore = .ok out)
    (heven : EvenChunks p) :
    ∃ bound, GoodRun 2 nCore.toNat (fun s => s.gs 0 = .ret (.out out)) bound (startOf (p.proveP H nCore) () .tok) :=
  proveP_good h heven

theorem SizedChunks.even {gates : List (Gate F)} {k m bG : Nat} {vL vR eq : List (List F)} {statics : List (List F)}
    (h : SizedChunks gates k m bG vL vR eq statics) : EvenChunks (newMProver vL vR eq gates statics) := by
  have key : ∀ i < 2 ^ k, ((newMProver vL vR eq gates statics).subProver i >>= SProver.dims) =
      (goDiv (2 ^ (bG + m)) (2 ^ m) >>= fun g => .ok (log2Ceil g, log2Ceil ((2 ^ m : Nat) : Int))) := by
    intro i hi
    have h1 : i < vL.length := by rw [h.chunksL.1]; exact hi
    have h2 : i < vR.length := by rw [h.chunksR.1]; exact hi
    have h3 : i < eq.length := by rw [h.chunksEq.1]; exact hi
    have e1 : idx vL i = .ok vL[i] := by simp [idx, h1]
    have e2 : idx vR i = .ok vR[i] := by simp [idx, h2]
    have e3 : idx eq i = .ok eq[i] := by simp [idx, h3]
    change ((idx vL i >>= fun a => idx vR i >>= fun b => idx eq i >>= fun c => .ok (newSProver a b c gates statics)) >>= _) = _
    rw [e1, e2, e3, ok_bind, ok_bind, ok_bind, ok_bind]
    change (goDiv vR[i].length eq[i].length >>= fun g => .ok (log2Ceil g, log2Ceil (eq[i].length : Int))) = _
    rw [h.chunksR.2 _ (List.getElem_mem h2), h.chunksEq.2 _ (List.getElem_mem h3)]
  intro i hi j hj
  have hl : (newMProver vL vR eq gates statics).eq.length = 2 ^ k := h.chunksEq.1
  rw [key i (by omega), key j (by omega)]

/-- C19 with C16 and C18. For every chunked instance and every `nCore ≥ 1`, all schedules of `Prove` end within a bound and
return the proof that the single-threaded prover computes on the interleaved tables; the verifier accepts it. -/
theorem C19_complete [SmallCasts F] (H : List F → F) (gates : List (Gate F)) (hne : gates ≠ [])
    (hg : ∀ g ∈ gates, LawfulGate g) (hd : DegreesOk gates) (k m bG : Nat)
    (vL vR eq : List (List F)) (statics : List (List F)) (h : SizedChunks gates k m bG vL vR eq statics)
    (nCore : Int) (hc : 1 ≤ nCore) :
    ∃ claim out fc,
      (newSProver (interleave (2 ^ k) (2 ^ (bG + m)) vL) (interleave (2 ^ k) (2 ^ (bG + m)) vR)
        (interleave (2 ^ k) (2 ^ m) eq) gates statics).prove H = .ok out ∧
      (newSProver (interleave (2 ^ k) (2 ^ (bG + m)) vL) (interleave (2 ^ k) (2 ^ (bG + m)) vR)
        (interleave (2 ^ k) (2 ^ m) eq) gates statics).getClaim = .ok claim ∧
      sumcheckVerify H claim out.polyCoeffs bG = .ok (some ⟨out.qPrime, out.qL, out.qR, fc⟩) ∧
      (∃ bound, GoodRun 2 nCore.toNat (fun s => s.gs 0 = .ret (.out out)) bound
        (startOf ((newMProver vL vR eq gates statics).proveP H nCore) () .tok)) ∧
      (∃ bound, GoodRun 1 nCore.toNat (fun s => s.gs 0 = .ret (.elem claim)) bound
        (startOf ((newMProver vL vR eq gates statics).getClaimP nCore) () .tok)) := by
  obtain ⟨claim, out, fc, h1, h2, h3⟩ := C18_complete H gates hne hg hd k m bG vL vR eq statics h nCore hc
  refine ⟨claim, out, fc, ?_, ?_, h3, proveP_good h2 h.even, C21_getClaim _ nCore hc claim h1⟩
  · rw [← h2, C18_prove H gates hg k m bG vL vR eq statics h nCore hc]
  · rw [← h1, C18_getClaim gates k m bG vL vR eq statics h nCore hc]

/-- C19. With `nCore = 0` every schedule of `Prove` blocks for ever: boundedly many steps, no panic, and the caller never
returns. -/
theorem C19_deadlock [SmallCasts F] (H : List F → F) (gates : List (Gate F)) (hne : gates ≠ [])
    (hg : ∀ g ∈ gates, LawfulGate g) (hd : DegreesOk gates) (k m bG : Nat)
    (vL vR eq : List (List F)) (statics : List (List F)) (h : SizedChunks gates k m bG vL vR eq statics) :
    ∃ bound, Deadlocks bound (startOf ((newMProver vL vR eq gates statics).proveP H 0) () .tok) := by
  obtain ⟨_, out, _, _, h2, _⟩ := C18_complete H gates hne hg hd k m bG vL vR eq statics h 1 le_rfl
  exact proveP_deadlock h2 h.even

theorem exampleGates_ok : (∀ g ∈ [cipherGate frString 3, copyGate (F := Fr)], LawfulGate g) ∧
    DegreesOk [cipherGate frString 3, copyGate (F := Fr)] :=
  shippedGates_ok frString _ (by
    intro g hg
    simp only [List.mem_cons, List.not_mem_nil, or_false] at hg
    rcases hg with rfl | rfl
    · exact .cipher 3
    · exact .copy)

example (H : List Fr → Fr) : ∃ claim out fc,
    (newSProver (interleave 2 2 [[1, 5], [2, 6]]) (interleave 2 2 [[1, 5], [2, 6]]) (interleave 2 1 [[-6], [7]])
      [cipherGate frString 3, copyGate] [[0, 0, 1 - 7, 0], [0, 0, 7, 0]]).prove H = .ok out ∧
    (newSProver (interleave 2 2 [[1, 5], [2, 6]]) (interleave 2 2 [[1, 5], [2, 6]]) (interleave 2 1 [[-6], [7]])
      [cipherGate frString 3, copyGate] [[0, 0, 1 - 7, 0], [0, 0, 7, 0]]).getClaim = .ok claim ∧
    sumcheckVerify H claim out.polyCoeffs 1 = .ok (some ⟨out.qPrime, out.qL, out.qR, fc⟩) ∧
    (∃ bound, GoodRun 2 5 (fun s => s.gs 0 = .ret (.out out)) bound
      (startOf ((newMProver [[1, 5], [2, 6]] [[1, 5], [2, 6]] [[-6], [7]] [cipherGate frString 3, copyGate]
        [[0, 0, 1 - 7, 0], [0, 0, 7, 0]]).proveP H 5) () .tok)) ∧
    (∃ bound, GoodRun 1 5 (fun s => s.gs 0 = .ret (.elem claim)) bound
      (startOf ((newMProver [[1, 5], [2, 6]] [[1, 5], [2, 6]] [[-6], [7]] [cipherGate frString 3, copyGate]
        [[0, 0, 1 - 7, 0], [0, 0, 7, 0]]).getClaimP 5) () .tok)) :=
  C19_complete H _ (by simp) exampleGates_ok.1 exampleGates_ok.2 1 0 1 _ _ _ _
    ⟨by simp [WellChunked], by simp [WellChunked], by simp [WellChunked], rfl, by simp⟩ 5 (by norm_num)

/-- Safe use of the semaphore and the channels in a configuration: no panic; at most `nCore` goroutines other than the caller
are between `Acquire` and `Release`; every send that is about to happen (so every `Release`, too) finds its channel open and
with room. -/
def SafeConf {M V : Type} (sem nCore : Nat) (s : Conf M V) : Prop :=
  s.crashed = none ∧ (∀ S : Finset Nat, (∀ i ∈ S, 1 ≤ i ∧ Holds sem (s.gs i)) → S.card ≤ nCore) ∧
  ∀ i c v k, s.gs i = .send c v k → (s.chans c).closed = false ∧ (s.chans c).buf.length < (s.chans c).cap

theorem GoodRun.safe {M V : Type} {sem nCore : Nat} {post : Conf M V → Prop} {bound : Nat} {s0 : Conf M V}
    (h : GoodRun sem nCore post bound s0) (s : Conf M V) (hs : Reach s0 s) : SafeConf sem nCore s := by
  obtain ⟨n, hn⟩ := hs
  have g := (h n s hn).2
  refine ⟨g.alive, g.excl, ?_⟩
  intro i c v k hi
  obtain ⟨s', h1, h2⟩ := g.sends i c v k hi
  unfold exec at h1
  rw [hi] at h1
  by_cases h3 : (s.chans c).closed = true
  · simp only [h3, if_true, Option.some.injEq] at h1
    rw [← h1] at h2
    cases h2
  · refine ⟨by simpa using h3, ?_⟩
    by_contra h4
    simp [h3, h4] at h1

/-- C20 for `Prove`. -/
theorem C20_prove (H : List F → F) (p : MProver F) (nCore : Int) (out : SumcheckOut F) (h : p.prove H nCore = .ok out)
    (heven : EvenChunks p) (s : Conf Unit (Msg F)) (hs : Reach (startOf (p.proveP H nCore) () .tok) s) :
    SafeConf 2 nCore.toNat s := by
  obtain ⟨B, hB⟩ := proveP_good h heven
  exact GoodRun.safe hB s hs

example (H : List Fr → Fr) (s : Conf Unit (Msg Fr)) (hs : Reach (startOf ((newMProver [[1, 5], [2, 6]] [[1, 5], [2, 6]]
    [[-6], [7]] [cipherGate frString 3, copyGate] [[0, 0, 1 - 7, 0], [0, 0, 7, 0]]).proveP H 1) () .tok) s) : SafeConf 2 1 s := by
  have h : SizedChunks [cipherGate frString 3, copyGate] 1 0 1 [[1, 5], [2, 6]] [[1, 5], [2, 6]] [[-6], [7]]
    [[0, 0, 1 - 7, 0], [0, 0, 7, 0]] := ⟨by simp [WellChunked], by simp [WellChunked], by simp [WellChunked], rfl, by simp⟩
  obtain ⟨_, out, _, _, h2, _⟩ := C18_complete H _ (by simp) exampleGates_ok.1 exampleGates_ok.2 1 0 1 _ _ _ _ h 1 le_rfl
  exact C20_prove H _ 1 out h2 h.even s hs

/-- C20 for `GetClaim`. -/
theorem C20_getClaim (p : MProver F) (nCore : Int) (hn : 1 ≤ nCore) (c : F) (h : p.getClaim nCore = .ok c)
    (s : Conf Unit (Msg F)) (hs : Reach (startOf (p.getClaimP nCore) () .tok) s) : SafeConf 1 nCore.toNat s := by
  obtain ⟨B, hB⟩ := C21_getClaim p nCore hn c h
  exact GoodRun.safe hB s hs

/-- C20 for `Layer.Evaluate`. -/
theorem C20_evaluate (l : Layer F) (inputs outs res0 : List (List F)) (nCore : Int) (hn : 1 ≤ nCore)
    (h : l.evaluate inputs nCore = .ok outs) (h0 : res0.length = inputs.length)
    (s : Conf (List (List F)) (Msg F)) (hs : Reach (startOf (l.evaluateP inputs nCore) res0 .tok) s) :
    SafeConf 0 nCore.toNat s := by
  obtain ⟨B, hB⟩ := C21_evaluate l inputs outs res0 nCore hn h h0
  exact GoodRun.safe hB s hs

/-- C20 for `LayerAsBKTWithCopy`. -/
theorem C20_layerAsBKTWithCopy (values : List (List (List F))) (layer : Nat) (v res0 : List (Table F)) (nCore : Int)
    (hn : 1 ≤ nCore) (h : layerAsBKTWithCopy values layer nCore = .ok v) (h0 : res0.length = v.length)
    (s : Conf (List (Table F)) (Msg F)) (hs : Reach (startOf (layerAsBKTWithCopyP values layer nCore) res0 .tok) s) :
    SafeConf 0 nCore.toNat s := by
  obtain ⟨B, hB⟩ := C21_layerAsBKTWithCopy values layer v res0 nCore hn h h0
  exact GoodRun.safe hB s hs

/-- C20 for the parallel loops of `Sub` and `Mul`. -/
theorem C20_chunked_loop {W : Type} (write : Nat → W → W) (size : Nat) (nCore : Int) (hn : 1 ≤ nCore) (m0 : W)
    (hcomm : ∀ i < size, ∀ j < size, i ≠ j → ∀ m, write i (write j m) = write j (write i m))
    (s : Conf W (Msg F)) (hs : Reach (startOf (chunkedLoopP (F := F) write size nCore) m0 .tok) s) :
    SafeConf 0 nCore.toNat s := by
  obtain ⟨B, hB⟩ := C21_chunked_loop (F := F) write size nCore hn m0 hcomm
  exact GoodRun.safe hB s hs

end GkrMimc
