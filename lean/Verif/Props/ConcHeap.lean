import Verif.Proofs.RaceProve
import Verif.Proofs.RaceLabels
import Verif.Props.ConcProve
import Verif.Props.HeapProve

/-! Property C47: the goroutines of the sumcheck prover share memory without data races. -/

set_option linter.unusedSectionVars false

namespace GkrMimc

open Spec

variable {F : Type} [Field F] [DecidableEq F]

/-- The tables of a multi-threaded prover are usable, no two of the tables that it folds share an array, and the static tables
share none with them. (Static tables may share arrays with each other.) -/
structure ChunksApart (h : Heap F) (p : MProverH F) : Prop where
  valid : ∀ s ∈ p.vL ++ p.vR ++ p.eq ++ p.statics, Valid h s
  apart : (p.vL ++ p.vR ++ p.eq).Pairwise Apart
  statics : ∀ s ∈ p.vL ++ p.vR ++ p.eq, ∀ u ∈ p.statics, Apart s u

/-- The arrays of the tables that `Prove` folds. -/
def foldedArrays (p : MProverH F) : Set Nat := {a | ∃ s ∈ p.vL ++ p.vR ++ p.eq, 0 < s.cap ∧ s.arr = a}

theorem GoodMemRun.mono {W : Set Nat} {post post' : Conf (Heap F) (MsgH F) → Prop} {B : Nat} {s : Conf (Heap F) (MsgH F)}
    (g : GoodMemRun W post B s) (hp : ∀ t, post t → post' t) : GoodMemRun W post' B s := fun n t r =>
  ⟨(g n t r).1, { (g n t r).2 with result := fun hr => hp _ ((g n t r).2.result hr) }⟩

/-- C47. Every access to a cell is a step of its own. Under all schedules of `MultiThreadedProver.Prove`: no data race, no panic,
no deadlock, boundedly many steps, the result is the one of the workers run one after the other, and the only existing arrays
that change are those of `vL`, `vR` and `eq`. -/
theorem C47_prove (H : List F → F) (p : MProverH F) (h : Heap F) (nCore : Int) (out : SumcheckOut F) (ca : ChunksApart h p)
    (e : (p.toM h).prove H nCore = .ok out) (ev : EvenChunks (p.toM h)) :
    ∃ bound, GoodMemRun (foldedArrays p) (fun s => s.gs 0 = .ret (.out out)) bound (startOf (p.proveP H nCore) h .tok) := by
  obtain ⟨N, g⟩ := proveP_good e ev
  have c := cr_start (B := arrsOf p.base) (ro := arrsOf p.statics) ?_ ?_ (gr_prove H ca.valid ca.apart nCore)
  · obtain ⟨B, hB⟩ := CR.good (s := startOf (p.proveP H nCore) h .tok) msgRel_stable c g
    refine ⟨B, GoodMemRun.mono hB ?_⟩
    rintro t ⟨r, o, hr, m⟩
    cases r with
    | out x =>
      obtain rfl : x = out := m
      exact hr
    | _ => exact m.elim
  · rintro a ⟨s, hs, hc, rfl⟩ ⟨u, hu, hc', e⟩
    exact ca.statics s hs u hu hc hc' e.symm
  · rintro a (⟨s, hs, hc, rfl⟩ | ⟨s, hs, hc, rfl⟩)
    · exact (ca.valid s (List.mem_append_left _ hs)).arr hc
    · exact (ca.valid s (List.mem_append_right _ hs)).arr hc

/-- C47. `GetClaim`: the same, with no hypothesis on sharing, and no existing array changes. -/
theorem C47_getClaim (p : MProverH F) (h : Heap F) (nCore : Int) (hn : 1 ≤ nCore) (c : F)
    (vv : ∀ s ∈ p.vL ++ p.vR ++ p.eq ++ p.statics, Valid h s) (e : (p.toM h).getClaim nCore = .ok c) :
    ∃ bound, GoodMemRun ∅ (fun s => s.gs 0 = .ret (.elem c)) bound (startOf (p.getClaimP nCore) h .tok) := by
  obtain ⟨N, g⟩ := C21_getClaim (p.toM h) nCore hn c e
  have cr := cr_start (B := ∅) (ro := arrsOf (p.base ++ p.statics)) (by simp) ?_ (gr_getClaim vv nCore)
  · obtain ⟨B, hB⟩ := CR.good (s := startOf (p.getClaimP nCore) h .tok) msgRel_stable cr g
    refine ⟨B, GoodMemRun.mono hB ?_⟩
    rintro t ⟨r, o, hr, m⟩
    cases r with
    | elem x =>
      obtain rfl : x = c := m
      exact hr
    | _ => exact m.elim
  · rintro a (ha | ⟨s, hs, hc, rfl⟩)
    · exact ha.elim
    · exact (vv s hs).arr hc

/-- C47. The labels of the accesses, on which the definition of a race rests, are right. -/
theorem C47_labels (H : List F → F) (p : MProverH F) (nCore : Int) :
    Labelled (p.proveP H nCore) ∧ Labelled (p.getClaimP nCore) := ⟨lab_prove H p nCore, lab_getClaim p nCore⟩

/-- C47 with C19: for every chunked instance in separate arrays and every `nCore ≥ 1`, all schedules of `Prove` are free of races
and return a proof that the verifier accepts for the claim that all schedules of `GetClaim` return. -/
theorem C47_complete [SmallCasts F] (H : List F → F) (p : MProverH F) (h : Heap F) (ca : ChunksApart h p) (hne : p.gates ≠ [])
    (hg : ∀ g ∈ p.gates, LawfulGate g) (hd : DegreesOk p.gates) (k m bG : Nat)
    (sz : SizedChunks p.gates k m bG (p.vL.map h.vals) (p.vR.map h.vals) (p.eq.map h.vals) (p.statics.map h.vals))
    (nCore : Int) (hc : 1 ≤ nCore) :
    ∃ claim out fc bound,
      GoodMemRun ∅ (fun s => s.gs 0 = .ret (.elem claim)) bound (startOf (p.getClaimP nCore) h .tok) ∧
      GoodMemRun (foldedArrays p) (fun s => s.gs 0 = .ret (.out out)) bound (startOf (p.proveP H nCore) h .tok) ∧
      sumcheckVerify H claim out.polyCoeffs bG = .ok (some ⟨out.qPrime, out.qL, out.qR, fc⟩) := by
  obtain ⟨claim, out, fc, h1, h2, h3⟩ := C18_complete H p.gates hne hg hd k m bG _ _ _ _ sz nCore hc
  obtain ⟨b1, g1⟩ := C47_getClaim p h nCore hc claim ca.valid h1
  obtain ⟨b2, g2⟩ := C47_prove H p h nCore out ca h2 sz.even
  refine ⟨claim, out, fc, max b1 b2, fun n s r => ?_, fun n s r => ?_, h3⟩
  · exact ⟨le_trans (g1 n s r).1 (le_max_left _ _), (g1 n s r).2⟩
  · exact ⟨le_trans (g2 n s r).1 (le_max_right _ _), (g2 n s r).2⟩

/-- C47. The sumcheck prover of the last layer, as `gkr` builds it, has its tables in separate arrays, whatever sharing there is
in the assignment. -/
theorem C47_initialRound (p : GkrProverH F) (h h' : Heap F) (v : p.Valid h) (qPrime q : Slice) (vp : Valid h qPrime) (vq : Valid h q)
    (nCore : Int) (hn : 1 ≤ nCore) (mp : MProverH F) (e : p.initialRound qPrime q nCore h = .ok (mp, h')) : ChunksApart h' mp := by
  have s := initialRound_sim (g := p.toG h) rfl v.arep (Rep.self vp) (Rep.self vq) hn
  rw [e] at s
  rcases hy : (p.toG h).initialRound (h.vals qPrime) (h.vals q) nCore with e' | w <;> rw [hy] at s
  · exact s.elim
  · exact ⟨fun t ht => by
      rcases List.mem_append.1 ht with ht | ht
      · exact s.rep.valid t ht
      · exact Reps.valid s.rep.statics t ht, s.apart, s.statics⟩

/-- C47. The same for the other layers. -/
theorem C47_intermediateRound (p : GkrProverH F) (h h' : Heap F) (v : p.Valid h) (layer : Nat) (qPrime qL qR : Slice)
    (vp : Valid h qPrime) (vL : Valid h qL) (vR : Valid h qR) (x y : F) (nCore : Int) (hn : 1 ≤ nCore) (mp : MProverH F)
    (e : p.intermediateRound layer qPrime qL qR x y nCore h = .ok (mp, h')) : ChunksApart h' mp := by
  have s := intermediateRound_sim (g := p.toG h) rfl v.arep layer (Rep.self vp) (Rep.self vL) (Rep.self vR) x y hn
  rw [e] at s
  rcases hy : (p.toG h).intermediateRound layer (h.vals qPrime) (h.vals qL) (h.vals qR) x y nCore with e' | w <;> rw [hy] at s
  · exact s.elim
  · exact ⟨fun t ht => by
      rcases List.mem_append.1 ht with ht | ht
      · exact s.rep.valid t ht
      · exact Reps.valid s.rep.statics t ht, s.apart, s.statics⟩

/-! ### Examples and the race that the hypothesis excludes -/

/-- Two chunks, each table in an array of its own. -/
def raceHeap : Heap Fr :=
  ⟨fun a i => ([[1, 5], [2, 6], [3, 7], [4, 8], [-6], [7], [1, 0, 0, 1]].getD a []).getD i 0, 7, fun _ => 0⟩

def raceProver : MProverH Fr :=
  ⟨[⟨0, 0, 2, 2⟩, ⟨1, 0, 2, 2⟩], [⟨2, 0, 2, 2⟩, ⟨3, 0, 2, 2⟩], [⟨4, 0, 1, 1⟩, ⟨5, 0, 1, 1⟩], [cipherGate frString 3], [⟨6, 0, 4, 4⟩]⟩

theorem raceProver_apart : ChunksApart raceHeap raceProver := by
  refine ⟨?_, ?_, ?_⟩
  · simp only [raceProver, List.cons_append, List.nil_append, List.mem_cons, List.not_mem_nil, or_false]
    rintro s (rfl | rfl | rfl | rfl | rfl | rfl | rfl) <;> exact ⟨by decide, fun _ => by decide⟩
  · simp [raceProver, Apart]
  · simp only [raceProver, List.cons_append, List.nil_append, List.mem_cons, List.not_mem_nil, or_false]
    rintro s (rfl | rfl | rfl | rfl | rfl | rfl) u rfl <;> exact fun _ _ => by decide

example : ∃ claim out fc bound,
    GoodMemRun ∅ (fun s => s.gs 0 = .ret (.elem claim)) bound (startOf (raceProver.getClaimP 2) raceHeap .tok) ∧
    GoodMemRun (foldedArrays raceProver) (fun s => s.gs 0 = .ret (.out out)) bound
      (startOf (raceProver.proveP lengthHash 2) raceHeap .tok) ∧
    sumcheckVerify lengthHash claim out.polyCoeffs 1 = .ok (some ⟨out.qPrime, out.qL, out.qR, fc⟩) := by
  obtain ⟨g1, g2⟩ := shippedGates_ok frString raceProver.gates (by
    intro g hg
    simp only [raceProver, List.mem_singleton] at hg
    rw [hg]
    exact .cipher 3)
  exact C47_complete lengthHash raceProver raceHeap raceProver_apart (by simp [raceProver]) g1 g2 1 0 1
    ⟨⟨rfl, by simp [raceProver, Heap.vals]⟩, ⟨rfl, by simp [raceProver, Heap.vals]⟩, ⟨rfl, by simp [raceProver, Heap.vals]⟩,
      rfl, by simp [raceProver, Heap.vals]⟩ 2 (by decide)

/-- The last layer of the circuit of C38: a prover built by `initialRound` from an assignment in one array. -/
example : ∃ mp h', proveProver.initialRound (proveSlice 0 1) (proveSlice 2 0) 2 proveExample = .ok (mp, h') ∧ ChunksApart h' mp := by
  have key : ∀ o n, o + n ≤ 10 → Valid proveExample (proveSlice o n) := fun o n h =>
    ⟨by simp only [proveSlice]; omega, fun _ => by simp [proveSlice, proveExample]⟩
  have e : (proveProver.initialRound (proveSlice 0 1) (proveSlice 2 0) 2 proveExample >>= fun r => .ok r.1.eq.length) = .ok 2 := by
    decide +kernel
  obtain ⟨⟨mp, h'⟩, hr, _⟩ := bind_eq_ok.1 e
  exact ⟨mp, h', hr, C47_initialRound proveProver proveExample h' proveProver_valid _ _ (key _ _ (by omega)) (key _ _ (by omega))
    2 (by decide) mp hr⟩

/-- The first layer. -/
example : ∃ mp h', proveProver.intermediateRound 0 (proveSlice 0 1) (proveSlice 1 1) (proveSlice 2 1) 3 4 2 proveExample = .ok (mp, h') ∧
    ChunksApart h' mp := by
  have key : ∀ o n, o + n ≤ 10 → Valid proveExample (proveSlice o n) := fun o n h =>
    ⟨by simp only [proveSlice]; omega, fun _ => by simp [proveSlice, proveExample]⟩
  have e : (proveProver.intermediateRound 0 (proveSlice 0 1) (proveSlice 1 1) (proveSlice 2 1) 3 4 2 proveExample >>=
      fun r => .ok r.1.eq.length) = .ok 2 := by decide +kernel
  obtain ⟨⟨mp, h'⟩, hr, _⟩ := bind_eq_ok.1 e
  exact ⟨mp, h', hr, C47_intermediateRound proveProver proveExample h' proveProver_valid 0 _ _ _ (key _ _ (by omega))
    (key _ _ (by omega)) (key _ _ (by omega)) 3 4 2 (by decide) mp hr⟩

/-- Two chunks with the same `eq` table. -/
def sharedProver : MProverH Fr :=
  ⟨[⟨0, 0, 2, 2⟩, ⟨1, 0, 2, 2⟩], [⟨2, 0, 2, 2⟩, ⟨3, 0, 2, 2⟩], [⟨4, 0, 2, 2⟩, ⟨4, 0, 2, 2⟩], [copyGate], [⟨6, 0, 1, 1⟩]⟩

/-- The goroutines that step, one after the other; `none` if one of them cannot. -/
def runSchedule {M V : Type} : Conf M V → List Nat → Option (Conf M V)
  | s, [] => some s
  | s, i :: is => if s.crashed.isSome then none else (exec s i).bind fun s' => runSchedule s' is

theorem runSchedule_reach {M V : Type} {s0 : Conf M V} : ∀ (is : List Nat) (n : Nat) (s t : Conf M V), ReachIn s0 n s →
    runSchedule s is = some t → Reach s0 t
  | [], n, s, t, r, e => by
    cases e
    exact ⟨n, r⟩
  | i :: is, n, s, t, r, e => by
    unfold runSchedule at e
    split at e
    · cases e
    next hc =>
      obtain ⟨s', e1, e2⟩ := Option.bind_eq_some_iff.1 e
      exact runSchedule_reach is (n + 1) s' t (.step r ⟨by simpa using hc, .inl ⟨i, e1⟩⟩) e2

/-- Goroutines `i` and `j` are about to write the same cell. -/
def bothWrite {M V : Type} (s : Conf M V) (i j : Nat) : Bool :=
  match s.gs i, s.gs j with
  | .mem (.write a x) _ _, .mem (.write b y) _ _ => a == b && x == y
  | _, _ => false

theorem bothWrite_race {M V : Type} {s : Conf M V} {i j : Nat} (hij : i ≠ j) (h : bothWrite s i j = true) : Race s := by
  unfold bothWrite at h
  split at h
  next a x f k b y g l e1 e2 =>
    refine ⟨i, j, _, _, _, _, _, _, hij, e1, e2, ?_⟩
    simpa [Conflict] using h
  · cases h

/-- C47. The hypothesis is needed: with two chunks that share a table, a schedule with two cores leads to a data race. -/
theorem C47_shared_race : ∃ s, Reach (startOf (sharedProver.proveP lengthHash 2) raceHeap .tok) s ∧ Race s := by
  have key : (runSchedule (startOf (sharedProver.proveP lengthHash 2) raceHeap .tok) (List.replicate 9 0 ++ List.replicate 16 1 ++ List.replicate 17 2 ++
      List.replicate 17 0 ++ [3, 3, 4, 4] ++ List.replicate 4 0 ++ List.replicate 21 1 ++ List.replicate 22 2)).map (fun s => bothWrite s 1 2) =
      some true := by decide +kernel
  obtain ⟨s, e, hb⟩ := Option.map_eq_some_iff.1 key
  exact ⟨s, runSchedule_reach _ 0 _ s .zero e, bothWrite_race (by decide) hb⟩

end GkrMimc
