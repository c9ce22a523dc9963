import Verif.Proofs.StallProve
import Verif.Props.Crash
import Verif.Proofs.ConcAttain

/-! Property C71: where the sequential reading of the worker pools and of `Prove` says `deadlock`, no schedule returns: every schedule
ends, blocked or with a panic, within a bound. With C19, C21 and C70 the sequential reading says what all schedules do. -/

set_option linter.unusedSectionVars false

namespace GkrMimc

open Spec Finset

variable {F : Type} [Field F] [DecidableEq F]

/-- C71 for `Layer.Evaluate`. -/
theorem C71_evaluate (l : Layer F) (inputs res0 : List (List F)) (nCore : Int) (h : l.evaluate inputs nCore = .error .deadlock)
    (h0 : res0.length = inputs.length) : ∃ bound, NeverReturns bound (startOf (l.evaluateP inputs nCore) res0 .tok) := by
  unfold Layer.evaluate semaphoreSection at h
  split_ifs at h with h1 h2
  · cases h
  · obtain ⟨rfl, hl⟩ := h2
    exact evaluateP_never (List.length_pos_iff.1 hl) res0
  · rw [ok_bind] at h
    by_cases hn : 1 ≤ nCore
    · obtain ⟨B, hB⟩ := evaluateP_crashes hn h h0
      exact ⟨B, neverReturns_of_crashes hB⟩
    · have : inputs = [] := by
        cases inputs with
        | nil => rfl
        | cons x xs => exact absurd ⟨by omega, by simp⟩ h2
      subst this
      cases h

/-- The chunks would panic, but nobody gets a token. -/
example : (newLayer [⟨0, 1, 0, addGate⟩] : Layer Fr).evaluate [[1, 2, 3, 4], [5, 6, 7, 8]] 0 = .error .deadlock := by decide +kernel

/-- C71 for `LayerAsBKTWithCopy`. -/
theorem C71_copy (values : List (List (List F))) (layer : Nat) (nCore : Int) (res0 : List (Table F))
    (h : layerAsBKTWithCopy values layer nCore = .error .deadlock) :
    ∃ bound, NeverReturns bound (startOf (layerAsBKTWithCopyP values layer nCore) res0 .tok) := by
  unfold layerAsBKTWithCopy at h
  cases hv : idx values layer with
  | error e' =>
    rw [start_eq]
    unfold layerAsBKTWithCopyP
    rw [hv]
    exact ⟨1, neverReturns_of_crashes (E := AnyErr) (crashes_now trivial _ _ _ _ _ _)⟩
  | ok v =>
    rw [hv, ok_bind] at h
    unfold semaphoreSection at h
    split_ifs at h with h1 h2
    · cases h
    · obtain ⟨rfl, hl⟩ := h2
      obtain ⟨B, hB⟩ := layerAsBKTWithCopyP_deadlock (res0 := res0) hv (List.length_pos_iff.1 hl)
      exact ⟨B, fun n s hr => ⟨(hB n s hr).1, fun _ => (hB n s hr).2.2⟩⟩
    · cases h

example : layerAsBKTWithCopy ([[[1, 2], [3, 4]]] : List (List (List Fr))) 0 0 = .error .deadlock := by decide +kernel

/-- C71 for `GetClaim`. -/
theorem C71_getClaim (p : MProver F) (nCore : Int) (h : p.getClaim nCore = .error .deadlock) :
    ∃ bound, NeverReturns bound (startOf (p.getClaimP nCore) () .tok) := by
  unfold MProver.getClaim semaphoreSection at h
  dsimp only at h
  split_ifs at h with h1 h2
  · cases h
  · obtain ⟨rfl, hl⟩ := h2
    exact getClaimP_never hl
  · rw [ok_bind] at h
    obtain ⟨i, hi, s, e', hx⟩ := forN_error h
    have hi' : ∃ e, (p.subProver i >>= SProver.getClaim) = .error e := by
      cases hs : p.subProver i with
      | error e'' => exact ⟨e'', rfl⟩
      | ok sp =>
        rw [hs, ok_bind] at hx
        cases hc : sp.getClaim with
        | error e'' => exact ⟨e'', by rw [ok_bind, hc]⟩
        | ok x => rw [hc] at hx; cases hx
    obtain ⟨e'', he⟩ := hi'
    obtain ⟨B, hB⟩ := getClaimP_crashes (nCore := nCore) (by omega) hi he
    exact ⟨B, neverReturns_of_crashes hB⟩

example : (newMProver [[1, 5], [2, 6]] [[1, 5]] [[-6], [7]] [cipherGate frString 3, copyGate]
    [[0, 0, 1 - 7, 0], [0, 0, 7, 0]] : MProver Fr).getClaim 0 = .error .deadlock := by decide +kernel

/-- C71 for `Prove`, on chunks with the same dimensions: without cores nobody starts; and if main counts another number of rounds than the
workers, it waits in the end on a channel on which nobody sends any more. -/
theorem C71_prove (H : List F → F) (p : MProver F) (nCore : Int) (h : p.prove H nCore = .error .deadlock) (heven : EvenChunks p) :
    ∃ bound, NeverReturns bound (startOf (p.proveP H nCore) () .tok) :=
  proveP_never h heven

/-- C71. On chunks with the same dimensions the sequential reading of `Prove` says what every schedule does, for every number of cores: return
its result, panic, or never return. -/
theorem C71_prove_outcomes (H : List F → F) (p : MProver F) (nCore : Int) (heven : EvenChunks p) :
    (∃ out bound, p.prove H nCore = .ok out ∧
      GoodRun 2 nCore.toNat (fun s => s.gs 0 = .ret (.out out)) bound (startOf (p.proveP H nCore) () .tok)) ∨
    (∃ e bound, p.prove H nCore = .error e ∧ e ≠ .deadlock ∧ Crashes (fun _ => True) bound (startOf (p.proveP H nCore) () .tok)) ∨
    (∃ bound, p.prove H nCore = .error .deadlock ∧ NeverReturns bound (startOf (p.proveP H nCore) () .tok)) := by
  cases h : p.prove H nCore with
  | ok out =>
    obtain ⟨B, hB⟩ := proveP_good h heven
    exact .inl ⟨out, B, rfl, hB⟩
  | error e =>
    by_cases hd : e = .deadlock
    · subst hd
      obtain ⟨B, hB⟩ := proveP_never h heven
      exact .inr (.inr ⟨B, rfl, hB⟩)
    · obtain ⟨B, hB⟩ := proveP_crashes h hd heven
      exact .inr (.inl ⟨e, B, rfl, hd, hB⟩)

/-- Three chunks of five: main counts two rounds (`log2Ceil 15 - log2Ceil 3`), the workers three (`log2Ceil 5`). -/
def neverProver : MProver Fr := newMProver [[1, 2, 3, 4, 5], [1, 2, 3, 4, 5], [1, 2, 3, 4, 5]] [[1, 2, 3, 4, 5], [1, 2, 3, 4, 5], [1, 2, 3, 4, 5]]
  [[1, 2, 3, 4, 5], [1, 2, 3, 4, 5], [1, 2, 3, 4, 5]] [copyGate] [[1]]

theorem neverProver_even : EvenChunks neverProver := by
  intro i hi j hj
  have hi : i < 3 := hi
  have hj : j < 3 := hj
  interval_cases i <;> interval_cases j <;> decide +kernel

example : neverProver.prove (fun _ => 3) 2 = .error .deadlock := by decide +kernel

example : ∃ bound, NeverReturns bound (startOf (neverProver.proveP (fun _ => 3) 2) () .tok) :=
  C71_prove _ _ 2 (by decide +kernel) neverProver_even

/-- From every reachable state, however it goes on, a state is reached in which nobody can go on; there the process has panicked or the caller
has not returned. -/
theorem C71_no_result {M V : Type} {bound : Nat} {s0 : Conf M V} (h : NeverReturns bound s0) (s : Conf M V) (hs : Reach s0 s) :
    ∃ s', Reach s s' ∧ (∀ s'', ¬ Step s' s'') ∧ (s'.crashed ≠ none ∨ ¬ Returned s' 0) := by
  obtain ⟨n, hn⟩ := hs
  obtain ⟨k, hk⟩ : ∃ k, k = bound - n := ⟨_, rfl⟩
  induction k generalizing n s with
  | zero =>
    refine ⟨s, ⟨0, .zero⟩, fun s'' hs => ?_, ?_⟩
    · have := (h _ _ (hn.step hs)).1; omega
    · by_cases hc : s.crashed = none
      · exact .inr ((h n s hn).2 hc)
      · exact .inl hc
  | succ k ih =>
    by_cases hs : ∃ s'', Step s s''
    · obtain ⟨s'', hs⟩ := hs
      obtain ⟨s', ⟨m, h1⟩, h2⟩ := ih s'' (n + 1) (hn.step hs) (by omega)
      exact ⟨s', ⟨_, (ReachIn.step .zero hs).trans h1⟩, h2⟩
    · refine ⟨s, ⟨0, .zero⟩, fun s'' h => hs ⟨s'', h⟩, ?_⟩
      by_cases hc : s.crashed = none
      · exact .inr ((h n s hn).2 hc)
      · exact .inl hc

/-- A schedule: the first goroutine of the list that can go on does. -/
def runPrio {M V : Type} (prio : List Nat) : Nat → Conf M V → Conf M V
  | 0, s => s
  | n + 1, s => if s.crashed.isSome then s else
    match prio.findSome? fun i => exec s i with
    | some s' => runPrio prio n s'
    | none => s

theorem runPrio_reach {M V : Type} (prio : List Nat) : ∀ (n : Nat) (s : Conf M V), Reach s (runPrio prio n s)
  | 0, _ => ⟨0, .zero⟩
  | n + 1, s => by
    unfold runPrio
    split_ifs with hc
    · exact ⟨0, .zero⟩
    · cases h : prio.findSome? fun i => exec s i with
      | none => exact ⟨0, .zero⟩
      | some s' =>
        obtain ⟨i, _, hi⟩ := List.exists_of_findSome?_eq_some h
        exact Reach.trans ⟨_, ReachIn.step .zero ⟨by simpa using hc, .inl ⟨i, hi⟩⟩⟩ (runPrio_reach prio n s')

/-- The result that a goroutine has returned. -/
def retOut {M F : Type} : Prog M (Msg F) → Option (SumcheckOut F)
  | .ret (.out o) => some o
  | _ => none

theorem retOut_some {M F : Type} {p : Prog M (Msg F)} {o : SumcheckOut F} (h : retOut p = some o) : p = .ret (.out o) := by
  unfold retOut at h
  split at h
  · rw [Option.some.inj h]
  · cases h

/-- Two chunks with the same number of rounds, but in the second all of them are about the instances. -/
def unevenProver : MProver Fr :=
  newMProver [[1, 5], [2, 6, 3, 4]] [[1, 5], [2, 6, 3, 4]] [[2], [7, 2, 3, 4]] [cipherGate frString 3] [[0, 1, 3, 0]]

/-- C71. Chunks of different dimensions are excluded for good reason: here some schedules return the result of the sequential reading, others
panic, as main adds the messages of the workers in the order of their arrival (sumcheck/par.go:186-195), and they have different lengths. -/
theorem C71_uneven : ∃ out, unevenProver.prove (fun _ => 3) 2 = .ok out ∧
    (∃ s, Reach (startOf (unevenProver.proveP (fun _ => 3) 2) () .tok) s ∧ s.gs 0 = .ret (.out out)) ∧
    ∃ s, Reach (startOf (unevenProver.proveP (fun _ => 3) 2) () .tok) s ∧ s.crashed = some .index := by
  have h1 : ∃ out, unevenProver.prove (fun _ => 3) 2 = .ok out ∧
      retOut ((runPrio [0, 1, 2, 3, 4, 5, 6, 7, 8] 200 (startOf (unevenProver.proveP (fun _ => 3) 2) () .tok)).gs 0) = some out := by
    cases h : unevenProver.prove (fun _ => 3) 2 with
    | error e =>
      have : ((unevenProver.prove (fun _ => 3) 2).toOption).isSome = true := by decide +kernel
      rw [h] at this; cases this
    | ok out =>
      have : (unevenProver.prove (fun _ => 3) 2).toOption =
          retOut ((runPrio [0, 1, 2, 3, 4, 5, 6, 7, 8] 200 (startOf (unevenProver.proveP (fun _ => 3) 2) () .tok)).gs 0) := by
        decide +kernel
      rw [h] at this
      exact ⟨out, rfl, this.symm⟩
  obtain ⟨out, h2, h3⟩ := h1
  exact ⟨out, h2, ⟨_, runPrio_reach _ _ _, retOut_some h3⟩,
    runPrio [0, 2, 1, 3, 4, 5, 6, 7, 8] 40 (startOf (unevenProver.proveP (fun _ => 3) 2) () .tok), runPrio_reach _ _ _, by decide +kernel⟩

end GkrMimc
