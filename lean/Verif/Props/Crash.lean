import Verif.Proofs.CrashProveEnd
import Verif.Props.ConcProve

/-! Property C70: when a worker or the caller panics, the process ends with a panic under every schedule; it does not hang and does not
return a result. -/

set_option linter.unusedSectionVars false

namespace GkrMimc

open Spec Finset

variable {F : Type} [Field F] [DecidableEq F]

/-- C70 for `Layer.Evaluate`: when the sequential loop panics, every schedule ends, within a bound that does not depend on the schedule, with
a panic: that of one of the chunks, or that of `make` with a negative `nCore`. Before, somebody can always go on, and the caller has not
returned. -/
theorem C70_evaluate (l : Layer F) (inputs res0 : List (List F)) (nCore : Int) (e : Abort) (h : l.evaluate inputs nCore = .error e)
    (hd : e ≠ .deadlock) (h0 : res0.length = inputs.length) :
    ∃ bound, Crashes (fun e => (nCore < 0 ∧ e = .makeNeg) ∨ ∃ x ∈ inputs, evaluateChunk l x = .error e) bound
      (startOf (l.evaluateP inputs nCore) res0 .tok) := by
  unfold Layer.evaluate semaphoreSection at h
  split_ifs at h with h1 h2
  · refine ⟨1, ?_⟩
    rw [start_eq]
    unfold Layer.evaluateP newSemaphoreP
    rw [if_pos h1]
    exact crashes_now (.inl ⟨h1, rfl⟩) _ _ _ _ _ _
  · exact absurd (Except.error.inj h).symm hd
  · rw [ok_bind] at h
    by_cases hn : 1 ≤ nCore
    · obtain ⟨B, hB⟩ := evaluateP_crashes hn h h0
      refine ⟨B, fun n s hr => ⟨(hB n s hr).1, (hB n s hr).2.imp ?_ id⟩⟩
      rintro ⟨e, he, hx⟩
      exact ⟨e, he, .inr hx⟩
    · have : inputs = [] := by
        cases inputs with
        | nil => rfl
        | cons x xs => exact absurd ⟨by omega, by simp⟩ h2
      subst this
      cases h

/-- A right wire above zero in chunks of two copies: the index `wRN*N+h` is out of range (circuit/layers.go:91). -/
example : (newLayer [⟨0, 1, 0, addGate⟩] : Layer Fr).evaluate [[1, 2, 3, 4], [5, 6, 7, 8]] 2 = .error .index := by decide +kernel

example : ∃ bound, Crashes (fun e => ((2 : Int) < 0 ∧ e = .makeNeg) ∨
      ∃ x ∈ ([[1, 2, 3, 4], [5, 6, 7, 8]] : List (List Fr)), evaluateChunk (newLayer [⟨0, 1, 0, addGate⟩]) x = .error e) bound
    (startOf ((newLayer [⟨0, 1, 0, addGate⟩] : Layer Fr).evaluateP [[1, 2, 3, 4], [5, 6, 7, 8]] 2) [[], []] .tok) :=
  C70_evaluate _ _ _ 2 .index (by decide +kernel) (by simp) rfl

/-- C70 for `LayerAsBKTWithCopy`. -/
theorem C70_copy (values : List (List (List F))) (layer : Nat) (nCore : Int) (res0 : List (Table F)) (e : Abort)
    (h : layerAsBKTWithCopy values layer nCore = .error e) (hd : e ≠ .deadlock) :
    ∃ bound, Crashes (· = e) bound (startOf (layerAsBKTWithCopyP values layer nCore) res0 .tok) := by
  unfold layerAsBKTWithCopy at h
  rw [start_eq]
  unfold layerAsBKTWithCopyP
  cases hv : idx values layer with
  | error e' =>
    rw [hv] at h
    obtain rfl : e' = e := Except.error.inj h
    exact ⟨1, crashes_now (E := (· = _)) rfl _ _ _ _ _ _⟩
  | ok v =>
    rw [hv, ok_bind] at h
    unfold semaphoreSection at h
    rw [liftGo_ok]
    split_ifs at h with h1 h2
    · obtain rfl : Abort.makeNeg = e := Except.error.inj h
      refine ⟨1 + 1, crashes_cons (soloConf_solo _ _ _ _ _ _ _) (soloConf_wgNew _ _ _ _ _ _ _ _) ?_⟩
      unfold newSemaphoreP
      rw [if_pos h1]
      exact crashes_now (E := (· = _)) rfl _ _ _ _ _ _
    · exact absurd (Except.error.inj h).symm hd
    · cases h

example : layerAsBKTWithCopy ([[[1, 2], [3, 4]]] : List (List (List Fr))) 1 2 = .error .index := by decide +kernel

example : layerAsBKTWithCopy ([[[1, 2], [3, 4]]] : List (List (List Fr))) 0 (-1) = .error .makeNeg := by decide +kernel

theorem forN_error {σ : Type} {body : Nat → σ → Go σ} : ∀ {n : Nat} {s : σ} {e : Abort}, forN n s body = .error e →
    ∃ i < n, ∃ s e, body i s = .error e := by
  intro n
  induction n with
  | zero => intro s e h; simp at h
  | succ n ih =>
    intro s e h
    rw [forN_succ] at h
    cases hr : forN n s body with
    | error e' =>
      obtain ⟨i, hi, hx⟩ := ih hr
      exact ⟨i, by omega, hx⟩
    | ok s' =>
      rw [hr, ok_bind] at h
      exact ⟨n, by omega, s', e, h⟩

/-- C70 for `GetClaim`. -/
theorem C70_getClaim (p : MProver F) (nCore : Int) (e : Abort) (h : p.getClaim nCore = .error e) (hd : e ≠ .deadlock) :
    ∃ bound, Crashes (fun e => (nCore < 0 ∧ e = .makeNeg) ∨ ∃ i < p.eq.length, (p.subProver i >>= SProver.getClaim) = .error e) bound
      (startOf (p.getClaimP nCore) () .tok) := by
  unfold MProver.getClaim semaphoreSection at h
  dsimp only at h
  split_ifs at h with h1 h2
  · refine ⟨1 + 1, ?_⟩
    rw [start_eq]
    unfold MProver.getClaimP newSemaphoreP
    simp only [if_pos h1]
    exact crashes_cons (soloConf_solo _ _ _ _ _ _ _) (soloConf_make _ _ _ _ _ _ _ _) (crashes_now (.inl ⟨h1, rfl⟩) _ _ _ _ _ _)
  · exact absurd (Except.error.inj h).symm hd
  · rw [ok_bind] at h
    obtain ⟨i, hi, s, e', hx⟩ := forN_error h
    have hi' : ∃ e, (p.subProver i >>= SProver.getClaim) = .error e := by
      cases hs : p.subProver i with
      | error e'' => exact ⟨e'', rfl⟩
      | ok sp =>
        rw [hs, ok_bind] at hx
        cases hc : sp.getClaim with
        | error e'' => exact ⟨e'', by rw [ok_bind, hc]⟩
        | ok x => rw [hc] at hx; cases hx
    obtain ⟨e'', he⟩ := hi'
    obtain ⟨B, hB⟩ := getClaimP_crashes (nCore := nCore) (by omega) hi he
    refine ⟨B, fun n s hr => ⟨(hB n s hr).1, (hB n s hr).2.imp ?_ id⟩⟩
    rintro ⟨e, he, hx⟩
    exact ⟨e, he, .inr hx⟩

/-- A chunk of `vR` is missing. -/
example : (newMProver [[1, 5], [2, 6]] [[1, 5]] [[-6], [7]] [cipherGate frString 3, copyGate]
    [[0, 0, 1 - 7, 0], [0, 0, 7, 0]] : MProver Fr).getClaim 3 = .error .index := by decide +kernel

example : ∃ bound, Crashes (fun e => ((3 : Int) < 0 ∧ e = .makeNeg) ∨ ∃ i < 2,
      ((newMProver [[1, 5], [2, 6]] [[1, 5]] [[-6], [7]] [cipherGate frString 3, copyGate] [[0, 0, 1 - 7, 0], [0, 0, 7, 0]] :
        MProver Fr).subProver i >>= SProver.getClaim) = .error e) bound
    (startOf ((newMProver [[1, 5], [2, 6]] [[1, 5]] [[-6], [7]] [cipherGate frString 3, copyGate]
      [[0, 0, 1 - 7, 0], [0, 0, 7, 0]] : MProver Fr).getClaimP 3) () .tok) :=
  C70_getClaim _ 3 .index (by decide +kernel) (by simp)

/-- C70 for `Prove` on chunks with the same dimensions: when the sequential run panics, every schedule ends with a panic, within a bound that
does not depend on the schedule; before, somebody can always go on, and the caller has not returned. The panic may be another one than that
of the sequential run, as it may be in another worker. -/
theorem C70_prove (H : List F → F) (p : MProver F) (nCore : Int) (e : Abort) (h : p.prove H nCore = .error e) (hd : e ≠ .deadlock)
    (heven : EvenChunks p) : ∃ bound, Crashes (fun _ => True) bound (startOf (p.proveP H nCore) () .tok) :=
  proveP_crashes h hd heven

/-- C70. On chunks with the same dimensions and with at least one core, either every schedule of `Prove` returns the result of the sequential
run, or every schedule ends with a panic, or the numbers of rounds of main and workers differ. -/
theorem C70_prove_outcomes (H : List F → F) (p : MProver F) (nCore : Int) (heven : EvenChunks p) :
    (∃ out bound, p.prove H nCore = .ok out ∧ GoodRun 2 nCore.toNat (fun s => s.gs 0 = .ret (.out out)) bound (startOf (p.proveP H nCore) () .tok)) ∨
    (∃ bound, Crashes (fun _ => True) bound (startOf (p.proveP H nCore) () .tok)) ∨ p.prove H nCore = .error .deadlock := by
  cases h : p.prove H nCore with
  | ok out =>
    obtain ⟨B, hB⟩ := proveP_good h heven
    exact .inl ⟨out, B, rfl, hB⟩
  | error e =>
    by_cases hd : e = .deadlock
    · subst hd; exact .inr (.inr rfl)
    · exact .inr (.inl (proveP_crashes h hd heven))

deriving instance DecidableEq for SumcheckOut

/-- One static table for two gates. -/
def crashProver : MProver Fr := newMProver [[1, 5], [2, 6]] [[1, 5], [2, 6]] [[-6], [7]] [cipherGate frString 3, copyGate] [[0, 0, 1 - 7, 0]]

theorem crashProver_even : EvenChunks crashProver := by
  intro i hi j hj
  have hi : i < 2 := hi
  have hj : j < 2 := hj
  interval_cases i <;> interval_cases j <;> decide +kernel

example : ∃ e, e ≠ .deadlock ∧ crashProver.prove (fun _ => 3) 2 = .error e := ⟨.index, by simp, by decide +kernel⟩

example : ∃ bound, Crashes (fun _ => True) bound (startOf (crashProver.proveP (fun _ => 3) 2) () .tok) :=
  C70_prove _ _ 2 .index (by decide +kernel) (by simp) crashProver_even

/-- No schedule of a program that panics returns. -/
theorem C70_no_result {M V : Type} {errs : Abort → Prop} {bound : Nat} {s0 : Conf M V} (h : Crashes errs bound s0) (s : Conf M V) (hs : Reach s0 s)
    (ha : s.crashed = none) : ¬ Returned s 0 ∧ ∃ s', Step s s' := by
  obtain ⟨n, hn⟩ := hs
  rcases (h n s hn).2 with ⟨e, he, _⟩ | ⟨_, h1, h2⟩
  · rw [ha] at he; cases he
  · exact ⟨h2, h1⟩

end GkrMimc
