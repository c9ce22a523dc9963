import Verif.Props.Harness
import Verif.Props.R1cs
import Verif.Model.GadgetBench

/-! The phases of the benchmarks of the gadgets: what they leave behind. -/

namespace GkrMimc

open Spec

variable {V σ : Type}

/-- What a phase that runs through does to the state: the variables change by `n` steps, and exactly its computations are
measured. -/
structure PhaseRan (step : V → V) (n : Nat) (s s' : Host (Phases V)) : Prop where
  vars : s'.result.vars = step^[n] s.result.vars
  reports : s'.result.reports = s.result.reports
  elapsed : s'.elapsed = (List.range n).map .run
  tracing : s'.tracing = s.tracing
  profiling : s'.profiling = s.profiling

theorem bm_bind_ret {R α β : Type} {x : Bm R α} {f : α → Bm R β} {s s' : Host R} {a : α} (h : x s = (.ret a, s')) :
    (x >>= f) s = f a s' := by
  show Bm.bind x f s = _
  unfold Bm.bind
  rw [h]

theorem bm_bind_panic {R α β : Type} {x : Bm R α} {f : α → Bm R β} {s s' : Host R} {e : Abort} (h : x s = (.panic e, s')) :
    (x >>= f) s = (.panic e, s') := by
  show Bm.bind x f s = _
  unfold Bm.bind
  rw [h]

theorem bm_work_ok {R α : Type} {w : Work} {x : Go α} {a : α} (h : x = .ok a) (s : Host R) : Bm.work w x s = (.ret a, s.did w) := by
  subst h; rfl

theorem bm_go_ok {R α : Type} {x : Go α} {a : α} (h : x = .ok a) (s : Host R) : (Bm.go x : Bm R α) s = (.ret a, s) := by
  subst h; rfl

theorem getVars_bind {α : Type} (f : V → Bm (Phases V) α) (s : Host (Phases V)) : (getVars >>= f) s = f s.result.vars s := rfl
theorem setVars_bind {α : Type} (v : V) (f : Unit → Bm (Phases V) α) (s : Host (Phases V)) :
    (setVars v >>= f) s = f () { s with result := { s.result with vars := v } } := rfl
theorem startTimer_bind {R α : Type} (f : Unit → Bm R α) (s : Host R) : (startTimer >>= f) s = f () { s with timer := true } := rfl
theorem stopTimer_bind {R α : Type} (f : Unit → Bm R α) (s : Host R) : (stopTimer >>= f) s = f () { s with timer := false } := rfl
theorem resetTimer_bind {R α : Type} (f : Unit → Bm R α) (s : Host R) : (resetTimer >>= f) s = f () { s with elapsed := [] } := rfl
theorem modify_bind {R α : Type} (g : Host R → Host R) (f : Unit → Bm R α) (s : Host R) : (Bm.modify g >>= f) s = f () (g s) := rfl

theorem phasePlain_ran {run : V → Go V} {step : V → V} {P : V → Prop} (h : ∀ v, P v → run v = .ok (step v) ∧ P (step v)) (n : Nat)
    (s : Host (Phases V)) (hP : P s.result.vars) (ht : s.timer = true) (he : s.elapsed = []) :
    ∃ s', phasePlain run n s = (.ret (), s') ∧ PhaseRan step n s s' ∧ P s'.result.vars := by
  obtain ⟨s', e, h1, h2, -⟩ := Bm.forN_inv (fun i t => PhaseRan step i s t ∧ P t.result.vars ∧ t.timer = true) n s
    (body := fun i => do
      let v ← getVars
      let v ← Bm.work (.run i) (run v)
      setVars v)
    ⟨⟨rfl, rfl, by simp [he], rfl, rfl⟩, hP, ht⟩ (by
      rintro i - t ⟨r, hPt, htt⟩
      obtain ⟨g1, g2⟩ := h _ hPt
      refine ⟨_, by rw [getVars_bind, bm_bind_ret (bm_work_ok g1 _)]; rfl, ⟨?_, ?_, ?_, ?_, ?_⟩, ?_, ?_⟩
      · show step t.result.vars = _
        rw [r.vars, Function.iterate_succ_apply']
      · exact r.reports
      · simp [Host.did, htt, r.elapsed, List.range_succ]
      · exact r.tracing
      · exact r.profiling
      · exact g2
      · exact htt)
  exact ⟨s', e, h1, h2⟩

theorem phaseTimed_ran {setup : V → Go σ} {run : V → σ → Go V} {step : V → V} {P : V → Prop}
    (h : ∀ v, P v → (∃ p, setup v = .ok p ∧ run v p = .ok (step v)) ∧ P (step v)) (n : Nat)
    (s : Host (Phases V)) (hP : P s.result.vars) (he : s.elapsed = []) :
    ∃ s', phaseTimed setup run n s = (.ret (), s') ∧ PhaseRan step n s s' ∧ P s'.result.vars := by
  obtain ⟨s', e, h1, h2, -⟩ := Bm.forN_inv (fun i t => PhaseRan step i s t ∧ P t.result.vars ∧ t.timer = false) n ({ s with timer := false })
    (body := fun i => do
      let v ← getVars
      let p ← Bm.work (.setup i) (setup v)
      startTimer
      let v ← Bm.work (.run i) (run v p)
      setVars v
      stopTimer)
    ⟨⟨rfl, rfl, by simp [he], rfl, rfl⟩, hP, rfl⟩ (by
      rintro i - t ⟨r, hPt, htt⟩
      obtain ⟨⟨p, g1, g1'⟩, g2⟩ := h _ hPt
      refine ⟨_, by
        rw [getVars_bind, bm_bind_ret (bm_work_ok g1 _), startTimer_bind, bm_bind_ret (bm_work_ok g1' _), setVars_bind]
        rfl, ⟨?_, ?_, ?_, ?_, ?_⟩, ?_, ?_⟩
      · show step t.result.vars = _
        rw [r.vars, Function.iterate_succ_apply']
      · exact r.reports
      · simp [Host.did, htt, r.elapsed, List.range_succ]
      · exact r.tracing
      · exact r.profiling
      · exact g2
      · rfl)
  exact ⟨s', by unfold phaseTimed; rw [stopTimer_bind]; exact e, h1, h2⟩

theorem bRun_ran {body : Nat → Bm (Phases V) Unit} {step : V → V} {P : V → Prop}
    (h : ∀ n s, P s.result.vars → s.timer = true → s.elapsed = [] →
      ∃ s', body n s = (.ret (), s') ∧ PhaseRan step n s s' ∧ P s'.result.vars) :
    ∀ (ns : List Nat) (s : Host (Phases V)), P s.result.vars →
      ∃ s', bRun body ns s = (.ret (), s') ∧ s'.result.vars = step^[ns.sum] s.result.vars ∧
        s'.result.reports = s.result.reports ++ ns.map (fun n => (List.range n).map .run) ∧ P s'.result.vars := by
  intro ns
  induction ns with
  | nil => intro s hP; exact ⟨s, rfl, rfl, by simp, hP⟩
  | cons n ns ih =>
    intro s hP
    obtain ⟨s1, e1, r, hP1⟩ := h n { s with elapsed := [], timer := true } hP rfl rfl
    obtain ⟨s2, e2, v, rep, hP2⟩ := ih { s1 with timer := false, result := { s1.result with reports := s1.result.reports ++ [s1.elapsed] } } hP1
    refine ⟨s2, ?_, ?_, ?_, hP2⟩
    · unfold bRun
      rw [resetTimer_bind, startTimer_bind, bm_bind_ret e1, stopTimer_bind, modify_bind]
      exact e2
    · rw [v]
      show step^[ns.sum] s1.result.vars = _
      rw [r.vars, List.sum_cons, Nat.add_comm n, Function.iterate_add_apply]
    · rw [rep]
      show (s1.result.reports ++ [s1.elapsed]) ++ _ = _
      rw [r.reports, r.elapsed]
      simp

theorem iterate_idem {f : V → V} (h : ∀ v, f (f v) = f v) {n : Nat} (hn : 0 < n) (v : V) : f^[n] v = f v := by
  obtain ⟨n, rfl⟩ : ∃ k, n = k + 1 := ⟨n - 1, by omega⟩
  induction n with
  | zero => rfl
  | succ n ih => rw [Function.iterate_succ_apply', ih (by omega), h]

end GkrMimc
