import Verif.Props.Harness

/-! C60, continued: a computation that waits for ever. -/

namespace GkrMimc

open Spec

variable {R : Type}

/-- C60. If the measured computation waits for ever, so does `ProfileTrace`: it does not panic, and neither the timer nor a recorder is
stopped. With any other error it panics with this error, after they are stopped. -/
theorem C60_blocked (bad : FileErrors) (name : String) (profiled traced : Bool) (w : Work) (e : Abort) (s : Host R)
    (h : CanRecord bad name profiled traced s) :
    ∃ s1, Recording name profiled traced s s1 ∧
      (e = .deadlock → profileTrace bad name profiled traced (Bm.work w (.error e)) s = (.halted, s1.did w)) ∧
      (e ≠ .deadlock → ∃ s3, profileTrace bad name profiled traced (Bm.work w (.error e)) s = (.panic e, s3) ∧
        Stopped name profiled traced (s1.did w) s3) := by
  obtain ⟨s1, h1, h2⟩ := C60_profileTrace bad name profiled traced (Bm.work w (.error e)) s h
  refine ⟨s1, h1, ?_, ?_⟩
  · rintro rfl
    have hf : Bm.work (α := Unit) w (.error .deadlock) s1 = (.halted, s1.did w) := rfl
    rw [hf] at h2
    rcases h2 with ⟨-, h2⟩ | ⟨h2, -⟩
    · exact h2
    · exact absurd rfl h2
  · intro he
    have hf : Bm.work (α := Unit) w (.error e) s1 = (.panic e, s1.did w) := by
      cases e <;> first | exact absurd rfl he | rfl
    rw [hf] at h2
    rcases h2 with ⟨h2, -⟩ | ⟨-, h2⟩
    · cases h2
    · exact h2

/-- A profiled and traced computation that waits for ever: the timer runs and the trace file is open for good. -/
example : ∃ s, profileTrace (fun _ => none) "B" true true (Bm.work (.run 0) (.error .deadlock)) (freshHost Nat) = (.halted, s) ∧
    s.timer = true ∧ s.tracing = some (tracePath "B") := by
  obtain ⟨s1, h1, h2, -⟩ := C60_blocked (fun _ => none) "B" true true (.run 0) .deadlock (freshHost Nat)
    ⟨fun _ => ⟨rfl, rfl⟩, fun _ => ⟨rfl, rfl⟩⟩
  exact ⟨_, h2 rfl, h1.timer, h1.tracing⟩

end GkrMimc
