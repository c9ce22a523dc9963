import Verif.Props.Snark

/-! C37, continued: a gadget takes one proof only. -/

set_option linter.unusedSectionVars false

namespace GkrMimc

variable {F : Type} [Field F] [DecidableEq F]

theorem slotsAssign_full (c : List F) (i : Nat) (x : F) : ∃ e, slotsAssign (c.map some) i x = .error e := by
  unfold slotsAssign idx
  by_cases h : i < c.length
  · simp [h, slotAssign]
  · simp [h]

theorem forN_first_error {σ : Type} {body : Nat → σ → Go σ} {n : Nat} (hn : 1 ≤ n) {s : σ} (h : ∃ e, body 0 s = .error e) :
    ∃ e, forN n s body = .error e := by
  obtain ⟨m, rfl⟩ : ∃ m, n = m + 1 := ⟨n - 1, by omega⟩
  obtain ⟨e, h⟩ := h
  refine ⟨e, ?_⟩
  unfold forN forFrom
  rw [h]

theorem bind_error {α β : Type} {x : Go α} {f : α → Go β} (h : ∀ a, x = .ok a → ∃ e, f a = .error e) : ∃ e, (x >>= f) = .error e := by
  cases x with
  | error e => exact ⟨e, rfl⟩
  | ok a => exact h a rfl

theorem uniAssign_full (c : List F) (hc : c ≠ []) (d : List F) : ∃ e, uniAssign (c.map some) d = .error e := by
  unfold uniAssign
  split
  · exact ⟨_, rfl⟩
  · rename_i h
    have := List.length_pos_of_ne_nil hc
    exact forN_first_error (by simp at h; omega) (bind_error fun a _ => slotsAssign_full c 0 a)

/-- C37. A variable of the gadget is assigned once: a gadget that holds a proof panics when a proof is assigned to it, be it another or
the same; a table or polynomial that holds values, when values are assigned to it. (That a variable of gnark panics when it is assigned
twice is an assumption of the model, see `slotAssign`.) -/
theorem C37_once :
    (∀ c d : List F, c ≠ [] → ∃ e, mlAssign (c.map some) d = .error e) ∧
    (∀ c d : List F, c ≠ [] → ∃ e, uniAssign (c.map some) d = .error e) ∧
    (∀ ps qs : List (List F), ps ≠ [] → (∀ c ∈ ps, c ≠ []) → ∃ e, sumcheckAssign (ps.map (List.map some)) qs = .error e) ∧
    ∀ p q : GkrProof F, p.sumcheckProofs ≠ [] →
      ∃ e, snarkAssign ⟨p.sumcheckProofs.map (List.map (List.map some)), p.claimsLeft.map some, p.claimsRight.map some⟩ q = .error e := by
  refine ⟨fun c d hc => ?_, fun c d hc => uniAssign_full c hc d, fun ps qs hp hc => ?_, fun p q hp => ?_⟩
  · unfold mlAssign
    split
    · exact ⟨_, rfl⟩
    · rename_i h
      have := List.length_pos_of_ne_nil hc
      exact forN_first_error (by simp at h; omega) (bind_error fun a _ => slotsAssign_full c 0 a)
  · unfold sumcheckAssign
    split
    · exact ⟨_, rfl⟩
    · rename_i h
      obtain ⟨c, ps, rfl⟩ := List.exists_cons_of_ne_nil hp
      refine forN_first_error (by simp at h; omega) (bind_error fun a _ => bind_error fun u hu => ?_)
      simp [idx] at hu
      subst hu
      exact bind_error fun u' hu' => by
        obtain ⟨e, he⟩ := uniAssign_full c (hc c (by simp)) a
        rw [he] at hu'
        cases hu'
  · unfold snarkAssign
    refine forN_first_error (by have := List.length_pos_of_ne_nil hp; simp only [List.length_map]; omega) ?_
    refine bind_error fun _ _ => bind_error fun _ _ => bind_error fun _ _ => bind_error fun _ _ => bind_error fun cl _ => bind_error fun cls h => ?_
    obtain ⟨e, he⟩ := slotsAssign_full p.claimsLeft 0 cl
    rw [he] at h
    cases h

/-- Two variables hold 1 and 2; they cannot be assigned again. An empty pair of variables can. -/
example : (∃ e, mlAssign [some (1 : Fr), some 2] [1, 2] = .error e) ∧ mlAssign [none, none] [(1 : Fr), 2] = .ok [some 1, some 2] :=
  ⟨C37_once.1 [1, 2] [1, 2] (by simp), rfl⟩

end GkrMimc
