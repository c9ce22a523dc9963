import Verif.Proofs.ConcAttain
import Verif.Props.ConcProve

/-! C20, continued: what `Holds` means, and that the bound `nCore` is attained. -/

set_option linter.unusedSectionVars false

namespace GkrMimc

open Spec

variable {F : Type} [Field F] [DecidableEq F]

/-- C20. `Holds` follows `Acquire` and `Release`: a goroutine that is about to acquire does not hold the semaphore; one that is
about to release does; operations other than `Acquire` and `Release` of this semaphore change nothing. -/
theorem C20_holds {M V : Type} (sem c : Nat) (tok v : V) (f : M → M) (k p : Prog M V) (kv : Option V → Prog M V) :
    ¬ Holds sem (acquireP sem k) ∧ Holds sem (releaseP sem tok k) ∧ (Holds sem (.act f k) ↔ Holds sem k) ∧
      (Holds sem (.wgDone c k) ↔ Holds sem k) ∧ (Holds sem (.wgWait c k) ↔ Holds sem k) ∧
      (Holds sem (.go p k) ↔ Holds sem k) ∧ (Holds sem (.close c k) ↔ Holds sem k) ∧
      (c ≠ sem → (Holds sem (.send c v k) ↔ Holds sem k)) ∧
      (c ≠ sem → (Holds sem (.recv c kv) ↔ ∃ x, Holds sem (kv x))) ∧ ∀ r : V, ¬ Holds sem (.ret r : Prog M V) := by
  refine ⟨fun h => h.1 rfl, .inl rfl, .rfl, .rfl, .rfl, .rfl, .rfl, fun h => ?_, fun h => ?_, fun _ h => h⟩
  · exact ⟨fun h' => h'.resolve_left h, .inr⟩
  · exact ⟨fun h' => h'.2, fun h' => ⟨h, h'⟩⟩

/-- C20. The bound is attained: some schedule of `Layer.Evaluate` has `min chunks nCore` workers between `Acquire` and
`Release` at the same time. -/
theorem C20_evaluate_attained (l : Layer F) (inputs outs res0 : List (List F)) (nCore : Int) (hn : 0 ≤ nCore)
    (h : l.evaluate inputs nCore = .ok outs) :
    ∃ s, Reach (startOf (l.evaluateP inputs nCore) res0 .tok) s ∧
      ∃ S : Finset Nat, S.card = min inputs.length nCore.toNat ∧ ∀ i ∈ S, 1 ≤ i ∧ Holds 0 (s.gs i) := by
  obtain ⟨N, rfl⟩ := Int.eq_ofNat_of_zero_le hn
  have h' : mapGo (evaluateChunk l) inputs = .ok outs := by
    unfold Layer.evaluate at h
    exact (bind_eq_ok.1 h).choose_spec.2
  obtain ⟨hl, hi⟩ := mapGo_ok_iff h'
  obtain ⟨s1, h1, h2, h3, h4, h5⟩ := run_semaphore (M := List (List F)) (V := Msg F) .tok N _
    (startOf (l.evaluateP inputs N) res0 .tok) rfl rfl
  obtain ⟨s2, f1, f2, f3, f4, f5⟩ := run_wgNew _ _ s1 h2 h3
  have hG : s2.nG = 1 := by rw [f4, h4]; rfl
  obtain ⟨s3, g1, g2, g3⟩ := run_pool 0 _ inputs.length N s2 f2 hG.ge _ (by rw [f5]; exact h5.ge) f3
  refine ⟨s3, h1.trans (f1.trans g1), (Finset.range (min inputs.length N)).map (addRightEmbedding 1), by simp, ?_⟩
  intro i hi'
  simp only [Finset.mem_map, Finset.mem_range, addRightEmbedding_apply] at hi'
  obtain ⟨t, ht, rfl⟩ := hi'
  refine ⟨by omega, ?_⟩
  have ht' : t < inputs.length := by omega
  have := g3 t ht
  rw [hG, Nat.add_comm] at this
  rw [this, show idx inputs t = .ok inputs[t] by simp [idx, ht'], liftGo, hi t ht' (by omega)]
  exact .inl rfl

/-- C20. The same for `GetClaim`. -/
theorem C20_getClaim_attained (p : MProver F) (nCore : Int) (hn : 0 ≤ nCore) (c : F) (h : p.getClaim 1 = .ok c) :
    ∃ s, Reach (startOf (p.getClaimP nCore) () .tok) s ∧
      ∃ S : Finset Nat, S.card = min p.eq.length nCore.toNat ∧ ∀ i ∈ S, 1 ≤ i ∧ Holds 1 (s.gs i) := by
  obtain ⟨N, rfl⟩ := Int.eq_ofNat_of_zero_le hn
  obtain ⟨x, hx, _⟩ := getClaim_chunks h
  obtain ⟨s1, h1, h2, h3, h4, h5⟩ := run_make (M := Unit) (V := Msg F) _ _ (startOf (p.getClaimP N) () .tok) rfl rfl
  obtain ⟨s2, f1, f2, f3, f4, f5⟩ := run_semaphore .tok N _ s1 h2 h3
  have hG : s2.nG = 1 := by rw [f4, h4]; rfl
  have hC : s1.nC = 1 := by rw [h5]; rfl
  rw [hC] at f3 f5
  obtain ⟨s3, g1, g2, g3⟩ := run_pool 1 _ p.eq.length N s2 f2 hG.ge _ f5.ge f3
  refine ⟨s3, h1.trans (f1.trans g1), (Finset.range (min p.eq.length N)).map (addRightEmbedding 1), by simp, ?_⟩
  intro i hi'
  simp only [Finset.mem_map, Finset.mem_range, addRightEmbedding_apply] at hi'
  obtain ⟨t, ht, rfl⟩ := hi'
  refine ⟨by omega, ?_⟩
  have := g3 t ht
  rw [hG, Nat.add_comm] at this
  obtain ⟨sp, e1, e2⟩ := bind_eq_ok.1 (hx t (by omega))
  rw [this, e1, liftGo, e2]
  exact .inr (.inl rfl)

/-- Two of three workers at the same time. -/
example : ∃ s, Reach (startOf ((newLayer [⟨1, 0, 0, cipherGate frString 3⟩, ⟨1, 0, 1, copyGate⟩] : Layer Fr).evaluateP
      [[1, 2], [5, 6], [7, 8]] 2) [[], [], []] .tok) s ∧
    ∃ S : Finset Nat, S.card = 2 ∧ ∀ i ∈ S, 1 ≤ i ∧ Holds 0 (s.gs i) :=
  C20_evaluate_attained _ _ [[2 + 4 ^ 7, 2], [6 + 8 ^ 7, 6], [8 + 10 ^ 7, 8]] _ 2 (by omega) (by decide +kernel)

end GkrMimc
