import Verif.Proofs.HeapVerify
import Verif.Model.Field

/-! Property C42: the verifier on slices, for every memory state, aliasing, capacity and growth policy of `append`. -/

set_option linter.unusedSectionVars false

namespace GkrMimc

variable {F : Type} [Field F] [DecidableEq F]

/-- The contents of a proof. -/
def GkrProofH.vals (h : Heap F) (p : GkrProofH) : GkrProof F :=
  ⟨p.sumcheckProofs.map fun s => s.map h.vals, h.vals p.claimsLeft, h.vals p.claimsRight⟩

/-- All the slices of a proof are usable. -/
structure GkrProofH.Valid (h : Heap F) (p : GkrProofH) : Prop where
  proofs : ∀ sp ∈ p.sumcheckProofs, ∀ s ∈ sp, GkrMimc.Valid h s
  left : GkrMimc.Valid h p.claimsLeft
  right : GkrMimc.Valid h p.claimsRight

theorem GkrProofH.Valid.rep {h : Heap F} {p : GkrProofH} (v : p.Valid h) : PRep h p (p.vals h) := by
  refine ⟨?_, Rep.self v.left, Rep.self v.right⟩
  have : ∀ l : List (List Slice), (∀ sp ∈ l, ∀ s ∈ sp, GkrMimc.Valid h s) →
      List.Forall₂ (Reps h) l (l.map fun s => s.map h.vals) := by
    intro l
    induction l with
    | nil => intro _; exact .nil
    | cons a l ih => exact fun hv => .cons (Reps.self (hv a (by simp))) (ih fun sp hs => hv sp (by simp [hs]))
  exact this _ v.proofs

/-- C42. `append(s, t...)` holds `s` followed by `t`; of the existing cells it writes at most those in the spare capacity
of `s`. -/
theorem C42_append (h : Heap F) (s t : Slice) (vs : Valid h s) (vt : Valid h t) :
    (h.append s t).2.vals (h.append s t).1 = h.vals s ++ h.vals t ∧
    (h.append s t).2.vals s = h.vals s ∧
    ∀ a < h.next, ∀ j, ¬ (a = s.arr ∧ s.off + s.len ≤ j ∧ j < s.off + s.cap) → (h.append s t).2.cells a j = h.cells a j := by
  obtain ⟨r, _, r'⟩ := append_rep (Rep.self vs) (Rep.self vt)
  refine ⟨r.vals, r'.vals, ?_⟩
  intro a ha j hj
  by_cases hc : s.len + t.len ≤ s.cap
  · simp only [Heap.append, hc, if_true]
    rw [copy_cells, if_neg]
    rintro ⟨rfl, h1, h2⟩
    simp only at h1 h2
    exact hj ⟨rfl, h1, by omega⟩
  · simp only [Heap.append, hc, if_false, Heap.alloc]
    rw [Function.update_of_ne (by omega)]

/-- C42. `evaluateStaticTables`: the evaluations are those at `nextQL` followed by `nextQR`, whatever the capacity of `nextQL`;
existing cells are written only in the array of `nextQL`, and its contents stay. The hypothesis is that `nextQL` and `nextQR`
do not share an array; `C42_sumcheckVerify` says so of the slices the verifier has. -/
theorem C42_staticTables (h : Heap F) (l : Layer F) (q nextQL nextQR : Slice) (vq : Valid h q) (vl : Valid h nextQL)
    (vr : Valid h nextQR) (sep : 0 < nextQL.cap → 0 < nextQR.cap → nextQL.arr ≠ nextQR.arr) :
    (∃ e, evaluateStaticTablesH h l q nextQL nextQR = .error e ∧
      evaluateStaticTables l (h.vals q) (h.vals nextQL) (h.vals nextQR) = .error e) ∨
    ∃ evals h', evaluateStaticTablesH h l q nextQL nextQR = .ok (evals, h') ∧
      evaluateStaticTables l (h.vals q) (h.vals nextQL) (h.vals nextQR) = .ok (h'.vals evals) ∧
      h'.vals nextQL = h.vals nextQL ∧
      ∀ a < h.next, (0 < nextQL.cap → a ≠ nextQL.arr) → h'.cells a = h.cells a := by
  have := evaluateStaticTablesH_sim l (Rep.self vq) (Rep.self vl) (Rep.self vr) sep
  rcases hx : evaluateStaticTablesH h l q nextQL nextQR with e | ⟨s, h'⟩ <;>
    rcases hy : evaluateStaticTables l (h.vals q) (h.vals nextQL) (h.vals nextQR) with e' | v <;>
    rw [hx, hy] at this
  · obtain rfl : e = e' := this
    exact .inl ⟨e, rfl, rfl⟩
  · exact this.elim
  · exact this.elim
  · obtain ⟨r, f, r'⟩ := this
    exact .inr ⟨s, h', rfl, by rw [r.vals], r'.vals, f.cells⟩

/-- C42. The same for `evaluateStaticTablesLinCombs`, which appends twice per gate. -/
theorem C42_staticTablesLinCombs (h : Heap F) (l : Layer F) (qL qR nextQL nextQR : Slice) (lambdaL lambdaR : F)
    (vqL : Valid h qL) (vqR : Valid h qR) (vl : Valid h nextQL)
    (vr : Valid h nextQR) (sep : 0 < nextQL.cap → 0 < nextQR.cap → nextQL.arr ≠ nextQR.arr) :
    (∃ e, evaluateStaticTablesLinCombsH h l qL qR nextQL nextQR lambdaL lambdaR = .error e ∧
      evaluateStaticTablesLinCombs l (h.vals qL) (h.vals qR) (h.vals nextQL) (h.vals nextQR) lambdaL lambdaR = .error e) ∨
    ∃ evals h', evaluateStaticTablesLinCombsH h l qL qR nextQL nextQR lambdaL lambdaR = .ok (evals, h') ∧
      evaluateStaticTablesLinCombs l (h.vals qL) (h.vals qR) (h.vals nextQL) (h.vals nextQR) lambdaL lambdaR =
        .ok (h'.vals evals) ∧
      h'.vals nextQL = h.vals nextQL ∧
      ∀ a < h.next, (0 < nextQL.cap → a ≠ nextQL.arr) → h'.cells a = h.cells a := by
  have := evaluateStaticTablesLinCombsH_sim l lambdaL lambdaR (Rep.self vqL) (Rep.self vqR) (Rep.self vl) (Rep.self vr) sep
  rcases hx : evaluateStaticTablesLinCombsH h l qL qR nextQL nextQR lambdaL lambdaR with e | ⟨s, h'⟩ <;>
    rcases hy : evaluateStaticTablesLinCombs l (h.vals qL) (h.vals qR) (h.vals nextQL) (h.vals nextQR) lambdaL lambdaR
      with e' | v <;>
    rw [hx, hy] at this
  · obtain rfl : e = e' := this
    exact .inl ⟨e, rfl, rfl⟩
  · exact this.elim
  · exact this.elim
  · obtain ⟨r, f, r'⟩ := this
    exact .inr ⟨s, h', rfl, by rw [r.vals], r'.vals, f.cells⟩

/-- C42. `sumcheck.Verifier.Verify` changes no existing cell; `qL`, `qR`, `qPrime` have the contents of the value-level
function, and `qL`, to which the caller appends, has an array of its own, allocated by the call. -/
theorem C42_sumcheckVerify (H : List F → F) (h h' : Heap F) (claim : F) (cs : List Slice) (bG : Nat)
    (vc : ∀ s ∈ cs, Valid h s) (r : VerdictH F) (e : sumcheckVerifyH H h claim cs bG = .ok (some r, h')) :
    Frame h h' ∧
    sumcheckVerify H claim (cs.map h.vals) bG = .ok (some ⟨h'.vals r.qPrime, h'.vals r.qL, h'.vals r.qR, r.finalClaim⟩) ∧
    (0 < r.qL.cap → h.next ≤ r.qL.arr) ∧ (0 < r.qL.cap → 0 < r.qR.cap → r.qL.arr ≠ r.qR.arr) ∧
    (0 < r.qL.cap → 0 < r.qPrime.cap → r.qL.arr ≠ r.qPrime.arr) := by
  have := sumcheckVerifyH_sim H claim bG (Reps.self vc)
  rw [e] at this
  rcases hy : sumcheckVerify H claim (cs.map h.vals) bG with e' | v <;> rw [hy] at this
  · exact this.elim
  obtain ⟨f, p⟩ := this
  rcases v with _ | v
  · exact p.elim
  · refine ⟨f, ?_, p.outside, p.apartR, p.apartP⟩
    rw [p.qPrime.vals, p.qL.vals, p.qR.vals, p.claim]

/-- C42. `gkr.Verifier.Verify` changes no existing cell, and returns (or panics) what the value-level function does on the
contents of its arguments. Proof, inputs and outputs may share memory in any way. -/
theorem C42_verify (H : List F → F) (bN : Nat) (c : Circuit F) (h : Heap F) (proof : GkrProofH) (inputs outputs : List Slice)
    (vp : proof.Valid h) (vi : ∀ s ∈ inputs, Valid h s) (vo : ∀ s ∈ outputs, Valid h s) :
    ∃ h', Frame h h' ∧ gkrVerifyH H bN c h proof inputs outputs =
      (gkrVerify H bN c (proof.vals h) (inputs.map h.vals) (outputs.map h.vals) >>= fun b => .ok (b, h')) :=
  (gkrVerifyH_sim H bN c vp.rep (Reps.self vi) (Reps.self vo)).toEq

/-- C42. Two memories with different layouts, capacities and growth policies but the same contents: the same answer. -/
theorem C42_layout_independent (H : List F → F) (bN : Nat) (c : Circuit F) (h₁ h₂ : Heap F) (proof₁ proof₂ : GkrProofH)
    (inputs₁ outputs₁ inputs₂ outputs₂ : List Slice)
    (vp₁ : proof₁.Valid h₁) (vi₁ : ∀ s ∈ inputs₁, Valid h₁ s) (vo₁ : ∀ s ∈ outputs₁, Valid h₁ s)
    (vp₂ : proof₂.Valid h₂) (vi₂ : ∀ s ∈ inputs₂, Valid h₂ s) (vo₂ : ∀ s ∈ outputs₂, Valid h₂ s)
    (ep : proof₁.vals h₁ = proof₂.vals h₂) (ei : inputs₁.map h₁.vals = inputs₂.map h₂.vals)
    (eo : outputs₁.map h₁.vals = outputs₂.map h₂.vals) :
    (gkrVerifyH H bN c h₁ proof₁ inputs₁ outputs₁).map (·.1) = (gkrVerifyH H bN c h₂ proof₂ inputs₂ outputs₂).map (·.1) := by
  obtain ⟨_, _, e₁⟩ := C42_verify H bN c h₁ proof₁ inputs₁ outputs₁ vp₁ vi₁ vo₁
  obtain ⟨_, _, e₂⟩ := C42_verify H bN c h₂ proof₂ inputs₂ outputs₂ vp₂ vi₂ vo₂
  rw [e₁, e₂, ep, ei, eo]
  cases gkrVerify H bN c (proof₂.vals h₂) (inputs₂.map h₂.vals) (outputs₂.map h₂.vals) <;> rfl

/-! A two-layer circuit, an honest proof for two instances in one array with everything else, and its verification. -/

def heapWiring : List (List (Wire Fr)) := [[⟨1, 0, 0, copyGate⟩, ⟨0, 0, 1, addGate⟩], [⟨1, 0, 0, copyGate⟩]]

/-- Everything in one array: inputs, outputs, claims, polynomials; new arrays of `append` get spare capacity 3. -/
def heapExample : Heap Fr :=
  ⟨fun _ i => [1, 2, 3, 4, 2, 6, 10, 26, 10, 20, 98, -119, -11, -358, 344, 14, -640, 1280, 800, 0, 4, 2, 30, -30, 0, -6,
    -24].getD i 0, 1, fun _ => 3⟩

/-- Slices of that array with all the capacity there is. -/
def heapSlice (off len : Nat) : Slice := ⟨0, off, len, 27 - off⟩

def heapProof : GkrProofH :=
  ⟨[[heapSlice 10 3, heapSlice 13 3, heapSlice 16 3], [heapSlice 19 3, heapSlice 22 2, heapSlice 24 3]],
    heapSlice 6 2, heapSlice 8 2⟩

example : (∀ s ∈ [heapSlice 0 2, heapSlice 2 2], Valid heapExample s) ∧ (∀ s ∈ [heapSlice 4 1, heapSlice 5 1], Valid heapExample s) ∧
    heapProof.Valid heapExample := by
  have key : ∀ o n, o + n ≤ 27 → Valid heapExample (heapSlice o n) := fun o n h =>
    ⟨by simp only [heapSlice]; omega, fun _ => by simp [heapSlice, heapExample]⟩
  refine ⟨?_, ?_, ⟨?_, key _ _ (by omega), key _ _ (by omega)⟩⟩
  · simp only [List.mem_cons, List.not_mem_nil, or_false]
    rintro s (rfl | rfl) <;> exact key _ _ (by omega)
  · simp only [List.mem_cons, List.not_mem_nil, or_false]
    rintro s (rfl | rfl) <;> exact key _ _ (by omega)
  · simp only [heapProof, List.mem_cons, List.not_mem_nil, or_false]
    rintro sp (rfl | rfl) <;> simp only [List.mem_cons, List.not_mem_nil, or_false] <;>
      rintro s (rfl | rfl | rfl) <;> exact key _ _ (by omega)

example : (gkrVerifyH (fun l => (l.length : Fr)) 1 (newCircuit heapWiring) heapExample heapProof
    [heapSlice 0 2, heapSlice 2 2] [heapSlice 4 1, heapSlice 5 1]).map (·.1) = .ok true := by decide +kernel

/-- A wrong output is rejected. -/
example : (gkrVerifyH (fun l => (l.length : Fr)) 1 (newCircuit heapWiring) heapExample heapProof
    [heapSlice 0 2, heapSlice 2 2] [heapSlice 5 1, heapSlice 4 1]).map (·.1) = .ok false := by decide +kernel

/-- With `nextQL`, `nextQR` in one array the hypothesis of `C42_staticTables` is needed: `nextQR` starts before the spare
capacity of `nextQL` and is overwritten by the first `append`, so the table of the second gate is evaluated elsewhere. -/
example :
    let h : Heap Fr := ⟨fun _ i => (i : Fr) + 1, 1, fun _ => 0⟩
    let nextQL : Slice := ⟨0, 0, 1, 9⟩
    let nextQR : Slice := ⟨0, 0, 2, 9⟩
    ((h.append nextQL nextQR).2.vals nextQR, h.vals nextQR) = ([1, 1], [1, 2]) := by decide +kernel

end GkrMimc
