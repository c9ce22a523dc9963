import Verif.Proofs.HeapProve
import Verif.Props.HeapGkr

/-! Property C38: the prover on slices; which memory it writes, and what happens when it is called again. -/

set_option linter.unusedSectionVars false

namespace GkrMimc

variable {F : Type} [Field F] [DecidableEq F]

/-- All the slices of the assignment are usable. They may overlap. -/
def GkrProverH.Valid (h : Heap F) (p : GkrProverH F) : Prop := ∀ l ∈ p.assignment, ∀ s ∈ l, GkrMimc.Valid h s

theorem GkrProverH.Valid.arep {h : Heap F} {p : GkrProverH F} (v : p.Valid h) : ARep h p.assignment (p.toG h).assignment := by
  have : ∀ l : List (List Slice), (∀ sp ∈ l, ∀ s ∈ sp, GkrMimc.Valid h s) → ARep h l (l.map fun s => s.map h.vals) := by
    intro l
    induction l with
    | nil => intro _; exact .nil
    | cons a l ih => exact fun hv => .cons (Reps.self (hv a (by simp))) (ih fun sp hs => hv sp (by simp [hs]))
  exact this _ v

theorem GkrProverH.Valid.frame {h h' : Heap F} {p : GkrProverH F} (v : p.Valid h) (f : Frame h h') :
    p.Valid h' ∧ p.toG h' = p.toG h := by
  refine ⟨fun l hl s hs => (v l hl s hs).frame f, ?_⟩
  unfold GkrProverH.toG
  congr 1
  exact List.map_congr_left fun l hl => List.map_congr_left fun s hs => f.vals (v l hl s hs)

/-- C38. With no core or a negative number of cores `Prove` returns nothing (it panics or blocks for ever). -/
theorem C38_no_cores (H : List F → F) (p : GkrProverH F) (h : Heap F) (nCore : Int) (hn : nCore ≤ 0) :
    ∃ e, p.prove H nCore h = .error e := by
  rcases hr : p.prove H nCore h with e | r
  · exact ⟨e, rfl⟩
  · exfalso
    unfold GkrProverH.prove GkrProverH.initialRound at hr
    simp only at hr
    obtain ⟨l, e1, hr⟩ := bind_eq_ok.1 hr
    obtain ⟨i, e2, hr⟩ := bind_eq_ok.1 hr
    obtain ⟨mp, e3, hr⟩ := bind_eq_ok.1 hr
    obtain ⟨l', e4, e3⟩ := bind_eq_ok.1 e3
    obtain ⟨st, e5, e3⟩ := bind_eq_ok.1 e3
    obtain ⟨vL, e6, e3⟩ := bind_eq_ok.1 e3
    obtain ⟨vR, e7, e3⟩ := bind_eq_ok.1 e3
    obtain ⟨eq, e8, e3⟩ := bind_eq_ok.1 e3
    unfold layerAsBKTWithCopyH at e6
    obtain ⟨v, e9, e6⟩ := bind_eq_ok.1 e6
    obtain ⟨_, e10, e6⟩ := bind_eq_ok.1 e6
    unfold semaphoreSection at e10
    split at e10
    · cases e10
    split at e10
    · cases e10
    have hv : v = [] := List.length_eq_zero_iff.1 (by omega)
    subst hv
    cases e6
    unfold getChunkedEqTableH at e8
    simp only at e8
    obtain ⟨_, _, e8⟩ := bind_eq_ok.1 e8
    obtain ⟨_, _, e8⟩ := bind_eq_ok.1 e8
    obtain ⟨_, _, e8⟩ := bind_eq_ok.1 e8
    obtain ⟨_, e11, e8⟩ := bind_eq_ok.1 e8
    cases e11

/-- C38. `Prove` changes no cell that exists when it is called; it returns (or panics) what the value-level function does on the
contents of the assignment. The slices of the assignment may share memory in any way. -/
theorem C38_prove (H : List F → F) (p : GkrProverH F) (h : Heap F) (v : p.Valid h) (nCore : Int) (hn : 1 ≤ nCore) :
    ∃ h', Frame h h' ∧ p.prove H nCore h = ((p.toG h).prove H nCore >>= fun proof => .ok (proof, h')) :=
  (gkrProveH_sim H (g := p.toG h) rfl rfl v.arep hn).toEq

/-- C38. After `Prove` with any number of cores every slice that was usable before has the contents it had: the assignment with
the inputs and outputs in it, and everything else. -/
theorem C38_unchanged (H : List F → F) (p : GkrProverH F) (h h' : Heap F) (v : p.Valid h) (nCore : Int) (proof : GkrProof F)
    (e : p.prove H nCore h = .ok (proof, h')) :
    (∀ s, Valid h s → Valid h' s ∧ h'.vals s = h.vals s) ∧
    p.assignment.map (fun l => l.map h'.vals) = p.assignment.map fun l => l.map h.vals := by
  have hn : 1 ≤ nCore := by
    by_contra hc
    obtain ⟨_, e'⟩ := C38_no_cores H p h nCore (by omega)
    rw [e'] at e
    cases e
  obtain ⟨h1, f, e1⟩ := C38_prove H p h v nCore hn
  rw [e] at e1
  obtain ⟨_, _, e2⟩ := bind_eq_ok.1 e1.symm
  cases e2
  exact ⟨fun s hs => ⟨hs.frame f, f.vals hs⟩, congrArg GkrProver.assignment (v.frame f).2⟩

/-- C38. The second call. Between the calls the program may allocate and write what it likes outside the memory that existed
after the first call. The second call, with any number of cores, returns the same proof. -/
theorem C38_again (H : List F → F) (p : GkrProverH F) (h h' k : Heap F) (v : p.Valid h) (n m : Int) (proof : GkrProof F)
    (e : p.prove H n h = .ok (proof, h')) (f : Frame h' k) (hm : 1 ≤ m) :
    ∃ k', Frame h k' ∧ p.prove H m k = .ok (proof, k') := by
  have hn : 1 ≤ n := by
    by_contra hc
    obtain ⟨_, e'⟩ := C38_no_cores H p h n (by omega)
    rw [e'] at e
    cases e
  obtain ⟨h1, f1, e1⟩ := C38_prove H p h v n hn
  rw [e] at e1
  obtain ⟨pr, e2, e3⟩ := bind_eq_ok.1 e1.symm
  cases e3
  have fk := f1.trans f
  obtain ⟨vk, ek⟩ := v.frame fk
  obtain ⟨k', f2, e4⟩ := C38_prove H p k vk m hm
  refine ⟨k', fk.trans f2, ?_⟩
  rw [e4, ek, gkrProve_cores H _ hm, ← gkrProve_cores H _ hn, e2]
  rfl

/-- Successive calls of `Prove` with the given numbers of cores. -/
def GkrProverH.proveTimes (H : List F → F) (p : GkrProverH F) : List Int → Heap F → Go (List (GkrProof F) × Heap F)
  | [], h => .ok ([], h)
  | n :: ns, h => do
    let a ← p.prove H n h
    let b ← p.proveTimes H ns a.2
    return (a.1 :: b.1, b.2)

/-- C38. Any number of calls with any numbers of cores: if they return, all the proofs are one and the same, and no cell that
existed before the first call has changed. -/
theorem C38_times (H : List F → F) (p : GkrProverH F) : ∀ (ns : List Int) (h h' : Heap F) (proofs : List (GkrProof F)),
    p.Valid h → p.proveTimes H ns h = .ok (proofs, h') →
      Frame h h' ∧ proofs.length = ns.length ∧ ∀ proof ∈ proofs, (p.toG h).prove H 1 = .ok proof
  | [], h, h', proofs, _, e => by
    cases e
    exact ⟨Frame.refl h, rfl, by simp⟩
  | n :: ns, h, h', proofs, v, e => by
    unfold GkrProverH.proveTimes at e
    obtain ⟨a, e1, e⟩ := bind_eq_ok.1 e
    obtain ⟨b, e2, e⟩ := bind_eq_ok.1 e
    cases e
    have hn : 1 ≤ n := by
      by_contra hc
      obtain ⟨_, e'⟩ := C38_no_cores H p h n (by omega)
      rw [e'] at e1
      cases e1
    obtain ⟨h1, f1, e3⟩ := C38_prove H p h v n hn
    rw [e1] at e3
    obtain ⟨pr, e4, e5⟩ := bind_eq_ok.1 e3.symm
    cases e5
    obtain ⟨v1, t1⟩ := v.frame f1
    obtain ⟨f2, l2, a2⟩ := C38_times H p ns _ _ _ v1 e2
    refine ⟨f1.trans f2, by simp [l2], ?_⟩
    intro proof hp
    rcases List.mem_cons.1 hp with rfl | hp
    · rw [← gkrProve_cores H _ hn]
      exact e4
    · rw [← t1]
      exact a2 proof hp

/-- C38. The same read the other way: if the first call returns, all the others do. -/
theorem C38_times_ok (H : List F → F) (p : GkrProverH F) (proof : GkrProof F) : ∀ (ns : List Int) (h : Heap F),
    p.Valid h → (p.toG h).prove H 1 = .ok proof → (∀ n ∈ ns, 1 ≤ n) →
      ∃ h', p.proveTimes H ns h = .ok (List.replicate ns.length proof, h')
  | [], h, _, _, _ => ⟨h, rfl⟩
  | n :: ns, h, v, e, hn => by
    obtain ⟨h1, f1, e1⟩ := C38_prove H p h v n (hn n (by simp))
    rw [gkrProve_cores H _ (hn n (by simp)), e] at e1
    obtain ⟨v1, t1⟩ := v.frame f1
    obtain ⟨h2, e2⟩ := C38_times_ok H p proof ns h1 v1 (by rw [t1]; exact e) fun m hm => hn m (by simp [hm])
    exact ⟨h2, by unfold GkrProverH.proveTimes; rw [e1]; simp only [ok_bind, e2]; rfl⟩

/-- C38. After `Prove` the verifier reads the inputs and outputs that were there before: its answer on any slices that were
usable then, and a proof stored anywhere, is the value-level answer on the old contents. -/
theorem C38_verify (H : List F → F) (p : GkrProverH F) (h h' k : Heap F) (v : p.Valid h) (nCore : Int) (proof : GkrProof F)
    (e : p.prove H nCore h = .ok (proof, h')) (f : Frame h' k) (stored : GkrProofH) (vs : stored.Valid k)
    (es : stored.vals k = proof) (bN : Nat) (c : Circuit F) (inputs outputs : List Slice) (vi : ∀ s ∈ inputs, Valid h s)
    (vo : ∀ s ∈ outputs, Valid h s) :
    (gkrVerifyH H bN c k stored inputs outputs).map (·.1) = gkrVerify H bN c proof (inputs.map h.vals) (outputs.map h.vals) := by
  have u := (C38_unchanged H p h h' v nCore proof e).1
  have w : ∀ s, Valid h s → Valid k s ∧ k.vals s = h.vals s := fun s hs =>
    ⟨(u s hs).1.frame f, (f.vals (u s hs).1).trans (u s hs).2⟩
  obtain ⟨h2, _, e2⟩ := C42_verify H bN c k stored inputs outputs vs (fun s hs => (w s (vi s hs)).1) fun s hs => (w s (vo s hs)).1
  rw [e2, es, List.map_congr_left fun s hs => (w s (vi s hs)).2, List.map_congr_left fun s hs => (w s (vo s hs)).2]
  cases gkrVerify H bN c proof (inputs.map h.vals) (outputs.map h.vals) <;> rfl

/-- C38. `MultiThreadedProver.Prove` writes only in the arrays of `vL`, `vR` and `eq` (the static tables are copied), and returns
the value-level proof of their contents. The hypothesis is that no two of these tables share an array. -/
theorem C38_sumcheck_footprint (H : List F → F) (p : MProverH F) (h : Heap F)
    (vv : ∀ s ∈ p.vL ++ p.vR ++ p.eq ++ p.statics, Valid h s) (sep : (p.vL ++ p.vR ++ p.eq).Pairwise Apart) (nCore : Int) :
    (∃ e, p.prove H nCore h = .error e ∧ (p.toM h).prove H nCore = .error e) ∨
    ∃ o h', p.prove H nCore h = .ok (o, h') ∧
      (p.toM h).prove H nCore = .ok ⟨o.polyCoeffs, h'.vals o.qPrime, h'.vals o.qL, h'.vals o.qR, o.finalClaims⟩ ∧
      ∀ a < h.next, (∀ s ∈ p.vL ++ p.vR ++ p.eq, 0 < s.cap → a ≠ s.arr) → h'.cells a = h.cells a := by
  have R : MRep h p (p.toM h) := ⟨Reps.self fun s hs => vv s (by simp [hs]), Reps.self fun s hs => vv s (by simp [hs]),
    Reps.self fun s hs => vv s (by simp [hs]), Reps.self fun s hs => vv s (by simp [hs]), rfl⟩
  have := mproveH_sim H R sep nCore
  rcases hx : p.prove H nCore h with e | ⟨o, h'⟩ <;> rcases hy : (p.toM h).prove H nCore with e' | w <;> rw [hx, hy] at this
  · obtain rfl : e = e' := this
    exact .inl ⟨e, rfl, rfl⟩
  · exact this.elim
  · exact this.elim
  · obtain ⟨r, f⟩ := this
    simp only at r f
    exact .inr ⟨o, h', rfl, by rw [r.coeffs, r.qPrime.vals, r.qL.vals, r.qR.vals, r.claims], f.cells⟩

/-! Examples: the circuit of C42, the assignment in one array, every slice with all the capacity there is. -/

/-- The hash of the examples. -/
def lengthHash (l : List Fr) : Fr := (l.length : Fr) + 1

/-- Inputs, intermediate layer, outputs of `heapWiring` for two instances. -/
def proveExample : Heap Fr := ⟨fun _ i => [1, 2, 3, 4, 2, 2, 4, 6, 2, 6].getD i 0, 1, fun _ => 3⟩

def proveSlice (off len : Nat) : Slice := ⟨0, off, len, 10 - off⟩

def proveProver : GkrProverH Fr :=
  ⟨1, newCircuit heapWiring, [[proveSlice 0 2, proveSlice 2 2], [proveSlice 4 2, proveSlice 6 2], [proveSlice 8 1, proveSlice 9 1]]⟩

theorem proveProver_valid : proveProver.Valid proveExample := by
  have key : ∀ o n, o + n ≤ 10 → Valid proveExample (proveSlice o n) := fun o n h =>
    ⟨by simp only [proveSlice]; omega, fun _ => by simp [proveSlice, proveExample]⟩
  unfold GkrProverH.Valid
  simp only [proveProver, List.mem_cons, List.not_mem_nil, or_false]
  rintro l (rfl | rfl | rfl) <;> simp only [List.mem_cons, List.not_mem_nil, or_false] <;>
    rintro s (rfl | rfl) <;> exact key _ _ (by omega)

/-- Three calls with 2, 1 and 5 cores return the same proof, and the verifier accepts it with the inputs and outputs in memory. -/
example : ∃ proof h', proveProver.proveTimes lengthHash [2, 1, 5] proveExample = .ok ([proof, proof, proof], h') ∧
    gkrVerify lengthHash 1 (newCircuit heapWiring) proof ([proveSlice 0 2, proveSlice 2 2].map proveExample.vals)
      ([proveSlice 8 1, proveSlice 9 1].map proveExample.vals) = .ok true := by
  have key : ((proveProver.toG proveExample).prove lengthHash 1 >>= fun proof => gkrVerify lengthHash 1 (newCircuit heapWiring) proof
      ([proveSlice 0 2, proveSlice 2 2].map proveExample.vals) ([proveSlice 8 1, proveSlice 9 1].map proveExample.vals)) =
      .ok true := by decide +kernel
  obtain ⟨proof, e, hv⟩ := bind_eq_ok.1 key
  obtain ⟨h', e'⟩ := C38_times_ok lengthHash proveProver proof [2, 1, 5] proveExample proveProver_valid e (by simp)
  exact ⟨proof, h', e', hv⟩

/-- Tables for one sumcheck, each in its own array, and a gate table. -/
def consumedHeap : Heap Fr := ⟨fun a i => ([[1, 2, 3, 4], [5, 6, 7, 9], [2, 3], [1, 0, 0, 1]].getD a []).getD i 0, 4, fun _ => 0⟩

def consumedProver : MProverH Fr :=
  ⟨[⟨0, 0, 4, 4⟩], [⟨1, 0, 4, 4⟩], [⟨2, 0, 2, 2⟩], [addGate], [⟨3, 0, 4, 4⟩]⟩

theorem consumedProver_ok : (∀ s ∈ consumedProver.vL ++ consumedProver.vR ++ consumedProver.eq ++ consumedProver.statics,
    Valid consumedHeap s) ∧ (consumedProver.vL ++ consumedProver.vR ++ consumedProver.eq).Pairwise Apart := by
  refine ⟨?_, ?_⟩
  · simp only [consumedProver, List.cons_append, List.nil_append, List.mem_cons, List.not_mem_nil, or_false]
    rintro s (rfl | rfl | rfl | rfl) <;> exact ⟨by decide, fun _ => by decide⟩
  · simp [consumedProver, Apart]

/-- C38. `MultiThreadedProver.Prove` is not repeatable: called twice on the same prover it returns two proofs, and they differ.
The tables have been folded in place while the headers in the prover keep their lengths. -/
theorem C38_sumcheck_not_repeatable : ∃ o h' o' h'', consumedProver.prove lengthHash 1 consumedHeap = .ok (o, h') ∧
    consumedProver.prove lengthHash 1 h' = .ok (o', h'') ∧ o'.polyCoeffs ≠ o.polyCoeffs := by
  have key : (do
      let a ← consumedProver.prove lengthHash 1 consumedHeap
      let b ← consumedProver.prove lengthHash 1 a.2
      return decide (b.1.polyCoeffs = a.1.polyCoeffs)) = .ok false := by decide +kernel
  obtain ⟨⟨o, h'⟩, e1, key⟩ := bind_eq_ok.1 key
  obtain ⟨⟨o', h''⟩, e2, key⟩ := bind_eq_ok.1 key
  refine ⟨o, h', o', h'', e1, e2, ?_⟩
  intro he
  simp only [he, decide_true] at key
  cases key

/-- C38. The same with the tables that `LayerAsBKTNoCopy` returns: `Prove` overwrites the assignment. -/
theorem C38_no_copy_overwrites : ∃ vL o h', layerAsBKTNoCopyH [[(⟨0, 0, 4, 4⟩ : Slice)]] 0 = .ok vL ∧
    ({ consumedProver with vL := vL } : MProverH Fr).prove lengthHash 1 consumedHeap = .ok (o, h') ∧
    h'.vals ⟨0, 0, 4, 4⟩ ≠ consumedHeap.vals ⟨0, 0, 4, 4⟩ := by
  have key : (do
      let vL ← layerAsBKTNoCopyH [[(⟨0, 0, 4, 4⟩ : Slice)]] 0
      let a ← ({ consumedProver with vL := vL } : MProverH Fr).prove lengthHash 1 consumedHeap
      return decide (a.2.vals ⟨0, 0, 4, 4⟩ = consumedHeap.vals ⟨0, 0, 4, 4⟩)) = .ok false := by decide +kernel
  obtain ⟨vL, e1, key⟩ := bind_eq_ok.1 key
  obtain ⟨⟨o, h'⟩, e2, key⟩ := bind_eq_ok.1 key
  refine ⟨vL, o, h', e1, e2, ?_⟩
  intro he
  simp only [he, decide_true] at key
  cases key

/-- C38. The two ways to get at a layer. With copy, the tables have the contents of the layer and share no cell with anything that was
there, nor with each other, and nothing that was there changes. Without copy, they have the same contents and are the slices of the
assignment themselves. -/
theorem C38_layer_tables (p : GkrProverH F) (h : Heap F) (v : p.Valid h) (layer : Nat) (hl : layer < p.assignment.length)
    (nCore : Int) (hn : 1 ≤ nCore) :
    ∃ copies h' vals, layerAsBKTWithCopyH p.assignment layer nCore h = .ok (copies, h') ∧
      layerAsBKTNoCopyH p.assignment layer = .ok p.assignment[layer] ∧
      layerAsBKTWithCopy (p.toG h).assignment layer nCore = .ok vals ∧ layerAsBKTNoCopy (p.toG h).assignment layer = .ok vals ∧
      copies.map h'.vals = vals ∧ p.assignment[layer].map h.vals = vals ∧
      (∀ s ∈ copies, 0 < s.cap → h.next ≤ s.arr) ∧ (copies.Pairwise fun s t => 0 < s.cap → 0 < t.cap → s.arr ≠ t.arr) ∧
      ∀ a < h.next, h'.cells a = h.cells a := by
  have hr : Reps h p.assignment[layer] (p.assignment[layer].map h.vals) := Reps.self (v _ (List.getElem_mem hl))
  obtain ⟨ss, h1, e1, r1, o1, p1, f1⟩ := deepCopies_spec _ _ h hr
  have hs : ∀ n, semaphoreSection nCore n = .ok () := fun n => by
    unfold semaphoreSection
    rw [if_neg (by omega), if_neg (by omega)]
  have hi : idx (p.toG h).assignment layer = .ok (p.assignment[layer].map h.vals) := by
    have hl' : layer < (p.toG h).assignment.length := by simpa [GkrProverH.toG] using hl
    rw [idx_ok hl']
    simp [GkrProverH.toG]
  refine ⟨ss, h1, _, ?_, idx_ok hl, ?_, hi, Reps.vals r1, rfl, o1, p1, f1.cells⟩
  · unfold layerAsBKTWithCopyH
    rw [idx_ok hl, ok_bind, hs, ok_bind]
    exact e1
  · unfold layerAsBKTWithCopy
    rw [hi, ok_bind, hs, ok_bind]
    rfl

/-- The second layer of `proveProver`, on three cores. -/
example : ∃ copies h' vals, layerAsBKTWithCopyH proveProver.assignment 1 3 proveExample = .ok (copies, h') ∧
    layerAsBKTNoCopy (proveProver.toG proveExample).assignment 1 = .ok vals ∧ copies.map h'.vals = vals := by
  obtain ⟨c, h', w, h1, _, _, h4, h5, _⟩ := C38_layer_tables proveProver proveExample proveProver_valid 1 (by decide) 3 (by decide)
  exact ⟨c, h', w, h1, h4, h5⟩

end GkrMimc
