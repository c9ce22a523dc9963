import Verif.Proofs.R1csMimc
import Verif.Props.InitialPoint
import Verif.Props.UnitTests

/-! Property C62: the constraint systems which the circuits with the MiMC gadget and with the GKR gadget compile to. -/

namespace GkrMimc

open Spec

variable {F : Type} [Field F] {α β : Type}

/-- C62: for **every** shape of the variables and every constants: compiling panics exactly when running the gadget on values of this
shape panics, with the same panic; otherwise the system accepts exactly the values which satisfy the gadget, and the
multiplications determine all the wires. -/
theorem C62_any_shape (arks : List F) (h91 : 91 ≤ arks.length) (a : GkrMimcTestCircuit F α) (c : GkrMimcTestCircuit F F)
    (hs : SameShape a c) (hc : createSnarkMimcCircuit arks = .ok c.circuit) :
    (∃ e, a.compile arks = .error e ∧ c.define arks = .error e) ∨
    ∃ s, a.compile arks = .ok s ∧ (Accepts s c.vars ↔ (c.define arks).Satisfied) ∧
      ∃ w : Nat → F, (∀ i < c.vars.length, w i = c.vars.getD i 0) ∧ Solves w s.2.1 ∧
        ∀ w' : Nat → F, (∀ i < c.vars.length, w' i = c.vars.getD i 0) → Solves w' s.2.1 → ∀ i < s.1, w' i = w i := by
  classical
  rw [createSnark_eq arks h91] at hc
  rcases gadget_compile arks h91 a c hs (Except.ok.inj hc).symm with h | ⟨s, h1, -, -, h4, h5⟩
  · exact .inl h
  · exact .inr ⟨s, h1, h4, h5⟩

theorem wiresFor_congr {n : Nat} {as : List α} {bs : List β} (h : as.length = bs.length) :
    (wiresFor n as : List (Lin F)) = wiresFor n bs := by
  unfold wiresFor
  rw [h]

theorem wiresFor2_congr : ∀ {as : List (List α)} {bs : List (List β)} (n : Nat), as.map List.length = bs.map List.length →
    (wiresFor2 n as : List (List (Lin F))) = wiresFor2 n bs
  | [], [], _, _ => rfl
  | a :: as, b :: bs, n, h => by
    simp only [List.map_cons, List.cons.injEq] at h
    rw [wiresFor2, wiresFor2, wiresFor_congr h.1, h.1, wiresFor2_congr _ h.2]

theorem wiresFor3_congr : ∀ {as : List (List (List α))} {bs : List (List (List β))} (n : Nat),
    as.map (·.map List.length) = bs.map (·.map List.length) →
    (wiresFor3 n as : List (List (List (Lin F)))) = wiresFor3 n bs
  | [], [], _, _ => rfl
  | a :: as, b :: bs, n, h => by
    simp only [List.map_cons, List.cons.injEq] at h
    rw [wiresFor3, wiresFor3, wiresFor2_congr _ h.1, flatten_length_of h.1, wiresFor3_congr _ h.2]

/-- C62: the system depends on the numbers of variables only, not on values. -/
theorem C62_shape_only (arks : List F) (a : GkrMimcTestCircuit F α) (c : GkrMimcTestCircuit F β) (hs : SameShape a c) :
    a.compile arks = c.compile arks := by
  have hv := vars_length hs
  obtain ⟨h1, h2, h3, h4, h5, h6, h7⟩ := hs
  unfold GkrMimcTestCircuit.compile
  dsimp only
  simp only [hv, wiresFor3_congr 0 h1, flatten2_length_of h1, wiresFor_congr h2, h2, wiresFor_congr h3, h3, wiresFor_congr h4, h4,
    wiresFor_congr h5, h5, wiresFor_congr h6, h6, wiresFor_congr h7]

/-- The honest witness has the allocated shape. -/
theorem honest_shape (k m : Nat) (inputs : List (List Fr)) (hin : WellChunked k (1 + m) inputs) (nCore nCore' : Int) (hc : 1 ≤ nCore)
    (hc' : 1 ≤ nCore') :
    ∃ (c : Circuit Fr) (values : _) (outputs : _) (p : _) (proof : GkrProof Fr) (t : GkrMimcTestCircuit Fr (Option Fr)),
      createMimcCircuit frString arks = .ok c ∧ c.assign inputs nCore = .ok values ∧
      values.getLast? = some outputs ∧ newGkrProver c values = .ok p ∧ p.prove mimcHash nCore' = .ok proof ∧
      allocateTestCircuit arks (m + k) = .ok t ∧
      SameShape t ⟨t.circuit, proof, [], qPrime0 (m + k), interleave (2 ^ k) (2 ^ (1 + m)) inputs, interleave (2 ^ k) (2 ^ m) outputs⟩ ∧
      (GkrMimcTestCircuit.define arks ⟨t.circuit, proof, [], qPrime0 (m + k), interleave (2 ^ k) (2 ^ (1 + m)) inputs,
        interleave (2 ^ k) (2 ^ m) outputs⟩).Satisfied := by
  obtain ⟨c, values, outputs, p, proof, sc, g1, g2, g3, g4, g5, g6, g7, -, -, -⟩ := C37_assign k m inputs hin nCore nCore' hc hc'
  obtain ⟨c', values', outputs', p', proof', sc', h1, h2, h3, h4, h5, h6, h7⟩ := C34_complete k m inputs hin nCore nCore' hc hc'
  obtain rfl : c = c' := by rw [h1] at g1; exact (Except.ok.inj g1).symm
  obtain rfl : values = values' := by rw [h2] at g2; exact (Except.ok.inj g2).symm
  obtain rfl : outputs = outputs' := by rw [h3] at g3; exact (Option.some.inj g3).symm
  obtain rfl : p = p' := by rw [h4] at g4; exact (Except.ok.inj g4).symm
  obtain rfl : proof = proof' := by rw [h5] at g5; exact (Except.ok.inj g5).symm
  obtain rfl : sc = sc' := by rw [h6] at g6; exact (Except.ok.inj g6).symm
  refine ⟨c, values, outputs, p, proof, ⟨sc, snarkAllocateProof (m + k) sc, [], List.replicate (m + k) none,
    allocateMultilinear (m + k + 1), allocateMultilinear (m + k)⟩, h1, h2, h3, h4, h5, by unfold allocateTestCircuit; rw [h6, ok_bind]; rfl, ?_, h7⟩
  have e := congrArg GkrProof.sumcheckProofs g7
  have el := congrArg (fun p => p.claimsLeft.length) g7
  have er := congrArg (fun p => p.claimsRight.length) g7
  refine ⟨?_, by simpa using el, by simpa using er, rfl, by simp [qPrime0_length], ?_, ?_⟩
  · have := congrArg (fun l : List (List (List (Option Fr))) => l.map (·.map List.length)) e
    dsimp only at this ⊢
    rw [this, List.map_map]
    congr 1
    funext l
    simp
  · rw [interleave_length, allocateMultilinear, List.length_replicate]
    congr 1
    omega
  · rw [interleave_length]
    simp [allocateMultilinear]

theorem someInputs (m : Nat) : WellChunked 0 (1 + m) [List.replicate (2 ^ (1 + m)) (0 : Fr)] := ⟨rfl, by simp⟩

/-- C62: for every number `2^bN` of hashes the circuit with the GKR gadget compiles, and its size is known. -/
theorem C62_gadget_size (bN : Nat) : ∃ a s, allocateTestCircuit arks bN = .ok a ∧ a.compile arks = .ok s ∧
    a.vars.length = 3 * 2 ^ bN + 820 * bN + 1274 ∧
    s.2.1.length = 3 * 2 ^ bN + 299208 * bN + 466268 ∧ s.2.2.length = 91 * (bN + 3) + 2 := by
  obtain ⟨a, ha, hA, hcirc⟩ := allocated arks arks_91 bN
  obtain ⟨c, values, outputs, p, proof, t, -, -, -, -, -, ht, hs, hsat⟩ := honest_shape 0 bN _ (someInputs bN) 1 1 le_rfl le_rfl
  rw [Nat.add_zero] at ht
  obtain rfl : a = t := by rw [ha] at ht; exact Except.ok.inj ht
  rcases gadget_compile arks arks_91 a _ hs hcirc with ⟨e, -, h⟩ | ⟨s, h1, h2, h3, -⟩
  · obtain ⟨_, _, h', -⟩ := hsat
    rw [h] at h'
    exact absurd h' (by simp)
  · exact ⟨a, s, ha, h1, hA.vars, h2.trans (hA.gates arks), h3.trans hA.checks⟩

theorem split_lens : ∀ (ls : List Nat) (xs : List F), xs.length = ls.sum → ∃ xss : List (List F), xss.map List.length = ls ∧ xss.flatten = xs
  | [], xs, h => ⟨[], rfl, (List.eq_nil_of_length_eq_zero h).symm⟩
  | l :: ls, xs, h => by
    rw [List.sum_cons] at h
    obtain ⟨xss, h1, h2⟩ := split_lens ls (xs.drop l) (by rw [List.length_drop]; omega)
    exact ⟨xs.take l :: xss, by simp [h1]; omega, by simp [h2]⟩

theorem split_lens2 : ∀ (ls : List (List Nat)) (xs : List F), xs.length = (ls.map List.sum).sum →
    ∃ xss : List (List (List F)), xss.map (·.map List.length) = ls ∧ xss.flatten.flatten = xs
  | [], xs, h => ⟨[], rfl, (List.eq_nil_of_length_eq_zero h).symm⟩
  | l :: ls, xs, h => by
    rw [List.map_cons, List.sum_cons] at h
    obtain ⟨xss, h1, h2⟩ := split_lens2 ls (xs.drop l.sum) (by rw [List.length_drop]; omega)
    obtain ⟨ys, h3, h4⟩ := split_lens l (xs.take l.sum) (by rw [List.length_take]; omega)
    exact ⟨ys :: xss, by simp [h1, h3], by rw [List.flatten_cons, List.flatten_append, h4, h2, List.take_append_drop]⟩

theorem flatten2_sum : ∀ l : List (List (List α)), l.flatten.flatten.length = ((l.map (·.map List.length)).map List.sum).sum
  | [] => rfl
  | x :: l => by
    rw [List.flatten_cons, List.flatten_append, List.length_append, flatten2_sum l]
    simp [List.length_flatten]

/-- Every list of values of the right length is a witness. -/
theorem vars_surjective (a : GkrMimcTestCircuit F α) (xs : List F) (h : xs.length = a.vars.length) :
    ∃ c : GkrMimcTestCircuit F F, SameShape a c ∧ c.circuit = a.circuit ∧ c.vars = xs := by
  unfold GkrMimcTestCircuit.vars at h
  simp only [List.length_append] at h
  rw [flatten2_sum] at h
  obtain ⟨p, hp, hf⟩ := split_lens2 (a.proof.sumcheckProofs.map (·.map List.length)) (xs.take
    ((a.proof.sumcheckProofs.map (·.map List.length)).map List.sum).sum) (by rw [List.length_take]; omega)
  generalize ((a.proof.sumcheckProofs.map (·.map List.length)).map List.sum).sum = n at h hf
  obtain ⟨x1, hx1⟩ : ∃ y, y = xs.drop n := ⟨_, rfl⟩
  obtain ⟨x2, hx2⟩ : ∃ y, y = x1.drop a.proof.claimsLeft.length := ⟨_, rfl⟩
  obtain ⟨x3, hx3⟩ : ∃ y, y = x2.drop a.proof.claimsRight.length := ⟨_, rfl⟩
  obtain ⟨x4, hx4⟩ : ∃ y, y = x3.drop a.qInitial.length := ⟨_, rfl⟩
  obtain ⟨x5, hx5⟩ : ∃ y, y = x4.drop a.qInitialprime.length := ⟨_, rfl⟩
  have l1 := congrArg List.length hx1
  have l2 := congrArg List.length hx2
  have l3 := congrArg List.length hx3
  have l4 := congrArg List.length hx4
  have l5 := congrArg List.length hx5
  rw [List.length_drop] at l1 l2 l3 l4 l5
  refine ⟨⟨a.circuit, ⟨p, x1.take a.proof.claimsLeft.length, x2.take a.proof.claimsRight.length⟩, x3.take a.qInitial.length,
    x4.take a.qInitialprime.length, x5.take a.vInput.length, x5.drop a.vInput.length⟩, ⟨hp.symm, ?_, ?_, ?_, ?_, ?_, ?_⟩, rfl, ?_⟩
  · rw [List.length_take]; omega
  · rw [List.length_take]; omega
  · rw [List.length_take]; omega
  · rw [List.length_take]; omega
  · rw [List.length_take]; omega
  · rw [List.length_drop]; omega
  · unfold GkrMimcTestCircuit.vars
    dsimp only
    rw [hf, List.take_append_drop, hx5, List.take_append_drop, hx4, List.take_append_drop, hx3, List.take_append_drop, hx2,
      List.take_append_drop, hx1, List.take_append_drop]

/-- C62: the system of the allocated circuit accepts exactly the witnesses which satisfy the gadget, and its multiplications give every
internal wire exactly one value. -/
theorem C62_gadget_system (bN : Nat) (a : GkrMimcTestCircuit Fr (Option Fr)) (ha : allocateTestCircuit arks bN = .ok a)
    (s : Nat × List (R1C Fr) × List (R1C Fr)) (hs : a.compile arks = .ok s) :
    (∀ c : GkrMimcTestCircuit Fr Fr, SameShape a c → c.circuit = a.circuit → (Accepts s c.vars ↔ (c.define arks).Satisfied)) ∧
    Determined s a.vars.length := by
  obtain ⟨a', ha', -, hcirc⟩ := allocated arks arks_91 bN
  obtain rfl : a = a' := by rw [ha] at ha'; exact Except.ok.inj ha'
  have key : ∀ c : GkrMimcTestCircuit Fr Fr, SameShape a c → c.circuit = a.circuit → (Accepts s c.vars ↔ (c.define arks).Satisfied) ∧
      ∃ w : Nat → Fr, (∀ i < c.vars.length, w i = c.vars.getD i 0) ∧ Solves w s.2.1 ∧
        ∀ w' : Nat → Fr, (∀ i < c.vars.length, w' i = c.vars.getD i 0) → Solves w' s.2.1 → ∀ i < s.1, w' i = w i := by
    intro c h1 h2
    rcases gadget_compile arks arks_91 a c h1 (h2.trans hcirc) with ⟨e, h, -⟩ | ⟨s', h, -, -, h4, h5⟩
    · rw [hs] at h
      exact absurd h (by simp)
    · rw [hs] at h
      obtain rfl := Except.ok.inj h
      exact ⟨h4, h5⟩
  refine ⟨fun c h1 h2 => (key c h1 h2).1, ?_⟩
  intro xs hx
  obtain ⟨c, h1, h2, rfl⟩ := vars_surjective a xs hx
  rw [← hx]
  exact (key c h1 h2).2

/-- C62: the honest prover's proof and the interleaved inputs and outputs are accepted by the compiled system, for all inputs in `2^k`
chunks and all core counts. -/
theorem C62_gadget_complete (k m : Nat) (inputs : List (List Fr)) (hin : WellChunked k (1 + m) inputs) (nCore nCore' : Int)
    (hc : 1 ≤ nCore) (hc' : 1 ≤ nCore') :
    ∃ (c : Circuit Fr) (values : _) (outputs : _) (p : _) (proof : GkrProof Fr) (t : GkrMimcTestCircuit Fr (Option Fr)) (s : _),
      createMimcCircuit frString arks = .ok c ∧ c.assign inputs nCore = .ok values ∧
      values.getLast? = some outputs ∧ newGkrProver c values = .ok p ∧ p.prove mimcHash nCore' = .ok proof ∧
      allocateTestCircuit arks (m + k) = .ok t ∧ t.compile arks = .ok s ∧
      Accepts s (GkrMimcTestCircuit.vars ⟨t.circuit, proof, [], qPrime0 (m + k), interleave (2 ^ k) (2 ^ (1 + m)) inputs,
        interleave (2 ^ k) (2 ^ m) outputs⟩) := by
  obtain ⟨c, values, outputs, p, proof, t, h1, h2, h3, h4, h5, h6, h7, h8⟩ := honest_shape k m inputs hin nCore nCore' hc hc'
  obtain ⟨a, s, g1, g2, -⟩ := C62_gadget_size (m + k)
  obtain rfl : a = t := by rw [h6] at g1; exact (Except.ok.inj g1).symm
  exact ⟨c, values, outputs, p, proof, a, s, h1, h2, h3, h4, h5, h6, g2, ((C62_gadget_system _ a h6 s g2).1 _ h7 rfl).2 h8⟩

/-- C62: what the system accepts is not what the test circuit is meant to say: for all inputs and all outputs, except those which differ from
the MiMC outputs by the same non-zero number everywhere, the compiled system accepts a witness with these inputs and outputs (cf. C54). -/
theorem C62_gadget_wrong_outputs (bN : Nat) (states blocks : List Fr) (hs : states.length = 2 ^ bN) (hb : blocks.length = 2 ^ bN)
    (vOutput : List Fr) (hout : vOutput.length = 2 ^ bN)
    (hd : ¬ ∃ d : Fr, d ≠ 0 ∧ ∀ i < 2 ^ bN, vOutput.getD i 0 = (mimcExpected (states, blocks)).getD i 0 + d) :
    ∃ (a : GkrMimcTestCircuit Fr (Option Fr)) (s : _) (w : GkrMimcTestCircuit Fr Fr), allocateTestCircuit arks bN = .ok a ∧
      a.compile arks = .ok s ∧ SameShape a w ∧ w.vInput = mimcChunk (states, blocks) ∧ w.vOutput = vOutput ∧ Accepts s w.vars := by
  obtain ⟨w, h1, -, -, h4, h5, h6, t, ht, h7⟩ := C54_negation bN states blocks hs hb vOutput hout hd
  obtain ⟨a, s, g1, g2, -⟩ := C62_gadget_size bN
  obtain rfl : a = t := by rw [ht] at g1; exact (Except.ok.inj g1).symm
  obtain ⟨a', e1, -, e2⟩ := allocated arks arks_91 bN
  obtain rfl : a = a' := by rw [ht] at e1; exact Except.ok.inj e1
  have hc : w.circuit = a.circuit := by
    rw [e2]
    rw [snark_circuit] at h1
    exact (Except.ok.inj h1).symm
  exact ⟨a, s, w, ht, g2, h7, h4, h5, ((C62_gadget_system bN a ht s g2).1 w h7 hc).2 h6⟩

/-- C62: the circuit which hashes `nTests` messages of `k` words directly compiles to `364 k` multiplications and one assertion each. -/
theorem C62_direct_size (nTests k : Nat) : ∃ s, (allocateHashTest (F := Fr) nTests k).compile arks = .ok s ∧
    s.2.1.length = nTests * (364 * k) ∧ s.2.2.length = nTests := by
  have hk : ∀ l ∈ (allocateHashTest (F := Fr) nTests k).x, l.length = k := by
    intro l hl
    obtain ⟨-, rfl⟩ := List.mem_replicate.1 hl
    simp
  rcases hashTest_compile arks k (allocateHashTest nTests k) (⟨List.replicate nTests (List.replicate k 0), List.replicate nTests
    (mimcHash (List.replicate k 0))⟩ : HashTestCircuit Fr) (by simp [allocateHashTest]) (by simp [allocateHashTest]) hk with ⟨e, -, h⟩ | ⟨s, h1, h2, h3, -⟩
  · have : (HashTestCircuit.define arks ⟨List.replicate nTests (List.replicate k 0), List.replicate nTests (mimcHash (List.replicate k 0))⟩).Satisfied := by
      rw [C59_hash_circuit]
      intro i hi
      have hi' : i < nTests := by simpa using hi
      simp [hi']
    obtain ⟨_, _, h', -⟩ := this
    exact absurd h' (by rw [h]; simp)
  · exact ⟨s, h1, by simpa [allocateHashTest] using h2, by simpa [allocateHashTest] using h3⟩

/-- C62: this system accepts exactly the messages with their MiMC hashes. -/
theorem C62_direct_system (nTests k : Nat) (s : Nat × List (R1C Fr) × List (R1C Fr))
    (hs : (allocateHashTest (F := Fr) nTests k).compile arks = .ok s) (xs : List (List Fr)) (ys : List Fr) (hx : xs.length = nTests)
    (hk : ∀ x ∈ xs, x.length = k) (hy : ys.length = nTests) :
    Accepts s (xs.flatten ++ ys) ↔ ys = xs.map mimcHash := by
  have hx' : xs.map List.length = List.replicate nTests k := by
    rw [List.eq_replicate_iff]
    refine ⟨by simpa using hx, ?_⟩
    intro b hb
    obtain ⟨x, hm, rfl⟩ := List.mem_map.1 hb
    exact hk x hm
  rcases hashTest_compile arks k (allocateHashTest nTests k) (⟨xs, ys⟩ : HashTestCircuit Fr) (by simp [allocateHashTest, hx'])
    (by simp [allocateHashTest, hy]) (by
      intro l hl
      obtain ⟨-, rfl⟩ := List.mem_replicate.1 hl
      simp) with ⟨e, h, -⟩ | ⟨s', h1, -, -, h4, -⟩
  · rw [hs] at h
    exact absurd h (by simp)
  · rw [hs] at h1
    obtain rfl := Except.ok.inj h1
    refine h4.trans ?_
    rw [C59_hash_circuit]
    dsimp only
    constructor
    · intro h
      apply List.ext_getElem (by rw [List.length_map, hx, hy])
      intro i hi hi'
      rw [List.getElem_map]
      have := h i (by simpa using hi')
      rw [List.getElem?_eq_getElem hi] at this
      exact Option.some.inj this
    · rintro rfl i hi
      rw [List.getElem?_map, List.getElem?_eq_getElem hi]
      rfl

/-- The constraints in all, as `GetNbConstraints` counts them (multiplications and assertions). -/
def nbConstraints (s : Nat × List (R1C F) × List (R1C F)) : Nat := s.2.1.length + s.2.2.length

/-- C62: the circuit with the GKR gadget for `2^bN` hashes has fewer constraints than the circuit which computes `2^bN` hashes
of one word, exactly from `bN = 14` on. -/
theorem C62_break_even (bN : Nat) (a : GkrMimcTestCircuit Fr (Option Fr)) (ha : allocateTestCircuit arks bN = .ok a)
    (s s' : Nat × List (R1C Fr) × List (R1C Fr)) (hs : a.compile arks = .ok s)
    (hs' : (allocateHashTest (F := Fr) (2 ^ bN) 1).compile arks = .ok s') : nbConstraints s < nbConstraints s' ↔ 14 ≤ bN := by
  obtain ⟨a', r, h1, h2, -, h3, h4⟩ := C62_gadget_size bN
  obtain ⟨r', h5, h6, h7⟩ := C62_direct_size (2 ^ bN) 1
  obtain rfl : a = a' := by rw [ha] at h1; exact Except.ok.inj h1
  obtain rfl : s = r := by rw [hs] at h2; exact Except.ok.inj h2
  obtain rfl : s' = r' := by rw [hs'] at h5; exact Except.ok.inj h5
  unfold nbConstraints
  rw [h3, h4, h6, h7]
  constructor
  · intro h
    by_contra hlt
    have : bN < 14 := by omega
    interval_cases bN <;> norm_num at h
  · intro h
    obtain ⟨d, rfl⟩ := Nat.exists_eq_add_of_le h
    have key : ∀ d : Nat, 299299 * d + 4656730 ≤ 362 * 2 ^ (14 + d) := by
      intro d
      induction d with
      | zero => norm_num
      | succ d ih =>
        rw [← Nat.add_assoc, pow_succ]
        omega
    have := key d
    omega

/-- `1 + 2 w₀ + 3 w₁` for `w₀ = 5`, `w₁ = 7`. -/
example : linValue (fun i => if i = 0 then 5 else (7 : Fr)) ⟨1, [(2, 0), (3, 1)]⟩ = 32 := by decide +kernel

/-- `w₀ (w₀ + 1) = w₁` is solved by 2, 6 and not by 2, 7. -/
example : Solves (fun i => if i = 0 then 2 else (6 : Fr)) [⟨Lin.wire 0, (Lin.wire 0).add (Lin.ofConst 1), Lin.wire 1⟩] ∧
    ¬ Solves (fun i => if i = 0 then 2 else (7 : Fr)) [⟨Lin.wire 0, (Lin.wire 0).add (Lin.ofConst 1), Lin.wire 1⟩] := by
  constructor
  · intro c hc
    obtain rfl := List.mem_singleton.1 hc
    decide +kernel
  · intro h
    exact absurd (h _ (List.mem_singleton.2 rfl)) (by decide +kernel)

/-- The hypotheses of `C62_gadget_system`, `C62_break_even` are met for all `bN`, e.g. 2 as in the test of the repository. -/
example : ∃ a s s', allocateTestCircuit arks 2 = .ok a ∧ a.compile arks = .ok s ∧ nbConstraints s = 1065153 ∧
    (allocateHashTest (F := Fr) (2 ^ 2) 1).compile arks = .ok s' ∧ nbConstraints s' = 1460 := by
  obtain ⟨a, s, h1, h2, -, h3, h4⟩ := C62_gadget_size 2
  obtain ⟨s', g1, g2, g3⟩ := C62_direct_size (2 ^ 2) 1
  exact ⟨a, s, s', h1, h2, by unfold nbConstraints; rw [h3, h4]; norm_num, g1, by unfold nbConstraints; rw [g2, g3]; norm_num⟩

/-- The direct circuit for one message of one word rejects a wrong hash. -/
example (s : Nat × List (R1C Fr) × List (R1C Fr)) (hs : (allocateHashTest (F := Fr) 1 1).compile arks = .ok s) :
    Accepts s [5, mimcHash [5]] ∧ ¬ Accepts s [5, mimcHash [5] + 1] := by
  have h := fun y => C62_direct_system 1 1 s hs [[5]] [y] rfl (by simp) rfl
  refine ⟨(h _).2 rfl, fun h' => ?_⟩
  have := (h _).1 h'
  simp at this

/-- A shape for which compiling panics (`C62_any_shape`): no claims. -/
example : ∃ e, (GkrMimcTestCircuit.compile arks (⟨snarkCircuit arks, ⟨[], [], []⟩, [], [], [0, 0], [0]⟩ : GkrMimcTestCircuit Fr Fr)) = .error e := by
  rcases C62_any_shape arks arks_91 (⟨snarkCircuit arks, ⟨[], [], []⟩, [], [], [0, 0], [0]⟩ : GkrMimcTestCircuit Fr Fr) _
    ⟨rfl, rfl, rfl, rfl, rfl, rfl, rfl⟩ (createSnark_eq arks arks_91) with ⟨e, h, -⟩ | ⟨s, h, -⟩
  · exact ⟨e, h⟩
  · unfold GkrMimcTestCircuit.compile at h
    rw [bldMimc_eq arks arks_91] at h
    exact absurd h (by intro h; cases h)

end GkrMimc
