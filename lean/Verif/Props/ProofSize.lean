import Verif.Spec.ProofSize
import Verif.Props.Snark

/-! Property C69: the size of a proof, and the questions that prover and verifier ask the hash. -/

set_option linter.unusedSectionVars false

namespace GkrMimc

open Spec Finset

variable {F : Type} [Field F] [DecidableEq F]

/-! ### Size -/

theorem coefficientsFor_eq (f : Gate F → Nat) (gates : List (Gate F)) :
    coefficientsFor f gates = gates.foldl (fun d g => max d (f g)) 0 + 1 + 1 := by
  have key : ∀ (xs : List (Gate F)) (d : Nat), xs.foldl (fun d g => max d (f g)) d = max d ((xs.map f).foldr max 0) := by
    intro xs
    induction xs with
    | nil => intro d; simp
    | cons x xs ih => intro d; rw [List.foldl_cons, ih, List.map_cons, List.foldr_cons, max_assoc]
  rw [key, coefficientsFor]
  simp

theorem roundShape_size {l : Layer F} {n : Nat} {polys : List (List F)} (h : RoundShape l n polys) :
    polys.flatten.length + 2 = layerSize n l := by
  rw [List.length_flatten, h, layerSize, coefficientsFor_eq, coefficientsFor_eq, coefficientsFor_eq]
  simp [degL, degR, degP, Nat.add_assoc]

/-- C69. A proof of the right shape has the elements that the circuit prescribes. -/
theorem C69_shape_size {c : Circuit F} {n : Nat} {proof : GkrProof F} (h : ProofShape c n proof) :
    proof.size = (c.layers.map (layerSize n)).sum := by
  have key : ∀ (layers : List (Layer F)) (ps : List (List (List F))), ps.length = layers.length →
      (∀ (i : Nat) (l : Layer F) (p : List (List F)), layers[i]? = some l → ps[i]? = some p → RoundShape l n p) →
      ps.flatten.flatten.length + layers.length + layers.length = (layers.map (layerSize n)).sum := by
    intro layers
    induction layers with
    | nil =>
      intro ps hps _
      rw [List.eq_nil_of_length_eq_zero hps]
      rfl
    | cons l layers ih =>
      intro ps hps he
      cases ps with
      | nil => cases hps
      | cons p ps =>
        have h1 := ih ps (by simpa using hps) fun i l p h1 h2 => he (i + 1) l p (by simpa using h1) (by simpa using h2)
        have h2 := roundShape_size (he 0 l p rfl rfl)
        rw [List.map_cons, List.sum_cons, ← h1, ← h2]
        simp only [List.flatten_cons, List.flatten_append, List.length_append, List.length_cons]
        omega
  unfold GkrProof.size
  rw [h.left, h.right]
  exact key _ _ h.rounds h.each

/-- C69. The messages that are hashed hold every element of the proof but the two claims about the inputs once. -/
theorem C69_hashed_words {c : Circuit F} {n : Nat} {proof : GkrProof F} (hne : c.layers ≠ []) (h : ProofShape c n proof) :
    proof.hashed.flatten.length + 2 = proof.size := by
  have hpos := List.length_pos_of_ne_nil hne
  have pairs : ∀ xs : List (F × F), (xs.map fun x => [x.1, x.2]).flatten.length = 2 * xs.length := by
    intro xs
    induction xs with
    | nil => rfl
    | cons x xs ih =>
      rw [List.map_cons, List.flatten_cons, List.length_append, ih, List.length_cons]
      simp
      omega
  unfold GkrProof.hashed GkrProof.size
  rw [List.flatten_append, List.length_append, pairs, List.length_drop, List.length_zip, h.left, h.right]
  omega

/-- C69. The size of a proof of `Prove`, for every wiring, all inputs and every number of chunks and cores. -/
theorem C69_size [SmallCasts F] (H : List F → F) (wiring : List (List (Wire F))) (hne : wiring ≠ [])
    (hw : ∀ ws ∈ wiring, GoodWires ws) (G k m : Nat) (hG : Chained G (newCircuit wiring).layers)
    (inputs : List (List F)) (hin : WellChunked k (G + m) inputs) (nCore : Int) (hc : 1 ≤ nCore) :
    ∃ p proof, newGkrProver (newCircuit wiring) (wiredAssignment (2 ^ m) (newCircuit wiring).layers inputs) = .ok p ∧
      p.prove H nCore = .ok proof ∧ proof.size = ((newCircuit wiring).layers.map (layerSize (m + k))).sum := by
  obtain ⟨a, b, _, _⟩ := wiredAssignment_facts k m _ G inputs hG hin
  have hA := honest_of_wired wiring hne hw G k m hG inputs hin
  have hpos := List.length_pos_of_ne_nil hA.nonempty
  obtain ⟨p, proof, h1, h2, h3, _⟩ := gkr_honest H _ k m _ hA inputs _ b (List.getElem?_eq_getElem (by omega)) nCore hc _ _
    (List.getElem?_eq_getElem hpos) (List.getElem?_eq_getElem (by omega))
  exact ⟨p, proof, h1, h2, C69_shape_size h3⟩

example (H : List Fr → Fr) : ∃ p proof,
    newGkrProver (newCircuit miniWiring) (wiredAssignment (2 ^ 1) (newCircuit miniWiring).layers [[1, 2, 3, 4], [5, 6, 7, 8]]) = .ok p ∧
      p.prove H 1 = .ok proof ∧ proof.size = ((newCircuit miniWiring).layers.map (layerSize (1 + 1))).sum :=
  C69_size H miniWiring (by simp [miniWiring]) miniWiring_good 1 1 1 ⟨by decide +kernel, by decide +kernel, trivial⟩ _ ⟨rfl, by simp⟩ 1 (by omega)

theorem mimc_layerSize (n : Nat) : ((nativeCircuit frString arks).layers.map (layerSize n)).sum = 91 * (9 * n + 14) := by
  have hlen := native_length frString arks arks_91
  have : (nativeCircuit frString arks).layers.map (layerSize n) = List.replicate 91 (9 * n + 14) := by
    apply List.eq_replicate_iff.2
    refine ⟨by simpa using hlen, ?_⟩
    intro x hx
    obtain ⟨l, hl, rfl⟩ := List.mem_map.1 hx
    obtain ⟨i, hi⟩ := List.getElem?_of_mem hl
    have hil : i < 91 := by
      have := (List.getElem?_eq_some_iff.1 hi).1
      omega
    have hs : l.bGInputs = 1 ∧ degL l.gates = 2 ∧ degR l.gates = 8 ∧ degP l.gates = 8 := by
      rcases Nat.lt_or_ge i 90 with h | h
      · rw [native_mid frString arks arks_91 h] at hi
        rw [← Option.some.inj hi]
        exact ⟨mid_bGInputs _ _, mid_deg _ _⟩
      · obtain rfl : i = 90 := by omega
        rw [native_last frString arks arks_91] at hi
        rw [← Option.some.inj hi]
        exact ⟨last_bGInputs _ _, last_deg _ _⟩
    obtain ⟨h1, h2, h3, h4⟩ := hs
    unfold layerSize
    rw [h1, coefficientsFor_eq, coefficientsFor_eq, coefficientsFor_eq]
    unfold degL at h2
    unfold degR at h3
    unfold degP at h4
    rw [h2, h3, h4]
    omega
  rw [this, List.sum_replicate]
  rfl

/-- C69. The proof for `2^bN` MiMC hashes has `91·(9·bN + 14)` elements; all but two of them are hashed. -/
theorem C69_mimc_size (k m : Nat) (inputs : List (List Fr)) (hin : WellChunked k (1 + m) inputs)
    (nCore nCore' : Int) (hc : 1 ≤ nCore) (hc' : 1 ≤ nCore') :
    ∃ c values p proof, createMimcCircuit frString arks = .ok c ∧ c.assign inputs nCore = .ok values ∧
      newGkrProver c values = .ok p ∧ p.prove mimcHash nCore' = .ok proof ∧ proof.size = 91 * (9 * (m + k) + 14) ∧
      proof.hashed.flatten.length = 91 * (9 * (m + k) + 14) - 2 := by
  obtain ⟨c, values, outputs, p, proof, h1, h2, _, h4, h5, _, _, h6⟩ := honest_gadget k m inputs hin nCore nCore' hc hc'
  refine ⟨c, values, p, proof, h1, h2, h4, h5, ?_⟩
  obtain rfl : newCircuit (mimcWiring frString (arks.take 91)) = c := by
    rw [mimc_circuit] at h1
    exact Except.ok.inj h1
  have hs : proof.size = 91 * (9 * (m + k) + 14) := by
    rw [C69_shape_size h6]
    exact mimc_layerSize _
  have hw := C69_hashed_words (by simpa [newCircuit] using mimc_ne) h6
  exact ⟨hs, by omega⟩

example : ∃ c values p proof, createMimcCircuit frString arks = .ok c ∧ c.assign [[1, 2], [3, 4]] 1 = .ok values ∧
    newGkrProver c values = .ok p ∧ p.prove mimcHash 1 = .ok proof ∧ proof.size = 91 * (9 * (0 + 1) + 14) ∧
    proof.hashed.flatten.length = 91 * (9 * (0 + 1) + 14) - 2 :=
  C69_mimc_size 1 0 [[1, 2], [3, 4]] ⟨rfl, by simp⟩ 1 1 (by omega) (by omega)

theorem pow_gap (a b n : Nat) (hn : 1 ≤ n) (h : a * n + b < 3 * 2 ^ n) (ha : a ≤ 3 * 2 ^ n) :
    ∀ d, a * (n + d) + b < 3 * 2 ^ (n + d) ∧ a ≤ 3 * 2 ^ (n + d) := by
  intro d
  induction d with
  | zero => exact ⟨h, ha⟩
  | succ d ih =>
    rw [← Nat.add_assoc, pow_succ, Nat.mul_succ]
    omega

/-- C69. The proof is smaller than the inputs and outputs (three elements for each hash) exactly from `2^12` hashes on. -/
theorem C69_mimc_shorter (n : Nat) : 91 * (9 * n + 14) < 3 * 2 ^ n ↔ 12 ≤ n := by
  constructor
  · intro h
    by_contra hn
    have : n < 12 := by omega
    interval_cases n <;> omega
  · intro h
    have := (pow_gap 819 1274 12 (by omega) (by norm_num) (by norm_num) (n - 12)).1
    rw [Nat.add_sub_cancel' h] at this
    omega

/-! ### Questions -/

theorem bind_agree {α β : Type} {x : Go α} {f g : α → Go β} (h : ∀ a, x = .ok a → f a = g a) : (x >>= f) = (x >>= g) := by
  cases x with
  | error e => rfl
  | ok a => exact h a rfl

theorem sumcheckVerifyLoop_agree {H H' : List F → F} (cs : List (List F)) (h : ∀ x ∈ cs, H x = H' x) (e : F) :
    sumcheckVerifyLoop H cs e = sumcheckVerifyLoop H' cs e := by
  induction cs generalizing e with
  | nil => rfl
  | cons c cs ih =>
    unfold sumcheckVerifyLoop
    rw [h c (by simp)]
    simp only [ih fun x hx => h x (by simp [hx])]

theorem sumcheckVerify_agree {H H' : List F → F} (cs : List (List F)) (h : ∀ x ∈ cs, H x = H' x) (e : F) (bG : Nat) :
    sumcheckVerify H e cs bG = sumcheckVerify H' e cs bG := by
  unfold sumcheckVerify
  rw [sumcheckVerifyLoop_agree cs h]

theorem hashed_rounds {proof : GkrProof F} {i : Nat} {sp : List (List F)} (h : idx proof.sumcheckProofs i = .ok sp) :
    ∀ x ∈ sp, x ∈ proof.hashed := by
  intro x hx
  unfold GkrProof.hashed
  exact List.mem_append_left _ (List.mem_flatten_of_mem (List.mem_of_getElem? (idx_eq_ok.1 h)) hx)

theorem hashed_claims {proof : GkrProof F} {i : Nat} {cl cr : F} (hl : idx proof.claimsLeft (i + 1) = .ok cl)
    (hr : idx proof.claimsRight (i + 1) = .ok cr) : [cl, cr] ∈ proof.hashed := by
  unfold GkrProof.hashed
  apply List.mem_append_right
  refine List.mem_map.2 ⟨(cl, cr), ?_, rfl⟩
  apply List.mem_of_getElem? (i := i)
  rw [List.getElem?_drop, Nat.add_comm 1 i]
  rw [List.getElem?_zip_eq_some]
  exact ⟨idx_eq_ok.1 hl, idx_eq_ok.1 hr⟩

/-- C69. Whatever the circuit, the proof, the inputs and the outputs: the answer of `Verify` (a panic included) depends on the hash only
at the round polynomials and the pairs of claims about layers other than the inputs. -/
theorem C69_verify_asks (H H' : List F → F) (bN : Nat) (c : Circuit F) (proof : GkrProof F) (inputs outputs : List (List F))
    (h : ∀ x ∈ proof.hashed, H x = H' x) : gkrVerify H bN c proof inputs outputs = gkrVerify H' bN c proof inputs outputs := by
  have key : ∀ (i : Nat) (v : SumcheckVerdict F), verifyLayers H c proof inputs i v = verifyLayers H' c proof inputs i v := by
    intro i
    induction i with
    | zero => intro v; rfl
    | succ i ih =>
      intro v
      unfold verifyLayers
      apply bind_agree
      intro cl hl
      apply bind_agree
      intro cr hr
      rw [h _ (hashed_claims hl hr)]
      apply bind_agree
      intro sp hsp
      apply bind_agree
      intro l _
      rw [sumcheckVerify_agree sp fun x hx => h x (hashed_rounds hsp x hx)]
      simp only [ih]
  unfold gkrVerify
  apply bind_agree
  intro l _
  apply bind_agree
  intro cl _
  apply bind_agree
  intro sp hsp
  rw [sumcheckVerify_agree sp fun x hx => h x (hashed_rounds hsp x hx)]
  simp only [key]

/-- The hypothesis is met by a hash that is different elsewhere. -/
example : gkrVerify (fun x : List Fr => if x = [5] then 1 else x.sum) 1 (newCircuit miniWiring) ⟨[[[1, 2]], [[3, 4]]], [1, 2], [3, 4]⟩
      [[1, 2], [3, 4]] [[1], [2]] =
    gkrVerify (fun x : List Fr => if x = [6] then 2 else x.sum) 1 (newCircuit miniWiring) ⟨[[[1, 2]], [[3, 4]]], [1, 2], [3, 4]⟩
      [[1, 2], [3, 4]] [[1], [2]] := by
  apply C69_verify_asks
  intro x hx
  simp only [GkrProof.hashed, List.flatten_cons, List.flatten_nil, List.zip_cons_cons, List.zip_nil_right, List.drop_succ_cons,
    List.drop_zero, List.map_cons, List.map_nil, List.append_nil, List.cons_append, List.nil_append, List.mem_cons, List.not_mem_nil,
    or_false] at hx
  rcases hx with rfl | rfl | rfl <;> simp

/-- A loop that asks the hash once in each round and keeps the messages. -/
theorem forN_agree {σ : Type} {H H' : List F → F} (msg : Nat → σ → Go (List F)) (next : Nat → σ → F → σ) (n : Nat) (s0 s : σ)
    (cs0 cs : List (List F)) (rs0 rs : List F)
    (h : forN n (s0, cs0, rs0) (fun i s => do
      let c ← msg i s.1
      return (next i s.1 (H c), s.2.1 ++ [c], s.2.2 ++ [H c])) = .ok (s, cs, rs))
    (hH : ∀ x ∈ cs, H x = H' x) :
    forN n (s0, cs0, rs0) (fun i s => do
      let c ← msg i s.1
      return (next i s.1 (H' c), s.2.1 ++ [c], s.2.2 ++ [H' c])) = .ok (s, cs, rs) := by
  induction n generalizing s cs rs with
  | zero => exact h
  | succ n ih =>
    rw [forN_succ] at h ⊢
    obtain ⟨⟨s1, cs1, rs1⟩, h1, h2⟩ := bind_eq_ok.1 h
    obtain ⟨c, h3, h4⟩ := bind_eq_ok.1 h2
    have h5 := Except.ok.inj h4
    simp only [Prod.mk.injEq] at h5
    obtain ⟨rfl, rfl, rfl⟩ := h5
    rw [ih s1 cs1 rs1 h1 fun x hx => hH x (by simp [hx]), ok_bind]
    dsimp only at h3 ⊢
    rw [h3, ok_bind, hH c (by simp)]
    rfl

theorem rounds_agree {H H' : List F → F} (evals : SProver F → Go (List F)) (foldX : SProver F → F → SProver F) (k : Nat)
    (p p' : SProver F) (cs : List (List F)) (rs : List F) (h : rounds H evals foldX k p = .ok (p', cs, rs))
    (hH : ∀ x ∈ cs, H x = H' x) : rounds H' evals foldX k p = .ok (p', cs, rs) := by
  have := forN_agree (H := H) (H' := H') (fun _ s => evals s >>= interpolateOnRange) (fun _ => foldX) k p p' [] cs [] rs
    (by rw [← h]; unfold rounds; congr 1; funext _ s; rw [bind_assoc]) hH
  rw [← this]
  unfold rounds
  congr 1
  funext _ s
  rw [bind_assoc]

theorem mprove_agree {H H' : List F → F} (p : MProver F) (nCore : Int) (out : SumcheckOut F) (h : p.prove H nCore = .ok out)
    (hH : ∀ x ∈ out.polyCoeffs, H x = H' x) : p.prove H' nCore = .ok out := by
  unfold MProver.prove at h ⊢
  dsimp only at h ⊢
  obtain ⟨eq0, e1, h⟩ := bind_eq_ok.1 h
  rw [e1, ok_bind]
  obtain ⟨vL0, e2, h⟩ := bind_eq_ok.1 h
  rw [e2, ok_bind]
  obtain ⟨g, e3, h⟩ := bind_eq_ok.1 h
  rw [e3, ok_bind]
  obtain ⟨u, e4, h⟩ := bind_eq_ok.1 h
  rw [e4, ok_bind]
  obtain ⟨workers, e5, h⟩ := bind_eq_ok.1 h
  rw [e5, ok_bind]
  obtain ⟨dims, e6, h⟩ := bind_eq_ok.1 h
  rw [e6, ok_bind]
  split at h
  · cases h
  · rename_i hd
    rw [if_neg hd]
    obtain ⟨⟨ws, cs, rs⟩, e7, h⟩ := bind_eq_ok.1 h
    obtain ⟨newP, e8, h⟩ := bind_eq_ok.1 h
    obtain ⟨⟨newP', cF, qF⟩, e9, h⟩ := bind_eq_ok.1 h
    obtain ⟨fc, e10, h⟩ := bind_eq_ok.1 h
    have ho := Except.ok.inj h
    rw [← ho] at hH
    dsimp only at hH e9
    have h7 := forN_agree (H := H) (H' := H')
      (fun k s => mapGo (fun x : SProver F × Nat × Nat => workerEvals x.2.1 k x.1) (s.zip dims) >>= fun msgs =>
        consumeAccumulate msgs >>= interpolateOnRange)
      (fun k s r => (s.zip dims).map fun x => workerFold x.2.1 k x.1 r) _ workers ws [] cs [] rs
      (by rw [← e7]; congr 1; funext k s; simp only [bind_assoc]) fun x hx => hH x (List.mem_append_left _ hx)
    have h7' : forN (2 * log2Ceil g + log2Ceil ((p.eq.length * eq0.length : Nat) : Int) - log2Ceil p.eq.length) (workers, ([] : List (List F)), ([] : List F))
        (fun k s => do
          let msgs ← mapGo (fun x : SProver F × Nat × Nat => workerEvals x.2.1 k x.1) (s.1.zip dims)
          let evals ← consumeAccumulate msgs
          let c ← interpolateOnRange evals
          return ((s.1.zip dims).map (fun x => workerFold x.2.1 k x.1 (H' c)), s.2.1 ++ [c], s.2.2 ++ [H' c])) = .ok (ws, cs, rs) := by
      rw [← h7]; congr 1; funext k s; simp only [bind_assoc]
    rw [h7', ok_bind]
    dsimp only
    rw [e8, ok_bind, rounds_agree _ _ _ _ _ _ _ e9 fun x hx => hH x (List.mem_append_right _ hx), ok_bind]
    dsimp only at e10 ⊢
    rw [e10, ok_bind, ← ho]
    rfl

theorem proveLayers_agree {H H' : List F → F} (p : GkrProver F) (nCore : Int) (k : Nat) (out : SumcheckOut F)
    (outs : List (SumcheckOut F)) (h : p.proveLayers H nCore k out = .ok outs)
    (hH : ∀ o ∈ outs, ∀ x ∈ o.polyCoeffs, H x = H' x)
    (hC : ∀ (o : SumcheckOut F) (x y : F), o ∈ (outs ++ [out]).drop 1 → idx o.finalClaims 0 = .ok x → idx o.finalClaims 1 = .ok y →
      H [x, y] = H' [x, y]) :
    p.proveLayers H' nCore k out = .ok outs := by
  induction k generalizing out outs with
  | zero => exact h
  | succ k ih =>
    unfold GkrProver.proveLayers at h ⊢
    obtain ⟨cl, e1, h⟩ := bind_eq_ok.1 h
    obtain ⟨cr, e2, h⟩ := bind_eq_ok.1 h
    obtain ⟨mp, e3, h⟩ := bind_eq_ok.1 h
    obtain ⟨out', e4, h⟩ := bind_eq_ok.1 h
    obtain ⟨rest, e5, h⟩ := bind_eq_ok.1 h
    have ho := Except.ok.inj h
    have hmem : out ∈ (outs ++ [out]).drop 1 := by
      rw [← ho]
      rw [List.drop_append_of_le_length (by simp)]
      simp
    rw [e1, ok_bind, e2, ok_bind, ← hC out cl cr hmem e1 e2]
    dsimp only
    rw [e3, ok_bind,
      mprove_agree mp nCore out' e4 (hH out' (by rw [← ho]; simp)), ok_bind,
      ih out' rest e5 (fun o hx => hH o (by rw [← ho]; simp [hx])) fun o x y hx => hC o x y (by
        rw [List.drop_append_of_le_length (by rw [← ho]; simp), ← ho]
        exact List.mem_append_left _ hx), ok_bind, ← ho]
    rfl

theorem mapGo_inv {α β : Type} {f : α → Go β} {xs : List α} {ys : List β} (h : mapGo f xs = .ok ys) {i : Nat} {x : α}
    (hx : xs[i]? = some x) : ∃ y, ys[i]? = some y ∧ f x = .ok y := by
  induction xs generalizing ys i with
  | nil => cases hx
  | cons a xs ih =>
    unfold mapGo at h
    cases h1 : f a with
    | error e => rw [h1] at h; cases h
    | ok b =>
    cases h2 : mapGo f xs with
    | error e => rw [h1, h2] at h; cases h
    | ok bs =>
    rw [h1, h2] at h
    rw [← Except.ok.inj h]
    cases i with
    | zero =>
      obtain rfl : a = x := by simpa using hx
      exact ⟨b, rfl, h1⟩
    | succ i => exact ih h2 (by simpa using hx)

/-- C69. `Prove` asks the hash about nothing else than what `Verify` will ask about: with a hash that agrees on these messages of its
proof, it returns the same proof. -/
theorem C69_prove_asks (H H' : List F → F) (p : GkrProver F) (nCore : Int) (proof : GkrProof F) (h : p.prove H nCore = .ok proof)
    (hH : ∀ x ∈ proof.hashed, H x = H' x) : p.prove H' nCore = .ok proof := by
  unfold GkrProver.prove at h ⊢
  dsimp only at h ⊢
  obtain ⟨l, e1, h⟩ := bind_eq_ok.1 h
  rw [e1, ok_bind]
  obtain ⟨mp, e2, h⟩ := bind_eq_ok.1 h
  obtain ⟨out, e3, h⟩ := bind_eq_ok.1 h
  obtain ⟨rest, e4, h⟩ := bind_eq_ok.1 h
  obtain ⟨cl, e5, h⟩ := bind_eq_ok.1 h
  obtain ⟨cr, e6, h⟩ := bind_eq_ok.1 h
  have ho := Except.ok.inj h
  have hp : ∀ o ∈ rest ++ [out], ∀ x ∈ o.polyCoeffs, H x = H' x := by
    intro o hoo x hx
    apply hH
    rw [← ho]
    unfold GkrProof.hashed
    exact List.mem_append_left _ (List.mem_flatten_of_mem (List.mem_map_of_mem hoo) hx)
  rw [e2, ok_bind, mprove_agree mp nCore out e3 (hp out (by simp)), ok_bind,
    proveLayers_agree p nCore _ out rest e4 (fun o hx => hp o (by simp [hx])) (by
      intro o x y hm hx hy
      apply hH
      obtain ⟨i, hi⟩ := List.getElem?_of_mem hm
      rw [List.getElem?_drop, Nat.add_comm 1 i] at hi
      obtain ⟨x', h1, h2⟩ := mapGo_inv e5 hi
      obtain ⟨y', h3, h4⟩ := mapGo_inv e6 hi
      obtain rfl : x = x' := Except.ok.inj (hx.symm.trans h2)
      obtain rfl : y = y' := Except.ok.inj (hy.symm.trans h4)
      rw [← ho]
      exact hashed_claims (idx_eq_ok.2 h1) (idx_eq_ok.2 h3)), ok_bind, e5, ok_bind, e6, ok_bind, ← ho]
  rfl

/-- The hypotheses are met: the prover of the example above, and a hash that is different at the empty message only. -/
example (H : List Fr → Fr) : ∃ p proof,
    newGkrProver (newCircuit miniWiring) (wiredAssignment (2 ^ 1) (newCircuit miniWiring).layers [[1, 2, 3, 4], [5, 6, 7, 8]]) = .ok p ∧
      p.prove H 1 = .ok proof ∧ p.prove (fun x => if x = [] then H [] + 1 else H x) 1 = .ok proof := by
  have hA := honest_of_wired miniWiring (by simp [miniWiring]) miniWiring_good 1 1 1
    ⟨by decide +kernel, by decide +kernel, trivial⟩ [[1, 2, 3, 4], [5, 6, 7, 8]] ⟨rfl, by simp⟩
  obtain ⟨p, proof, h1, h2, h3, _⟩ := gkr_honest H _ 1 1 _ hA _ _ rfl rfl 1 (by omega) _ _ rfl rfl
  refine ⟨p, proof, h1, h2, C69_prove_asks H _ p 1 proof h2 ?_⟩
  intro x hx
  rw [if_neg]
  rintro rfl
  unfold GkrProof.hashed at hx
  rcases List.mem_append.1 hx with h | h
  · obtain ⟨ps, hps, h⟩ := List.mem_flatten.1 h
    obtain ⟨i, hi⟩ := List.getElem?_of_mem hps
    have hil := (List.getElem?_eq_some_iff.1 hi).1
    have hs := h3.each i _ ps (List.getElem?_eq_getElem (by rw [← h3.rounds]; exact hil)) hi
    have := List.mem_map_of_mem (f := List.length) h
    rw [hs] at this
    simp [degL, degR, degP] at this
  · obtain ⟨_, _, h⟩ := List.mem_map.1 h
    cases h

/-- C69. For MiMC, checking the proof hashes fewer words than the circuit has hashes exactly from `2^14` hashes on. -/
theorem C69_mimc_hashed (n : Nat) : 91 * (9 * n + 14) - 2 < 2 ^ n ↔ 14 ≤ n := by
  constructor
  · intro h
    by_contra hn
    have : n < 14 := by omega
    interval_cases n <;> omega
  · intro h
    have := (pow_gap (3 * 819) (3 * 1274) 14 (by omega) (by norm_num) (by norm_num) (n - 14)).1
    rw [Nat.add_sub_cancel' h] at this
    omega

end GkrMimc
