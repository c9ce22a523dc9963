import Verif.Proofs.Oracle
import Verif.Proofs.TranscriptComplete
import Verif.Props.DrawnPoint

/-! Property C67: with the repairs of C65, and with the point and all challenges hashed from the statement and everything said
before, a proof of a wrong statement needs an unlucky answer of the hash, whatever the prover asks and whichever statement it
chooses. -/

set_option linter.unusedSectionVars false

namespace GkrMimc

open Spec Finset Polynomial

section

variable {F : Type} [Field F] [DecidableEq F]

/-! ### The link to the verifier of C66 -/

theorem loopT_forgetful (h : List F → F) (cs : List (List F)) : ∀ (e : F) (past : List (List F × F)),
    sumcheckVerifyLoopT (fun _ msg => h msg) cs e past =
      (sumcheckVerifyLoop h cs e).map (fun o => o.map fun x => (x.1, x.2, say (fun _ msg => h msg) past cs)) := by
  induction cs with
  | nil => intro e past; rfl
  | cons c cs ih =>
    intro e past
    rw [sumcheckVerifyLoopT, sumcheckVerifyLoop]
    cases evaluatePolynomial c 0 with
    | error _ => rfl
    | ok a0 =>
      rw [ok_bind, ok_bind]
      cases evaluatePolynomial c 1 with
      | error _ => rfl
      | ok a1 =>
        rw [ok_bind, ok_bind]
        by_cases hs : e ≠ a0 + a1
        · rw [if_pos hs, if_pos hs]; rfl
        · rw [if_neg hs, if_neg hs]
          dsimp only
          cases evaluatePolynomial c (h c) with
          | error _ => rfl
          | ok e' =>
            rw [ok_bind, ok_bind, ih, say_cons]
            cases sumcheckVerifyLoop h cs e' with
            | error _ => rfl
            | ok o => cases o <;> rfl

theorem sumcheckT_forgetful (h : List F → F) (cs : List (List F)) (e : F) (bG : Nat) (past : List (List F × F)) :
    sumcheckVerifyT (fun _ msg => h msg) e cs bG past =
      (sumcheckVerify h e cs bG).map (fun o => o.map fun v => (v, say (fun _ msg => h msg) past cs)) := by
  unfold sumcheckVerifyT sumcheckVerify
  rw [loopT_forgetful]
  cases sumcheckVerifyLoop h cs e with
  | error _ => rfl
  | ok o =>
    cases o with
    | none => rfl
    | some x =>
      obtain ⟨chs, e'⟩ := x
      change (sliceTo chs bG >>= _) = (sliceTo chs bG >>= _).map _
      cases sliceTo chs bG with
      | error _ => rfl
      | ok a =>
        rw [ok_bind, ok_bind]
        cases sliceBetween chs bG (2 * bG) with
        | error _ => rfl
        | ok b =>
          rw [ok_bind, ok_bind]
          cases sliceFrom chs (2 * bG) with
          | error _ => rfl
          | ok c => rfl

theorem verifyLayersT_forgetful (h : List F → F) (c : Circuit F) (proof : GkrProof F) (inputs : List (List F)) (layer : Nat) :
    ∀ (v : SumcheckVerdict F) (past : List (List F × F)),
    verifyLayersT (fun _ msg => h msg) c proof inputs layer v past = verifyLayersR h c proof inputs layer v := by
  induction layer with
  | zero => intro v past; rfl
  | succ layer ih =>
    intro v past
    rw [verifyLayersT, verifyLayersR]
    simp only [sumcheckT_forgetful]
    congr 1; funext cl
    congr 1; funext cr
    congr 1; funext sp
    congr 1; funext l
    cases sumcheckVerify h (cr * h [cl, cr] + cl) sp l.bGInputs with
    | error _ => rfl
    | ok o =>
      cases o with
      | none => rfl
      | some v' =>
        change (evalEq v.qPrime v'.qPrime >>= _) = (evalEq v.qPrime v'.qPrime >>= _)
        simp only [ih]

theorem drawPoint_forgetful (h : List F → F) (n : Nat) : ∀ past : List (List F × F),
    (drawPoint (fun _ msg => h msg) n past).1 = List.replicate n (h []) := by
  induction n with
  | zero => intro past; rfl
  | succ n ih => intro past; rw [drawPoint, List.replicate_succ]; dsimp only; rw [ih]

/-- C67. The only change is what is hashed: with a hash that looks at the message only, as in the code, the verifier is the one of
C66, at the point whose coordinates are the hash of the empty message. -/
theorem C67_forgetful (h : List F → F) (c : Circuit F) (ln : Layer F) (hln : c.layers[c.layers.length - 1]? = some ln) (bN : Nat)
    (proof : GkrProof F) (inputs outputs : List (List F)) :
    gkrVerifyT (fun q => h q.msg) bN c proof inputs outputs =
      gkrVerifyAtR h bN c (List.replicate bN (h [])) (List.replicate ln.bGOutputs (h [])) proof inputs outputs := by
  have hpos : 0 < c.layers.length := by
    by_contra h0
    rw [List.getElem?_eq_none (by omega)] at hln
    cases hln
  have hidxP : idxPred c.layers c.layers.length = .ok ln := by
    unfold idxPred; rw [if_neg (by omega)]; exact idx_some hln
  unfold gkrVerifyT gkrVerifyAtR
  dsimp only
  split_ifs
  swap
  · rfl
  rw [hidxP, ok_bind, ok_bind]
  have hp := drawPoint_forgetful h (ln.bGOutputs + bN) []
  generalize drawPoint (fun _ msg => h msg) (ln.bGOutputs + bN) [] = dp at hp ⊢
  obtain ⟨p, past⟩ := dp
  dsimp only at hp ⊢
  subst hp
  rw [List.take_replicate, List.drop_replicate, Nat.min_eq_left (by omega), Nat.add_sub_cancel_left]
  simp only [sumcheckT_forgetful]
  congr 1; funext claim
  congr 1; funext sp
  cases sumcheckVerify h claim sp ln.bGInputs with
  | error _ => rfl
  | ok o =>
    cases o with
    | none => rfl
    | some v =>
      change (evalEq _ v.qPrime >>= _) = (evalEq _ v.qPrime >>= _)
      simp only [verifyLayersT_forgetful]

/-! ### What is accepted -/

/-- C67. The verifier returns on every proof, and returns true exactly when the proof has the right shape and its transcript leads
through the stages of the specification to acceptance. -/
theorem C67_verify (H : Query F → F) (wiring : List (List (Wire F))) (hne : wiring ≠ [])
    (hw : ∀ ws ∈ wiring, IdWires ws) (G k m : Nat) (hG : Chained G (newCircuitR wiring).layers)
    (ln : Layer F) (hln : (newCircuitR wiring).layers[(newCircuitR wiring).layers.length - 1]? = some ln)
    (inputs outputs : List (List F)) (hin : WellChunked k (G + m) inputs) (hout : WellChunked k (ln.bGOutputs + m) outputs)
    (proof : GkrProof F) :
    ∃ b, gkrVerifyT H (m + k) (newCircuitR wiring) proof inputs outputs = .ok b ∧
      (b = true ↔ ProofShape (newCircuitR wiring) (m + k) proof ∧
        Accepting (m + k) (newCircuitR wiring).layers (interleave (2 ^ k) (2 ^ (G + m)) inputs) (msgOf proof 0).left
          (msgOf proof 0).right (stageAfter (m + k) ln.bGOutputs (newCircuitR wiring).layers
            (interleave (2 ^ k) (2 ^ (ln.bGOutputs + m)) outputs)
            (say (fun past msg => H ⟨inputs, outputs, past, msg⟩) []
              (messages (ln.bGOutputs + (m + k)) (newCircuitR wiring).layers.length proof)))) := by
  have hne' : (newCircuitR wiring).layers ≠ [] := by simpa [newCircuitR] using hne
  obtain ⟨l0, hl0⟩ : ∃ l0, (newCircuitR wiring).layers[0]? = some l0 :=
    ⟨_, List.getElem?_eq_getElem (List.length_pos_of_ne_nil hne')⟩
  have := gkrVerifyT_spec H (newCircuitR wiring) proof hne' (goodCircuitR hw hG) k m inputs outputs
    (fun l h => by rw [chained_first hG h]; exact hin) l0 ln hl0 hln hout
  rw [chained_first hG hl0] at this
  exact this

/-- The inputs of layer `i` when the circuit is evaluated as wired, as one table. -/
def trueTable (k m : Nat) (layers : List (Layer F)) (inputs : List (List F)) (i : Nat) : List F :=
  match layers[i]?, (wiredAssignment (2 ^ m) layers inputs)[i]? with
  | some l, some v => interleave (2 ^ k) (2 ^ (l.bGInputs + m)) v
  | _, _ => []

/-- The outputs, as one table. -/
def trueOutputTable (k m bG : Nat) (layers : List (Layer F)) (inputs : List (List F)) : List F :=
  match (wiredAssignment (2 ^ m) layers inputs)[layers.length]? with
  | some v => interleave (2 ^ k) (2 ^ (bG + m)) v
  | none => []

theorem trueValues (wiring : List (List (Wire F))) (hne : wiring ≠ []) (hw : ∀ ws ∈ wiring, IdWires ws) (G k m : Nat)
    (hG : Chained G (newCircuitR wiring).layers) (ln : Layer F)
    (hln : (newCircuitR wiring).layers[(newCircuitR wiring).layers.length - 1]? = some ln)
    (inputs : List (List F)) (hin : WellChunked k (G + m) inputs) :
    TrueValues (m + k) (newCircuitR wiring).layers (trueTable k m (newCircuitR wiring).layers inputs)
      (trueOutputTable k m ln.bGOutputs (newCircuitR wiring).layers inputs) := by
  have hA := honestR wiring hne hw G k m hG inputs hin
  have hpos := List.length_pos_of_ne_nil hA.nonempty
  set layers := (newCircuitR wiring).layers
  have next : ∀ (i : Nat) (l : Layer F), layers[i]? = some l → ∃ v v', (wiredAssignment (2 ^ m) layers inputs)[i]? = some v ∧
      (wiredAssignment (2 ^ m) layers inputs)[i + 1]? = some v' ∧
      interleave (2 ^ k) (2 ^ (l.bGOutputs + m)) v' = wiredOutputs l.wires (2 ^ (m + k)) (2 ^ l.bGOutputs)
        (interleave (2 ^ k) (2 ^ (l.bGInputs + m)) v) := by
    intro i l hl
    have hlt : i < layers.length := (List.getElem?_eq_some_iff.1 hl).1
    obtain ⟨v, hv⟩ : ∃ v, (wiredAssignment (2 ^ m) layers inputs)[i]? = some v :=
      ⟨_, List.getElem?_eq_getElem (by have h : (wiredAssignment (2 ^ m) layers inputs).length = layers.length + 1 := hA.lengths; omega)⟩
    refine ⟨v, _, hv, hA.wired i l v hl hv, ?_⟩
    have hgl := hA.good l (List.mem_of_getElem? hl)
    exact interleave_wired l.wires k m l.bGInputs l.bGOutputs v (hA.chunked i l v hl hv)
      (fun w hw => ⟨(hgl.inRange w hw).1, (hgl.inRange w hw).2.1⟩)
  constructor
  · intro i l l' hl hl'
    obtain ⟨v, v', h1, h2, h3⟩ := next i l hl
    have hch := hA.chained i l l' hl hl'
    unfold trueTable
    rw [hl, hl', h1, h2]
    dsimp only
    rw [← hch, h3]
  · intro l hl
    obtain ⟨v, v', h1, h2, h3⟩ := next _ l hl
    rw [hln] at hl
    obtain rfl := Option.some.inj hl
    unfold trueTable trueOutputTable
    rw [Nat.sub_add_cancel hpos] at h2
    rw [hln, h1, h2]
    exact h3

theorem accepting_not_doomed {bN bG : Nat} {layers : List (Layer F)} {U T : List F} {V : Nat → List F} {left right : F} {s : Stage F}
    (h : Accepting bN layers (V 0) left right s) : ¬ Doomed bN bG layers U T V s := by
  obtain ⟨l, t, ρ, e, h1, rfl, h3, h4, h5, h6⟩ := h
  intro hd
  apply hd l h1
  rw [h4, h3, Nat.sub_self, cubeSum, List.append_nil]
  unfold valueAt goalSummand
  dsimp only
  rw [h5, h6]

/-- A run from a doomed stage to one that is not has an unlucky challenge. -/
theorem unlucky_somewhere (bN bG : Nat) (layers : List (Layer F)) (U T : List F) (V : Nat → List F)
    (H : List (List F × F) → List F → F) (msgs : List (List F)) (h0 : Doomed bN bG layers U T V (stageAfter bN bG layers U []))
    (h1 : ¬ Doomed bN bG layers U T V (stageAfter bN bG layers U (say H [] msgs))) :
    ∃ (j : Nat) (hj : j < msgs.length), Doomed bN bG layers U T V (stageAfter bN bG layers U (say H [] (msgs.take j))) ∧
      ¬ Doomed bN bG layers U T V (step bN bG layers U (stageAfter bN bG layers U (say H [] (msgs.take j))) msgs[j]
        (H (say H [] (msgs.take j)) msgs[j])) := by
  by_contra hcon
  push Not at hcon
  have : ∀ j ≤ msgs.length, Doomed bN bG layers U T V (stageAfter bN bG layers U (say H [] (msgs.take j))) := by
    intro j
    induction j with
    | zero => intro _; simpa [say] using h0
    | succ j ih =>
      intro hj
      have := hcon j (by omega) (ih (by omega))
      rw [say_snoc H msgs j (by omega), stageAfter_snoc]
      exact this
  have := this msgs.length le_rfl
  rw [List.take_length] at this
  exact h1 this

variable [Fintype F]

/-- The opening stage is doomed if the outputs are wrong. -/
theorem opening_wrong (wiring : List (List (Wire F))) (hne : wiring ≠ []) (hw : ∀ ws ∈ wiring, IdWires ws) (G k m : Nat)
    (hG : Chained G (newCircuitR wiring).layers) (ln : Layer F)
    (hln : (newCircuitR wiring).layers[(newCircuitR wiring).layers.length - 1]? = some ln)
    (inputs outputs : List (List F)) (hin : WellChunked k (G + m) inputs) (hout : WellChunked k (ln.bGOutputs + m) outputs)
    (hwrong : (wiredAssignment (2 ^ m) (newCircuitR wiring).layers inputs).getLast? ≠ some outputs) :
    Doomed (m + k) ln.bGOutputs (newCircuitR wiring).layers (interleave (2 ^ k) (2 ^ (ln.bGOutputs + m)) outputs)
      (trueOutputTable k m ln.bGOutputs (newCircuitR wiring).layers inputs) (trueTable k m (newCircuitR wiring).layers inputs)
      (stageAfter (m + k) ln.bGOutputs (newCircuitR wiring).layers (interleave (2 ^ k) (2 ^ (ln.bGOutputs + m)) outputs) []) := by
  have hV := trueValues wiring hne hw G k m hG ln hln inputs hin
  have hgc := goodCircuitR hw hG
  obtain ⟨a, _, _, _⟩ := wiredAssignment_facts k m _ G inputs hG hin
  have hne' : (newCircuitR wiring).layers ≠ [] := by simpa [newCircuitR] using hne
  have hl : wiredAssignment (2 ^ m) (newCircuitR wiring).layers inputs ≠ [] := by
    intro h; rw [h] at a; simp at a
  have hlast := List.getLast?_eq_some_getLast hl
  rw [hlast] at hwrong
  have htc := wired_outputs_chunked hne hG hin hlast hln
  rw [List.getLast?_eq_getElem?, a, Nat.add_sub_cancel] at hlast
  set T := (wiredAssignment (2 ^ m) (newCircuitR wiring).layers inputs).getLast hl
  have eT : trueOutputTable k m ln.bGOutputs (newCircuitR wiring).layers inputs = interleave (2 ^ k) (2 ^ (ln.bGOutputs + m)) T := by
    unfold trueOutputTable; rw [hlast]
  apply (opening_doomed hne' hgc.good hV (fun l h => by rw [hln] at h; rw [Option.some.inj h]) [] (by simp)).2
  rw [eT]
  by_contra hcon
  push Not at hcon
  apply hwrong
  congr 1
  apply interleave_inj htc hout
  apply List.ext_getElem
  · simp [interleave]
  intro i h1 h2
  have hi : i < 2 ^ (ln.bGOutputs + (m + k)) := by
    have : (interleave (2 ^ k) (2 ^ (ln.bGOutputs + m)) T).length = 2 ^ (ln.bGOutputs + (m + k)) := by
      rw [← Nat.add_assoc]; simp [interleave, pow_add]
    omega
  have := hcon (bits (ln.bGOutputs + (m + k)) i) (by simp)
  rw [List.nil_append, mle_bits _ _ _ hi, mle_bits _ _ _ hi, List.getD_eq_getElem _ _ h1, List.getD_eq_getElem _ _ h2] at this
  exact this.symm

/-- C67 (C41, C43 and C53 in full, for one run). An accepted proof of wrong outputs contains a challenge that leads from a stage
that is doomed to one that is not. -/
theorem C67_sound (H : Query F → F) (wiring : List (List (Wire F))) (hne : wiring ≠ [])
    (hw : ∀ ws ∈ wiring, IdWires ws) (G k m : Nat) (hG : Chained G (newCircuitR wiring).layers)
    (ln : Layer F) (hln : (newCircuitR wiring).layers[(newCircuitR wiring).layers.length - 1]? = some ln)
    (inputs outputs : List (List F)) (hin : WellChunked k (G + m) inputs) (hout : WellChunked k (ln.bGOutputs + m) outputs)
    (hwrong : (wiredAssignment (2 ^ m) (newCircuitR wiring).layers inputs).getLast? ≠ some outputs)
    (proof : GkrProof F) (hacc : gkrVerifyT H (m + k) (newCircuitR wiring) proof inputs outputs = .ok true) :
    let h := fun past msg => H ⟨inputs, outputs, past, msg⟩
    let msgs := messages (ln.bGOutputs + (m + k)) (newCircuitR wiring).layers.length proof
    let U := interleave (2 ^ k) (2 ^ (ln.bGOutputs + m)) outputs
    let doomed := Doomed (m + k) ln.bGOutputs (newCircuitR wiring).layers U
      (trueOutputTable k m ln.bGOutputs (newCircuitR wiring).layers inputs) (trueTable k m (newCircuitR wiring).layers inputs)
    ∃ (j : Nat) (hj : j < msgs.length),
      doomed (stageAfter (m + k) ln.bGOutputs (newCircuitR wiring).layers U (say h [] (msgs.take j))) ∧
      ¬ doomed (step (m + k) ln.bGOutputs (newCircuitR wiring).layers U
        (stageAfter (m + k) ln.bGOutputs (newCircuitR wiring).layers U (say h [] (msgs.take j))) msgs[j]
        (h (say h [] (msgs.take j)) msgs[j])) := by
  dsimp only
  obtain ⟨b, hb, hb2⟩ := C67_verify H wiring hne hw G k m hG ln hln inputs outputs hin hout proof
  rw [hacc] at hb
  obtain rfl := Except.ok.inj hb
  obtain ⟨hs, hA⟩ := hb2.1 rfl
  obtain ⟨l0, hl0⟩ : ∃ l0, (newCircuitR wiring).layers[0]? = some l0 :=
    ⟨_, List.getElem?_eq_getElem (List.length_pos_of_ne_nil (by simpa [newCircuitR] using hne))⟩
  obtain ⟨_, hv0, _, _⟩ := wiredAssignment_facts k m _ G inputs hG hin
  have e0 : trueTable k m (newCircuitR wiring).layers inputs 0 = interleave (2 ^ k) (2 ^ (G + m)) inputs := by
    unfold trueTable
    rw [hl0, hv0]
    dsimp only
    rw [chained_first hG hl0]
  refine unlucky_somewhere (m + k) ln.bGOutputs _ _ _ _ _ _
    (opening_wrong wiring hne hw G k m hG ln hln inputs outputs hin hout hwrong) ?_
  rw [← e0] at hA
  exact accepting_not_doomed hA

/-- C67. Completeness: whatever the hash and the inputs, there is a proof for the outputs of the circuit that is accepted. -/
theorem C67_complete (H : Query F → F) (wiring : List (List (Wire F))) (hne : wiring ≠ [])
    (hw : ∀ ws ∈ wiring, IdWires ws) (G k m : Nat) (hG : Chained G (newCircuitR wiring).layers)
    (ln : Layer F) (hln : (newCircuitR wiring).layers[(newCircuitR wiring).layers.length - 1]? = some ln)
    (inputs outputs : List (List F)) (hin : WellChunked k (G + m) inputs)
    (hout : (wiredAssignment (2 ^ m) (newCircuitR wiring).layers inputs).getLast? = some outputs) :
    ∃ proof, gkrVerifyT H (m + k) (newCircuitR wiring) proof inputs outputs = .ok true := by
  have hgc := goodCircuitR hw hG
  have hne' : (newCircuitR wiring).layers ≠ [] := by simpa [newCircuitR] using hne
  obtain ⟨a, hv0, _, _⟩ := wiredAssignment_facts k m _ G inputs hG hin
  have hoc := wired_outputs_chunked hne hG hin hout hln
  rw [List.getLast?_eq_getElem?, a, Nat.add_sub_cancel] at hout
  have eT : trueOutputTable k m ln.bGOutputs (newCircuitR wiring).layers inputs =
      interleave (2 ^ k) (2 ^ (ln.bGOutputs + m)) outputs := by
    unfold trueOutputTable; rw [hout]
  obtain ⟨l0, hl0⟩ : ∃ l0, (newCircuitR wiring).layers[0]? = some l0 :=
    ⟨_, List.getElem?_eq_getElem (List.length_pos_of_ne_nil hne')⟩
  have e0 : trueTable k m (newCircuitR wiring).layers inputs 0 = interleave (2 ^ k) (2 ^ (G + m)) inputs := by
    unfold trueTable
    rw [hl0, hv0]
    dsimp only
    rw [chained_first hG hl0]
  obtain ⟨proof, h1, h2⟩ := exists_accepting (bG := ln.bGOutputs) (fun past msg => H ⟨inputs, outputs, past, msg⟩)
    (newCircuitR wiring) hne' hgc.good hgc.chained (trueValues wiring hne hw G k m hG ln hln inputs hin)
    (fun l h => by rw [hln] at h; rw [Option.some.inj h])
  obtain ⟨b, hb, hb2⟩ := C67_verify H wiring hne hw G k m hG ln hln inputs outputs hin hoc proof
  rw [e0, eT] at h2
  rw [hb2.2 ⟨h1, h2⟩] at hb
  exact ⟨proof, hb⟩

/-- The number of messages that are answered. -/
theorem messages_length (c : Circuit F) (hne : c.layers ≠ []) (bN n : Nat) (proof : GkrProof F) (hs : ProofShape c bN proof) :
    (messages n c.layers.length proof).length = n + coins bN c.layers := by
  have hpos := List.length_pos_of_ne_nil hne
  have key : ∀ i, i < c.layers.length → (messagesFrom proof i).length + offset bN c.layers i = coins bN c.layers := by
    intro i
    induction i with
    | zero =>
      intro h
      obtain ⟨l, hl⟩ : ∃ l, c.layers[0]? = some l := ⟨_, List.getElem?_eq_getElem h⟩
      rw [messagesFrom, (hs.msg hl).1, coins, roundsOf_some bN c.layers hl]
      omega
    | succ i ih =>
      intro h
      obtain ⟨l, hl⟩ : ∃ l, c.layers[i + 1]? = some l := ⟨_, List.getElem?_eq_getElem h⟩
      have h1 := ih (by omega)
      rw [offset_succ bN c.layers hl, roundsOf_some bN c.layers hl] at h1
      rw [messagesFrom, List.length_append, List.length_cons, (hs.msg hl).1]
      omega
  have := key (c.layers.length - 1) (by omega)
  have h0 : offset bN c.layers (c.layers.length - 1) = 0 := by
    unfold offset
    rw [List.drop_eq_nil_of_le (by omega)]
    rfl
  unfold messages
  rw [List.length_append, List.length_replicate]
  omega

/-- All messages are short. -/
theorem messages_short (c : Circuit F) (bN n D : Nat) (hD : ∀ l ∈ c.layers, DegreesLe D l.gates) (proof : GkrProof F)
    (hs : ProofShape c bN proof) : ∀ c' ∈ messages n c.layers.length proof, c'.length ≤ D + 2 := by
  have hr : ∀ i, ∀ c' ∈ (msgOf proof i).rounds, c'.length ≤ D + 2 := by
    intro i c' hc'
    by_cases hi : i < c.layers.length
    · obtain ⟨l, hl⟩ : ∃ l, c.layers[i]? = some l := ⟨_, List.getElem?_eq_getElem hi⟩
      have hi' : i < proof.sumcheckProofs.length := by rw [hs.rounds]; exact hi
      have hsh := hs.each i l _ hl (List.getElem?_eq_getElem hi')
      have e : (msgOf proof i).rounds = proof.sumcheckProofs[i] := by simp [msgOf, hi']
      rw [e] at hc'
      have hmem := List.mem_map_of_mem (f := List.length) hc'
      unfold RoundShape at hsh
      rw [hsh] at hmem
      have hd := hD l (List.mem_of_getElem? hl)
      have d1 : degL l.gates ≤ D + 1 := Nat.succ_le_succ (foldl_max_le _ D _ 0 (by omega) fun g hg => (hd g hg).1)
      have d2 : degR l.gates ≤ D + 1 := Nat.succ_le_succ (foldl_max_le _ D _ 0 (by omega) fun g hg => (hd g hg).2.1)
      have d3 : degP l.gates ≤ D + 1 := Nat.succ_le_succ (foldl_max_le _ D _ 0 (by omega) fun g hg => (hd g hg).2.2)
      simp only [List.mem_append, List.mem_replicate] at hmem
      omega
    · have e : (msgOf proof i).rounds = [] := by
        have : ¬ i < proof.sumcheckProofs.length := by rw [hs.rounds]; exact hi
        simp [msgOf]
        rw [List.getElem?_eq_none (by omega)]
        rfl
      rw [e] at hc'
      simp at hc'
  have hf : ∀ i, ∀ c' ∈ messagesFrom proof i, c'.length ≤ D + 2 := by
    intro i
    induction i with
    | zero => exact hr 0
    | succ i ih =>
      intro c' hc'
      rw [messagesFrom, List.mem_append, List.mem_cons] at hc'
      rcases hc' with hc' | rfl | hc'
      · exact hr _ c' hc'
      · simp
      · exact ih c' hc'
  intro c' hc'
  unfold messages at hc'
  rw [List.mem_append] at hc'
  rcases hc' with hc' | hc'
  · rw [(List.mem_replicate.1 hc').2]; simp
  · exact hf _ c' hc'

/-- C67. Round-by-round soundness: for all inputs and every transcript, if the stage after it is doomed, then whatever the next
message, at most `D + 1` challenges lead to a stage that is not. -/
theorem C67_round_by_round (wiring : List (List (Wire F))) (hne : wiring ≠ []) (hw : ∀ ws ∈ wiring, IdWires ws) (G k m : Nat)
    (hG : Chained G (newCircuitR wiring).layers) (ln : Layer F)
    (hln : (newCircuitR wiring).layers[(newCircuitR wiring).layers.length - 1]? = some ln)
    (D : Nat) (hD : ∀ ws ∈ wiring, ∀ w ∈ ws, w.gate.degHL ≤ D ∧ w.gate.degHR ≤ D ∧ w.gate.degHPrime ≤ D)
    (inputs outputs : List (List F)) (hin : WellChunked k (G + m) inputs)
    (past : List (List F × F)) (msg : List F) (hm : msg.length ≤ D + 2) :
    let U := interleave (2 ^ k) (2 ^ (ln.bGOutputs + m)) outputs
    let doomed := Doomed (m + k) ln.bGOutputs (newCircuitR wiring).layers U
      (trueOutputTable k m ln.bGOutputs (newCircuitR wiring).layers inputs) (trueTable k m (newCircuitR wiring).layers inputs)
    doomed (stageAfter (m + k) ln.bGOutputs (newCircuitR wiring).layers U past) →
    count (fun a => ¬ doomed (stageAfter (m + k) ln.bGOutputs (newCircuitR wiring).layers U (past ++ [(msg, a)]))) ≤ D + 1 := by
  dsimp only
  intro hd
  have hgc := goodCircuitR hw hG
  simp only [stageAfter_snoc]
  exact step_count (by simpa [newCircuitR] using hne) hgc.good hgc.chained (trueValues wiring hne hw G k m hG ln hln inputs hin)
    (fun l h => by rw [hln] at h; rw [Option.some.inj h]) (newCircuitR_degrees hD) _ (stageAfter_ok _ _ _ _ _) hd msg hm

/-- C67 (C23, C25, C41, C43 and C53 in full). An adversary asks a random oracle `Q` questions, adaptively, and then puts out inputs,
outputs and a proof of its choice, which the verifier checks with the same oracle. For at most `(Q + N) (D + 1) |F|^(Q + N - 1)` of
the `|F|^(Q + N)` answers, `N` the number of the verifier's own questions, the proof is accepted although the outputs are not those of
the circuit on these inputs. -/
theorem C67_count (A : Adversary F) (Q : Nat) (wiring : List (List (Wire F))) (hne : wiring ≠ [])
    (hw : ∀ ws ∈ wiring, IdWires ws) (G k m : Nat) (hG : Chained G (newCircuitR wiring).layers)
    (ln : Layer F) (hln : (newCircuitR wiring).layers[(newCircuitR wiring).layers.length - 1]? = some ln)
    (D : Nat) (hD : ∀ ws ∈ wiring, ∀ w ∈ ws, w.gate.degHL ≤ D ∧ w.gate.degHR ≤ D ∧ w.gate.degHPrime ≤ D)
    (n : Nat) (hn : n = ln.bGOutputs + (m + k)) (N : Nat) (hN : N = n + coins (m + k) (newCircuitR wiring).layers) :
    count (fun x : Fin (Q + N) → F => ∃ (log : List (Query F × F)) (inputs outputs : List (List F)) (proof : GkrProof F)
        (H : Query F → F),
      log = oracleLog (A.thenVerifier Q n (newCircuitR wiring).layers.length) (List.ofFn x) ∧
      A.out ((log.map Prod.snd).take Q) = (inputs, outputs, proof) ∧ (∀ e ∈ log, H e.1 = e.2) ∧
      WellChunked k (G + m) inputs ∧ WellChunked k (ln.bGOutputs + m) outputs ∧
      gkrVerifyT H (m + k) (newCircuitR wiring) proof inputs outputs = .ok true ∧
      (wiredAssignment (2 ^ m) (newCircuitR wiring).layers inputs).getLast? ≠ some outputs) ≤
    (Q + N) * (D + 1) * Fintype.card F ^ (Q + N - 1) := by
  subst hn
  have hne' : (newCircuitR wiring).layers ≠ [] := by simpa [newCircuitR] using hne
  set layers := (newCircuitR wiring).layers with hlayers
  refine le_trans (count_mono ?_) (oracle_count (A.thenVerifier Q (ln.bGOutputs + (m + k)) layers.length)
    (fun q a => WellChunked k (G + m) q.inputs ∧ q.msg.length ≤ D + 2 ∧
      Doomed (m + k) ln.bGOutputs layers (interleave (2 ^ k) (2 ^ (ln.bGOutputs + m)) q.outputs)
        (trueOutputTable k m ln.bGOutputs layers q.inputs) (trueTable k m layers q.inputs)
        (stageAfter (m + k) ln.bGOutputs layers (interleave (2 ^ k) (2 ^ (ln.bGOutputs + m)) q.outputs) q.past) ∧
      ¬ Doomed (m + k) ln.bGOutputs layers (interleave (2 ^ k) (2 ^ (ln.bGOutputs + m)) q.outputs)
        (trueOutputTable k m ln.bGOutputs layers q.inputs) (trueTable k m layers q.inputs)
        (stageAfter (m + k) ln.bGOutputs layers (interleave (2 ^ k) (2 ^ (ln.bGOutputs + m)) q.outputs) (q.past ++ [(q.msg, a)])))
    (D + 1) ?_ (Q + N))
  · rintro x ⟨log, inputs, outputs, proof, H, hlog, hout, hH, hin, hou, hacc, hwrong⟩
    obtain ⟨b, hb, hb2⟩ := C67_verify H wiring hne hw G k m hG ln hln inputs outputs hin hou proof
    rw [hacc] at hb
    obtain rfl := Except.ok.inj hb
    obtain ⟨hs, _⟩ := hb2.1 rfl
    have hml := messages_length (newCircuitR wiring) hne' (m + k) (ln.bGOutputs + (m + k)) proof hs
    have hms := messages_short (newCircuitR wiring) (m + k) (ln.bGOutputs + (m + k)) D (newCircuitR_degrees hD) proof hs
    obtain ⟨j, hj, hd1, hd2⟩ := C67_sound H wiring hne hw G k m hG ln hln inputs outputs hin hou hwrong proof hacc
    rw [hlog] at hH
    have hask := verifier_asks A Q (ln.bGOutputs + (m + k)) layers.length (List.ofFn x) H hH (inputs, outputs, proof)
      (by rw [← hlog, hout]) (by rw [List.length_ofFn, hN]; simp only; rw [hlayers, hml])
    obtain ⟨_, hask⟩ := hask j (le_of_lt hj)
    refine ⟨_, hask hj, hin, hms _ (List.getElem_mem hj), hd1, ?_⟩
    rw [stageAfter_snoc]
    exact hd2
  · intro q
    by_cases hq : WellChunked k (G + m) q.inputs ∧ q.msg.length ≤ D + 2 ∧
      Doomed (m + k) ln.bGOutputs layers (interleave (2 ^ k) (2 ^ (ln.bGOutputs + m)) q.outputs)
        (trueOutputTable k m ln.bGOutputs layers q.inputs) (trueTable k m layers q.inputs)
        (stageAfter (m + k) ln.bGOutputs layers (interleave (2 ^ k) (2 ^ (ln.bGOutputs + m)) q.outputs) q.past)
    · refine le_trans (count_mono fun a ha => ha.2.2.2)
        (C67_round_by_round wiring hne hw G k m hG ln hln D hD q.inputs q.outputs hq.1 q.past q.msg hq.2.1 hq.2.2)
    · rw [count_false]
      · exact Nat.zero_le _
      · exact fun a ha => hq ⟨ha.1, ha.2.1, ha.2.2.1⟩

/-- C67. The oracle of `C67_count` is a function: for every tape some `H` agrees with all its answers; and an answer to a question not
asked before is the element of the tape. -/
theorem C67_oracle (next : List F → Query F) (tape : List F) :
    (∃ H : Query F → F, ∀ e ∈ oracleLog next tape, H e.1 = e.2) ∧
    ∀ x, next ((oracleLog next tape).map Prod.snd) ∉ (oracleLog next tape).map Prod.fst →
      oracleLog next (tape ++ [x]) = oracleLog next tape ++ [(next ((oracleLog next tape).map Prod.snd), x)] := by
  have none_of : ∀ (l : List (Query F × F)) (q : Query F), q ∉ l.map Prod.fst → l.lookup q = none := by
    intro l q h
    rw [List.lookup_eq_none_iff]
    intro p hp
    simp only [ne_eq, bne_iff_ne]
    rintro rfl
    exact h (List.mem_map_of_mem hp)
  constructor
  · refine ⟨fun q => ((oracleLog next tape).lookup q).getD 0, ?_⟩
    induction tape using List.reverseRecOn with
    | nil => intro e he; simp [oracleLog] at he
    | append_singleton tape x ih =>
      set log := oracleLog next tape with hlog
      set q := next (log.map Prod.snd) with hq
      rw [oracleLog_snoc, ← hlog, ← hq]
      intro e he
      dsimp only
      rw [List.lookup_append]
      rcases List.mem_append.1 he with he | he
      · have := ih e he
        cases hl : log.lookup e.1 with
        | none =>
          exfalso
          rw [List.lookup_eq_none_iff] at hl
          have := hl e he
          simp at this
        | some y =>
          dsimp only at this
          rw [hl] at this
          exact this
      · obtain rfl := List.mem_singleton.1 he
        dsimp only
        cases hl : log.lookup q with
        | none => simp [List.lookup]
        | some y => simp
  · intro x h
    rw [oracleLog_snoc, none_of _ _ h]
    rfl

end

/-- C67 for the MiMC circuit with the real constants: an adversary who asks `Q` questions and then chooses states, blocks, outputs and a
proof, gets outputs accepted that are not the MiMC outputs of these states and blocks for at most `(Q + N) 8 r^(Q + N - 1)` of the
`r^(Q + N)` answers of the oracle, `N = bN + 91 (2 + bN) + 90`. -/
theorem C67_mimc_count (k m N : Nat) (hN : N = m + k + (91 * (2 + (m + k)) + 90)) :
    ∃ c, createMimcCircuit frString arks = .ok c ∧ ∀ (A : Adversary Fr) (Q : Nat),
      count (fun x : Fin (Q + N) → Fr => ∃ (log : List (Query Fr × Fr)) (pairs : List (List Fr × List Fr)) (outputs : List (List Fr))
          (proof : GkrProof Fr) (H : Query Fr → Fr),
        log = oracleLog (A.thenVerifier Q (m + k) c.layers.length) (List.ofFn x) ∧
        A.out ((log.map Prod.snd).take Q) = (pairs.map mimcChunk, outputs, proof) ∧ (∀ e ∈ log, H e.1 = e.2) ∧
        pairs.length = 2 ^ k ∧ (∀ x ∈ pairs, x.1.length = 2 ^ m ∧ x.2.length = 2 ^ m) ∧ WellChunked k m outputs ∧
        gkrVerifyT H (m + k) c proof (pairs.map mimcChunk) outputs = .ok true ∧ outputs ≠ pairs.map mimcExpected) ≤
      (Q + N) * 8 * frModulus ^ (Q + N - 1) := by
  refine ⟨_, mimc_circuit, fun A Q => ?_⟩
  have e := C65_same_circuit (mimcWiring frString (arks.take 91)) fun ws h => (mimcWiring_good _ _ ws h).nodup
  have := C67_count A Q (mimcWiring frString (arks.take 91)) mimc_ne (fun ws h => (mimcWiring_good _ _ ws h).idWires) 1 k m
    (by rw [e]; exact mimcWiring_chained _ _) _ (by rw [e]; exact mimc_lastLayer) 7 (mimc_degrees _ _) (m + k)
    (by rw [last_bGOutputs, Nat.zero_add]) N (by rw [e, C45_mimc_coins, hN])
  rw [e, last_bGOutputs, show Fintype.card Fr = frModulus from ZMod.card _] at this
  refine le_trans (count_mono ?_) this
  rintro x ⟨log, pairs, outputs, proof, H, h1, h2, h3, hk, hp, hout, hacc, hwrong⟩
  refine ⟨log, pairs.map mimcChunk, outputs, proof, H, h1, h2, h3, ⟨by simpa using hk, ?_⟩, by rwa [Nat.zero_add], hacc, ?_⟩
  · intro c hc
    obtain ⟨x, hx, rfl⟩ := List.mem_map.1 hc
    simp [mimcChunk, hp x hx, pow_add]; omega
  · rw [mimc_values (2 ^ m) pairs hp]
    intro h
    exact hwrong (Option.some.inj h).symm

/-! ### The theorems are not vacuous -/

/-- The proof made for a constant hash is accepted with it and refused for other
outputs, other inputs and another hash. -/
example : (do
    let c : Circuit Fr := newCircuitR [[⟨0, 1, 0, addGate⟩, ⟨1, 0, 1, addGate⟩], [⟨0, 1, 0, mulGate⟩]]
    let values ← c.assignR [[1, 2, 5, 6]] 1
    let p ← newGkrProver c values
    let proof ← p.proveAt (fun _ => 3) [3] [] 1
    let good ← gkrVerifyT (fun _ => 3) 1 c proof [[1, 2, 5, 6]] [[36, 64]]
    let bad ← gkrVerifyT (fun _ => 3) 1 c proof [[1, 2, 5, 6]] [[37, 64]]
    let bad' ← gkrVerifyT (fun _ => 3) 1 c proof [[1, 2, 5, 7]] [[36, 64]]
    let bad'' ← gkrVerifyT (fun q => (q.past.length : Fr)) 1 c proof [[1, 2, 5, 6]] [[36, 64]]
    return (good, bad, bad', bad'')) = .ok (true, false, false, false) := by decide +kernel

/-- A question asked again gets the same answer. -/
example : (oracleLog (fun _ => ⟨[[1]], [[2]], [], []⟩) [5, 7]).map Prod.snd = [5, (5 : Fr)] := by decide +kernel

theorem sample_idWires : ∀ ws ∈ [[⟨0, 1, 0, addGate⟩, ⟨1, 0, 1, addGate⟩]], IdWires (F := Fr) ws := by
  intro ws hws
  rw [List.mem_singleton] at hws
  subst hws
  have hg : ∀ w ∈ ([⟨0, 1, 0, addGate⟩, ⟨1, 0, 1, addGate⟩] : List (Wire Fr)), w.gate = addGate := by simp
  refine ⟨⟨by simp, ?_, ?_⟩, ?_⟩
  · intro w hw
    rw [hg w hw]; exact (ShippedGate.add (toStr := frString)).lawful
  · intro w hw
    rw [hg w hw]; simp [addGate]
  · intro w hw w' hw' _
    rw [hg w hw, hg w' hw']

/-- The hypotheses of `C67_verify`, `C67_complete`, `C67_sound`, `C67_round_by_round` and `C67_count` are met: for the outputs
`7, 8, 6, 8` instead of `6, 8, 6, 8` the stage before the first challenge is doomed. -/
example : ∃ ln : Layer Fr, (newCircuitR [[⟨0, 1, 0, addGate⟩, ⟨1, 0, 1, addGate⟩]] : Circuit Fr).layers[0]? = some ln ∧
    (∀ w ∈ ([⟨0, 1, 0, addGate⟩, ⟨1, 0, 1, addGate⟩] : List (Wire Fr)), w.gate.degHL ≤ 1 ∧ w.gate.degHR ≤ 1 ∧ w.gate.degHPrime ≤ 1) ∧
    Doomed (1 + 0) ln.bGOutputs (newCircuitR [[⟨0, 1, 0, addGate⟩, ⟨1, 0, 1, addGate⟩]] : Circuit Fr).layers
      (interleave (2 ^ 0) (2 ^ (ln.bGOutputs + 1)) [[7, 8, 6, (8 : Fr)]])
      (trueOutputTable 0 1 ln.bGOutputs (newCircuitR [[⟨0, 1, 0, addGate⟩, ⟨1, 0, 1, addGate⟩]] : Circuit Fr).layers [[1, 2, 5, 6]])
      (trueTable 0 1 (newCircuitR [[⟨0, 1, 0, addGate⟩, ⟨1, 0, 1, addGate⟩]] : Circuit Fr).layers [[1, 2, 5, 6]])
      (stageAfter (1 + 0) ln.bGOutputs (newCircuitR [[⟨0, 1, 0, addGate⟩, ⟨1, 0, 1, addGate⟩]] : Circuit Fr).layers
        (interleave (2 ^ 0) (2 ^ (ln.bGOutputs + 1)) [[7, 8, 6, (8 : Fr)]]) []) := by
  refine ⟨_, rfl, by decide +kernel, opening_wrong _ (by simp) sample_idWires 1 0 1 ⟨by decide +kernel, trivial⟩ _ rfl _ _
    ⟨rfl, by simp⟩ ⟨rfl, ?_⟩ (by decide +kernel)⟩
  intro c hc
  rw [List.mem_singleton.1 hc]
  decide +kernel

end GkrMimc
