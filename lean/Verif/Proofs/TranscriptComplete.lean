import Verif.Proofs.TranscriptRun

/-! An honest prover against transcript challenges: from a stage whose value is the true partial sum there are messages that lead to
acceptance, whatever the hash. -/

set_option linter.unusedSectionVars false

namespace GkrMimc

open Spec Finset Polynomial

variable {F : Type} [Field F] [DecidableEq F]

/-- The coefficients of a polynomial. -/
theorem polyOf_tab_coeff (Q : F[X]) (d : Nat) (h : Q.natDegree ≤ d) : polyOf (tab (d + 1) Q.coeff) = Q := by
  conv_rhs => rw [Q.as_sum_range_C_mul_X_pow' (n := d + 1) (by omega)]
  unfold polyOf
  rw [tab_length]
  apply Finset.sum_congr rfl
  intro i hi
  rw [List.getD_eq_getElem?_getD, tab_getElem?, if_pos (Finset.mem_range.1 hi)]
  rfl

theorem goalSummand_polyDeg {bN : Nat} {l : Layer F} (hl : GoodLayer l) (W : List F) (t : Goal F) (ht : t.point.length = bN)
    (ρ : List F) (hρ : ρ.length < 2 * l.bGInputs + bN) :
    PolyLe (summandDeg l.gates l.bGInputs ρ.length)
      fun x => cubeSum (2 * l.bGInputs + bN - (ρ.length + 1)) fun b => goalSummand l W t (ρ ++ x :: b) := by
  have := (PolyLe.cubeSum (2 * l.bGInputs + bN - (ρ.length + 1)) (fun x b => summand l.gates l.bGInputs W W
    (tab (2 ^ t.point.length) (chi t.point)) (l.gates.map fun g : Gate F => tab (2 ^ (2 * l.bGInputs))
      (staticW l.wires g.id t.weight l.bGInputs)) (ρ ++ x :: b))
    (fun b _ => summand_poly l.gates hl.lawful l.bGInputs W W _ _ ρ b))
  refine (congrArg (PolyLe _) ?_).mp this
  funext x
  apply cubeSum_congr
  intro b hb
  rw [goalSummand_eq hl]
  simp [hb]; omega

/-- The messages of the layers `i, …, 0`, given by a function. -/
def fromMsgs (f : Nat → Msg F) : Nat → List (List F)
  | 0 => (f 0).rounds
  | i + 1 => (f (i + 1)).rounds ++ [(f (i + 1)).left, (f (i + 1)).right] :: fromMsgs f i

theorem fromMsgs_congr {f g : Nat → Msg F} : ∀ i, (∀ j ≤ i, f j = g j) → fromMsgs f i = fromMsgs g i
  | 0, h => by rw [fromMsgs, fromMsgs, h 0 le_rfl]
  | i + 1, h => by rw [fromMsgs, fromMsgs, h (i + 1) le_rfl, fromMsgs_congr i fun j hj => h j (by omega)]

theorem messagesFrom_msgs (proof : GkrProof F) : ∀ i, messagesFrom proof i = fromMsgs (msgOf proof) i
  | 0 => rfl
  | i + 1 => by rw [messagesFrom, fromMsgs, messagesFrom_msgs proof i]

section
variable {bN bG : Nat} {layers : List (Layer F)} {U T : List F} {V : Nat → List F} (H : List (List F × F) → List F → F)

/-- The rounds of a layer. -/
theorem rounds_complete {i : Nat} {l : Layer F} (hl : layers[i]? = some l) (hgl : GoodLayer l) (t : Goal F) (ht : t.point.length = bN)
    (d : Nat) : ∀ (past : List (List F × F)) (ρ : List F) (e : F), stageAfter bN bG layers U past = .layer i t ρ e →
      ρ.length + d = 2 * l.bGInputs + bN → e = cubeSum d (fun b => goalSummand l (V i) t (ρ ++ b)) →
    ∃ (cs : List (List F)) (ρ' : List F) (e' : F),
      cs.map List.length = (List.range' ρ.length d).map (fun j => summandDeg l.gates l.bGInputs j + 1) ∧
      stageAfter bN bG layers U (say H past cs) = .layer i t ρ' e' ∧ ρ'.length = 2 * l.bGInputs + bN ∧
      e' = goalSummand l (V i) t ρ' := by
  induction d with
  | zero =>
    intro past ρ e hs hρ he
    refine ⟨[], ρ, e, rfl, hs, by omega, ?_⟩
    rw [he, cubeSum, List.append_nil]
  | succ d ih =>
    intro past ρ e hs hρ he
    obtain ⟨Q, hQd, hQ⟩ := goalSummand_polyDeg hgl (V i) t ht ρ (by omega)
    rw [show 2 * l.bGInputs + bN - (ρ.length + 1) = d by omega] at hQ
    set c := tab (summandDeg l.gates l.bGInputs ρ.length + 1) Q.coeff with hc
    have hcQ : polyOf c = Q := polyOf_tab_coeff Q _ hQd
    set a := H past c
    have hst : stageAfter bN bG layers U (past ++ [(c, a)]) = .layer i t (ρ ++ [a]) (Q.eval a) := by
      rw [stageAfter_snoc, hs]
      unfold step
      dsimp only
      rw [hl]
      dsimp only
      rw [if_pos (by omega), hcQ, if_pos]
      rw [hQ, hQ, he, cubeSum]
    obtain ⟨cs, ρ', e', h1, h2, h3, h4⟩ := ih (past ++ [(c, a)]) (ρ ++ [a]) (Q.eval a) hst (by simp; omega)
      (by
        have := hQ a
        dsimp only at this
        rw [this]
        simp only [List.append_assoc, List.singleton_append])
    refine ⟨c :: cs, ρ', e', ?_, ?_, h3, h4⟩
    · rw [List.map_cons, h1, List.range'_succ, List.map_cons, hc, tab_length, List.length_append, List.length_singleton]
    · rw [say_cons]; exact h2

theorem roundShape_of {l : Layer F} {cs : List (List F)}
    (h : cs.map List.length = (List.range' 0 (2 * l.bGInputs + bN)).map (fun j => summandDeg l.gates l.bGInputs j + 1)) :
    RoundShape l bN cs := by
  unfold RoundShape
  rw [h]
  apply List.ext_getElem
  · simp; omega
  intro j h1 h2
  have hj : j < 2 * l.bGInputs + bN := by simpa using h1
  simp only [List.getElem_map, List.getElem_range', List.getElem_append, List.getElem_replicate, List.length_append,
    List.length_replicate]
  unfold summandDeg
  split_ifs <;> first | rfl | omega

/-- All layers from `i` down. -/
theorem layersT_complete (hc : ∀ l ∈ layers, GoodLayer l)
    (hch : ∀ (i : Nat) (l l' : Layer F), layers[i]? = some l → layers[i + 1]? = some l' → l.bGOutputs = l'.bGInputs)
    (hV : TrueValues bN layers V T) (i : Nat) : ∀ (l : Layer F) (t : Goal F) (e : F) (past : List (List F × F)),
      layers[i]? = some l → t.point.length = bN → stageAfter bN bG layers U past = .layer i t [] e →
      e = cubeSum (2 * l.bGInputs + bN) (goalSummand l (V i) t) →
    ∃ f : Nat → Msg F, (∀ j ≤ i, ∀ l, layers[j]? = some l → RoundShape l bN (f j).rounds) ∧
      Accepting bN layers (V 0) (f 0).left (f 0).right (stageAfter bN bG layers U (say H past (fromMsgs f i))) := by
  induction i with
  | zero =>
    intro l t e past hl ht hs he
    obtain ⟨cs, ρ, e', h1, h2, h3, h4⟩ := rounds_complete H hl (hc l (List.mem_of_getElem? hl)) t ht (2 * l.bGInputs + bN) past [] e hs
      (by simp) (by simpa using he)
    refine ⟨fun _ => ⟨cs, mle (V 0) (ρ.take l.bGInputs ++ ρ.drop (2 * l.bGInputs)),
      mle (V 0) ((ρ.drop l.bGInputs).take l.bGInputs ++ ρ.drop (2 * l.bGInputs))⟩, ?_, ?_⟩
    · intro j hj l' hl'
      obtain rfl : j = 0 := by omega
      rw [hl] at hl'
      obtain rfl := Option.some.inj hl'
      exact roundShape_of h1
    · exact ⟨l, t, ρ, e', hl, h2, h3, h4, rfl, rfl⟩
  | succ i ih =>
    intro l t e past hl ht hs he
    obtain ⟨cs, ρ, e', h1, h2, h3, h4⟩ := rounds_complete H hl (hc l (List.mem_of_getElem? hl)) t ht (2 * l.bGInputs + bN) past [] e hs
      (by simp) (by simpa using he)
    have hlt : i + 1 < layers.length := (List.getElem?_eq_some_iff.1 hl).1
    obtain ⟨l', hl'⟩ : ∃ l', layers[i]? = some l' := ⟨_, List.getElem?_eq_getElem (by omega)⟩
    have hlink := hch i l' l hl' hl
    set left := mle (V (i + 1)) (ρ.take l.bGInputs ++ ρ.drop (2 * l.bGInputs)) with hleft
    set right := mle (V (i + 1)) ((ρ.drop l.bGInputs).take l.bGInputs ++ ρ.drop (2 * l.bGInputs)) with hright
    set a := H (say H past cs) [left, right] with ha
    have hst : stageAfter bN bG layers U (say H past cs ++ [([left, right], a)]) =
        .layer i (goalAfter l ρ left right a) [] (left + a * right) := by
      rw [stageAfter_snoc, h2]
      unfold step
      dsimp only
      rw [hl]
      dsimp only
      rw [if_neg (by omega), if_pos]
      exact h4
    have hg := goal_below (hc l' (List.mem_of_getElem? hl')) (V i) bN (ρ.take l.bGInputs) ((ρ.drop l.bGInputs).take l.bGInputs)
      (ρ.drop (2 * l.bGInputs)) (left + a * right) a (by rw [hlink]; simp; omega) (by rw [hlink]; simp; omega) (by simp; omega)
    rw [← hV.below i l' l hl' hl] at hg
    obtain ⟨f, hf1, hf2⟩ := ih l' (goalAfter l ρ left right a) (left + a * right) _ hl' (by simp [goalAfter]; omega) hst
      (by unfold goalAfter; rw [hg])
    have hcongr : ∀ j ≤ i, (Function.update f (i + 1) ⟨cs, left, right⟩) j = f j :=
      fun j hj => Function.update_of_ne (by omega) _ _
    refine ⟨Function.update f (i + 1) ⟨cs, left, right⟩, ?_, ?_⟩
    · intro j hj l'' hl''
      by_cases hji : j = i + 1
      · subst hji
        rw [hl] at hl''
        obtain rfl := Option.some.inj hl''
        rw [Function.update_self]
        exact roundShape_of h1
      · rw [hcongr j (by omega)]
        exact hf1 j (by omega) l'' hl''
    · rw [hcongr 0 (by omega), fromMsgs, fromMsgs_congr i hcongr, Function.update_self, say_append, say_cons]
      exact hf2

/-- A proof that is accepted. -/
theorem exists_accepting (c : Circuit F) (hne : c.layers ≠ []) (hc : ∀ l ∈ c.layers, GoodLayer l)
    (hch : ∀ (i : Nat) (l l' : Layer F), c.layers[i]? = some l → c.layers[i + 1]? = some l' → l.bGOutputs = l'.bGInputs)
    (hV : TrueValues bN c.layers V T) (hbG : ∀ l : Layer F, c.layers[c.layers.length - 1]? = some l → l.bGOutputs = bG) :
    ∃ proof, ProofShape c bN proof ∧ Accepting bN c.layers (V 0) (msgOf proof 0).left (msgOf proof 0).right
      (stageAfter bN bG c.layers T (say H [] (messages (bG + bN) c.layers.length proof))) := by
  have hpos := List.length_pos_of_ne_nil hne
  obtain ⟨ln, hln⟩ : ∃ ln, c.layers[c.layers.length - 1]? = some ln := ⟨_, List.getElem?_eq_getElem (by omega)⟩
  have eb := hbG ln hln
  obtain ⟨_, hp2, hp3⟩ := drawPoint_spec (bN := bN) (bG := bG) (layers := c.layers) (U := T) H (bG + bN) [] [] rfl (by simp)
  set pre := (drawPoint H (bG + bN) []).1
  rw [List.nil_append] at hp3
  conv at hp3 => rhs; rw [opening, if_neg (by omega)]
  have hg := goal_top (hc ln (List.mem_of_getElem? hln)) (V (c.layers.length - 1)) bN (pre.take bG) (pre.drop bG) (mle T pre)
    (by rw [eb]; simp; omega) (by simp; omega)
  rw [List.take_append_drop, ← hV.top ln hln] at hg
  obtain ⟨f, hf1, hf2⟩ := layersT_complete H hc hch hV (c.layers.length - 1) ln _ _ _ hln (by simp; omega) hp3 hg.symm
  set proof : GkrProof F := ⟨tab c.layers.length fun i => (f i).rounds, tab c.layers.length fun i => (f i).left,
    tab c.layers.length fun i => (f i).right⟩ with hproof
  have hmsg : ∀ j ≤ c.layers.length - 1, msgOf proof j = f j := by
    intro j hj
    have : j < c.layers.length := by omega
    unfold msgOf
    rw [hproof]
    simp [List.getD_eq_getElem?_getD, this]
  refine ⟨proof, ⟨by simp [hproof], by simp [hproof], by simp [hproof], ?_⟩, ?_⟩
  · intro i l p hl hp
    have hi : i < c.layers.length := (List.getElem?_eq_some_iff.1 hl).1
    rw [hproof] at hp
    dsimp only at hp
    rw [tab_getElem?, if_pos hi] at hp
    rw [← Option.some.inj hp]
    exact hf1 i (by omega) l hl
  · unfold messages
    rw [say_append, messagesFrom_msgs, fromMsgs_congr _ hmsg, hmsg 0 (by omega)]
    exact hf2

end

end GkrMimc
