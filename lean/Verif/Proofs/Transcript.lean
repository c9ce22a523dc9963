import Verif.Spec.Transcript
import Verif.Proofs.Repaired
import Verif.Proofs.Counting

/-! The verifier with transcript challenges: a run goes through the stages of the specification, a doomed stage stays doomed but for
few challenges, and few tapes make a random oracle give an unlucky challenge. -/

set_option linter.unusedSectionVars false

namespace GkrMimc

open Spec Finset Polynomial

variable {F : Type} [Field F] [DecidableEq F]

/-- The true values: each layer's outputs are the inputs of the next, and `T` the outputs of the last. -/
structure TrueValues (bN : Nat) (layers : List (Layer F)) (V : Nat → List F) (T : List F) : Prop where
  below : ∀ (i : Nat) (l l' : Layer F), layers[i]? = some l → layers[i + 1]? = some l' →
    V (i + 1) = wiredOutputs l.wires (2 ^ bN) (2 ^ l.bGOutputs) (V i)
  top : ∀ l : Layer F, layers[layers.length - 1]? = some l →
    T = wiredOutputs l.wires (2 ^ bN) (2 ^ l.bGOutputs) (V (layers.length - 1))

/-- What holds of every stage that is reached. -/
def StageOk (bN bG : Nat) (layers : List (Layer F)) : Stage F → Prop
  | .rejected => True
  | .point pre => pre.length < bG + bN
  | .layer i t ρ _ => t.point.length = bN ∧ ∀ l : Layer F, layers[i]? = some l → ρ.length ≤ 2 * l.bGInputs + bN

section
variable (bN bG : Nat) (layers : List (Layer F)) (U : List F)

theorem opening_ok (pre : List F) (h : pre.length ≤ bG + bN) : StageOk bN bG layers (opening bN bG layers U pre) := by
  unfold opening
  split_ifs with h1
  · exact h1
  · exact ⟨by simp; omega, fun l _ => by simp⟩

theorem step_ok (s : Stage F) (hs : StageOk bN bG layers s) (msg : List F) (a : F) :
    StageOk bN bG layers (step bN bG layers U s msg a) := by
  cases s with
  | rejected => exact trivial
  | point pre =>
    apply opening_ok
    have : pre.length < bG + bN := hs
    simp; omega
  | layer i t ρ e =>
    obtain ⟨h1, h2⟩ := hs
    cases hl : layers[i]? with
    | none => unfold step; dsimp only; rw [hl]; exact trivial
    | some l =>
      unfold step
      dsimp only
      rw [hl]
      dsimp only
      split_ifs with c1 c2
      · exact ⟨h1, fun l' hl' => by rw [hl] at hl'; obtain rfl := Option.some.inj hl'; simp; omega⟩
      · exact trivial
      · rcases i with _ | j
        · exact trivial
        · rcases msg with _ | ⟨left, _ | ⟨right, _ | _⟩⟩
          · exact trivial
          · exact trivial
          · dsimp only
            split_ifs with c3
            · have := h2 l hl
              exact ⟨by simp [goalAfter]; omega, fun l' _ => by simp⟩
            · exact trivial
          · exact trivial

theorem stageAfter_append (past more : List (List F × F)) : stageAfter bN bG layers U (past ++ more) =
    more.foldl (fun s x => step bN bG layers U s x.1 x.2) (stageAfter bN bG layers U past) := by
  unfold stageAfter; rw [List.foldl_append]

theorem stageAfter_snoc (past : List (List F × F)) (c : List F) (a : F) : stageAfter bN bG layers U (past ++ [(c, a)]) =
    step bN bG layers U (stageAfter bN bG layers U past) c a := by
  rw [stageAfter_append]; rfl

theorem stageAfter_ok (past : List (List F × F)) : StageOk bN bG layers (stageAfter bN bG layers U past) := by
  induction past using List.reverseRecOn with
  | nil => exact opening_ok _ _ _ _ _ (by simp)
  | append_singleton past x ih => obtain ⟨c, a⟩ := x; rw [stageAfter_snoc]; exact step_ok _ _ _ _ _ ih _ _

theorem foldl_rejected (more : List (List F × F)) :
    more.foldl (fun s x => step bN bG layers U s x.1 x.2) .rejected = .rejected := by
  induction more with
  | nil => rfl
  | cons x xs ih => rw [List.foldl_cons]; exact ih

variable {bN bG layers U} {T : List F} {V : Nat → List F}

/-- The opening is doomed exactly if the two tables differ beyond the coordinates drawn. -/
theorem opening_doomed (hne : layers ≠ []) (hc : ∀ l ∈ layers, GoodLayer l) (hV : TrueValues bN layers V T)
    (hbG : ∀ l : Layer F, layers[layers.length - 1]? = some l → l.bGOutputs = bG)
    (pre : List F) (h : pre.length ≤ bG + bN) : Doomed bN bG layers U T V (opening bN bG layers U pre) ↔
      ∃ z : List F, pre.length + z.length = bG + bN ∧ mle U (pre ++ z) ≠ mle T (pre ++ z) := by
  unfold opening
  split_ifs with h1
  · rfl
  · have hlen : pre.length = bG + bN := by omega
    obtain ⟨ln, hln⟩ : ∃ ln, layers[layers.length - 1]? = some ln :=
      ⟨_, List.getElem?_eq_getElem (by have := List.length_pos_of_ne_nil hne; omega)⟩
    have e := hbG ln hln
    have hg := goal_top (hc ln (List.mem_of_getElem? hln)) (V (layers.length - 1)) bN (pre.take bG) (pre.drop bG) (mle U pre)
      (by rw [e]; simp; omega) (by simp; omega)
    rw [List.take_append_drop, ← hV.top ln hln] at hg
    have key : Doomed bN bG layers U T V (.layer (layers.length - 1) ⟨mle U pre, pre.drop bG, chi (pre.take bG)⟩ [] (mle U pre)) ↔
        mle U pre ≠ mle T pre := by
      unfold Doomed
      constructor
      · intro hd
        have := hd ln hln
        simp only [List.length_nil, Nat.sub_zero, List.nil_append] at this
        rw [hg] at this
        exact this
      · intro hd l hl
        rw [hln] at hl
        obtain rfl := Option.some.inj hl
        simp only [List.length_nil, Nat.sub_zero, List.nil_append]
        rw [hg]
        exact hd
    rw [key]
    constructor
    · intro hd
      exact ⟨[], by simpa using hlen, by simpa using hd⟩
    · rintro ⟨z, hz, hd⟩
      have : z = [] := List.length_eq_zero_iff.1 (by omega)
      subst this
      simpa using hd

/-- A partial sum of the summand of a goal, as a function of the next coordinate. -/
theorem goalSummand_poly {l : Layer F} (hl : GoodLayer l) (W : List F) (t : Goal F) (ht : t.point.length = bN) (ρ : List F)
    (hρ : ρ.length < 2 * l.bGInputs + bN) {D : Nat} (hD : DegreesLe D l.gates) :
    PolyLe (D + 1) fun x => cubeSum (2 * l.bGInputs + bN - (ρ.length + 1)) fun b => goalSummand l W t (ρ ++ x :: b) := by
  have := (PolyLe.cubeSum (2 * l.bGInputs + bN - (ρ.length + 1)) (fun x b => summand l.gates l.bGInputs W W
    (tab (2 ^ t.point.length) (chi t.point)) (l.gates.map fun g : Gate F => tab (2 ^ (2 * l.bGInputs))
      (staticW l.wires g.id t.weight l.bGInputs)) (ρ ++ x :: b))
    (fun b _ => summand_poly l.gates hl.lawful l.bGInputs W W _ _ ρ b)).mono (summandDeg_le hD _ _)
  refine (congrArg (PolyLe (D + 1)) ?_).mp this
  funext x
  apply cubeSum_congr
  intro b hb
  rw [goalSummand_eq hl]
  simp [hb]; omega

theorem polyOf_natDegree_le (c : List F) (D : Nat) (h : c.length ≤ D + 1) : (polyOf c).natDegree ≤ D := by
  rcases c with _ | ⟨x, xs⟩
  · simp [polyOf]
  · have := polyOf_natDegree (x :: xs) (by simp)
    omega

variable [Fintype F]

theorem count_le_one {p : F → Prop} (h : ∀ x y, p x → p y → x = y) : count p ≤ 1 := by
  classical
  rw [count_eq]
  apply card_le_one.2
  intro x hx y hy
  exact h x y (mem_filter.1 hx).2 (mem_filter.1 hy).2

/-- Round-by-round soundness: from a doomed stage, whatever the message, at most `D + 1` challenges lead to one that is not. -/
theorem step_count (hne : layers ≠ []) (hc : ∀ l ∈ layers, GoodLayer l)
    (hch : ∀ (i : Nat) (l l' : Layer F), layers[i]? = some l → layers[i + 1]? = some l' → l.bGOutputs = l'.bGInputs)
    (hV : TrueValues bN layers V T) (hbG : ∀ l : Layer F, layers[layers.length - 1]? = some l → l.bGOutputs = bG)
    {D : Nat} (hD : ∀ l ∈ layers, DegreesLe D l.gates) (s : Stage F) (hs : StageOk bN bG layers s)
    (hd : Doomed bN bG layers U T V s) (msg : List F) (hm : msg.length ≤ D + 2) :
    count (fun a => ¬ Doomed bN bG layers U T V (step bN bG layers U s msg a)) ≤ D + 1 := by
  have hall : (∀ a, Doomed bN bG layers U T V (step bN bG layers U s msg a)) →
      count (fun a => ¬ Doomed bN bG layers U T V (step bN bG layers U s msg a)) ≤ D + 1 := by
    intro h
    rw [count_false fun a => not_not.2 (h a)]
    exact Nat.zero_le _
  have hone : (∀ a b, ¬ Doomed bN bG layers U T V (step bN bG layers U s msg a) →
      ¬ Doomed bN bG layers U T V (step bN bG layers U s msg b) → a = b) →
      count (fun a => ¬ Doomed bN bG layers U T V (step bN bG layers U s msg a)) ≤ D + 1 :=
    fun h => (count_le_one h).trans (by omega)
  cases s with
  | rejected => exact hall fun _ => trivial
  | point pre =>
    apply hone
    have hpre : pre.length < bG + bN := hs
    obtain ⟨z, hz, hdiff⟩ := hd
    obtain ⟨x, z, rfl⟩ : ∃ x z', z = x :: z' := by
      cases z with
      | nil => simp at hz; omega
      | cons x z => exact ⟨x, z, rfl⟩
    intro a b ha hb
    by_contra hab
    change ¬ Doomed bN bG layers U T V (opening bN bG layers U (pre ++ [a])) at ha
    change ¬ Doomed bN bG layers U T V (opening bN bG layers U (pre ++ [b])) at hb
    rw [opening_doomed hne hc hV hbG _ (by simp; omega)] at ha hb
    push Not at ha hb
    have ha := ha z (by simp at hz ⊢; omega)
    have hb := hb z (by simp at hz ⊢; omega)
    rw [List.append_assoc, List.singleton_append] at ha hb
    obtain ⟨u1, u2, hu⟩ := mle_affine (fun i => U.getD i 0) pre z
    obtain ⟨t1, t2, ht⟩ := mle_affine (fun i => T.getD i 0) pre z
    unfold mle at ha hb hdiff
    rw [hu, ht] at ha hb hdiff
    have h2 : (a - b) * (u2 - t2) = 0 := by linear_combination ha - hb
    rcases mul_eq_zero.1 h2 with h2 | h2
    · exact hab (sub_eq_zero.1 h2)
    · apply hdiff
      linear_combination ha + (x - a) * h2
  | layer i t ρ e =>
    obtain ⟨h1, h2⟩ := hs
    cases hl : layers[i]? with
    | none =>
      apply hall
      intro a
      unfold step
      dsimp only
      rw [hl]
      exact trivial
    | some l =>
      have hgl := hc l (List.mem_of_getElem? hl)
      have hde := hd l hl
      have hρ := h2 l hl
      by_cases c1 : ρ.length < 2 * l.bGInputs + bN
      · by_cases c2 : (polyOf msg).eval 0 + (polyOf msg).eval 1 = e
        · obtain ⟨Q, hQd, hQ⟩ := goalSummand_poly hgl (V i) t h1 ρ c1 (hD l (List.mem_of_getElem? hl))
          have hsplit : cubeSum (2 * l.bGInputs + bN - ρ.length) (fun b => goalSummand l (V i) t (ρ ++ b)) =
              Q.eval 0 + Q.eval 1 := by
            rw [hQ, hQ, show 2 * l.bGInputs + bN - ρ.length = (2 * l.bGInputs + bN - (ρ.length + 1)) + 1 by omega, cubeSum]
          have hPQ : polyOf msg ≠ Q := by
            rintro h
            rw [hsplit, ← h, c2] at hde
            exact hde rfl
          classical
          rw [count_eq]
          refine (few_agreements _ _ hPQ _ ?_).trans (max_le (polyOf_natDegree_le msg (D + 1) hm) hQd)
          intro a ha
          by_contra hne'
          apply (mem_filter.1 ha).2
          unfold step
          dsimp only
          rw [hl]
          dsimp only
          rw [if_pos c1, if_pos c2]
          intro l' hl'
          rw [hl] at hl'
          obtain rfl := Option.some.inj hl'
          rw [List.length_append, List.length_singleton]
          simp only [List.append_assoc, List.singleton_append]
          have hQa := hQ a
          dsimp only at hQa
          rw [← hQa]
          exact hne'
        · apply hall
          intro a
          unfold step
          dsimp only
          rw [hl]
          dsimp only
          rw [if_pos c1, if_neg c2]
          exact trivial
      · rcases i with _ | j
        · apply hall
          intro a
          unfold step
          dsimp only
          rw [hl]
          dsimp only
          rw [if_neg c1]
          exact trivial
        · by_cases hmsg : ∃ left right, msg = [left, right]
          swap
          · apply hall
            intro a
            unfold step
            dsimp only
            rw [hl]
            dsimp only
            rw [if_neg c1]
            rcases msg with _ | ⟨left, _ | ⟨right, _ | _⟩⟩
            · exact trivial
            · exact trivial
            · exact absurd ⟨left, right, rfl⟩ hmsg
            · exact trivial
          obtain ⟨left, right, rfl⟩ := hmsg
          by_cases c3 : e = valueAt l t ρ left right
          swap
          · apply hall
            intro a
            unfold step
            dsimp only
            rw [hl]
            dsimp only
            rw [if_neg c1, if_neg c3]
            exact trivial
          have hlt : j + 1 < layers.length := (List.getElem?_eq_some_iff.1 hl).1
          obtain ⟨l', hl'⟩ : ∃ l', layers[j]? = some l' := ⟨_, List.getElem?_eq_getElem (by omega)⟩
          have hgl' := hc l' (List.mem_of_getElem? hl')
          have hlink := hch j l' l hl' hl
          have hρl : ρ.length = 2 * l.bGInputs + bN := by omega
          set qL := ρ.take l.bGInputs with hqL
          set qR := (ρ.drop l.bGInputs).take l.bGInputs with hqR
          set qN := ρ.drop (2 * l.bGInputs) with hqN
          have lL : qL.length = l'.bGOutputs := by rw [hlink, hqL]; simp; omega
          have lR : qR.length = l'.bGOutputs := by rw [hlink, hqR]; simp; omega
          have lN : qN.length = bN := by rw [hqN]; simp; omega
          have hbad : ¬ (left = mle (V (j + 1)) (qL ++ qN) ∧ right = mle (V (j + 1)) (qR ++ qN)) := by
            rintro ⟨e1, e2⟩
            apply hde
            rw [c3, hρl, Nat.sub_self, cubeSum, List.append_nil]
            unfold valueAt goalSummand
            dsimp only
            rw [e1, e2]
          have key : ∀ a, ¬ Doomed bN bG layers U T V (step bN bG layers U (.layer (j + 1) t ρ e) [left, right] a) →
              left + a * right = mle (V (j + 1)) (qL ++ qN) + a * mle (V (j + 1)) (qR ++ qN) := by
            intro a ha
            by_contra hcon
            apply ha
            unfold step
            dsimp only
            rw [hl]
            dsimp only
            rw [if_neg c1, if_pos c3]
            intro l'' hl''
            rw [hl'] at hl''
            obtain rfl := Option.some.inj hl''
            have hg := goal_below hgl' (V j) bN qL qR qN (left + a * right) a lL lR lN
            rw [← hV.below j l' l hl' hl] at hg
            simp only [List.length_nil, Nat.sub_zero, List.nil_append]
            unfold goalAfter
            rw [hg]
            exact hcon
          apply hone
          intro a b ha hb
          by_contra hab
          have ka := key a ha
          have kb := key b hb
          have h3 : (a - b) * (right - mle (V (j + 1)) (qR ++ qN)) = 0 := by linear_combination ka - kb
          rcases mul_eq_zero.1 h3 with h3 | h3
          · exact hab (sub_eq_zero.1 h3)
          · apply hbad
            refine ⟨?_, sub_eq_zero.1 h3⟩
            linear_combination ka - a * h3

end

end GkrMimc
