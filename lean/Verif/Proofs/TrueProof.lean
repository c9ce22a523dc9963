import Verif.Proofs.GkrHonest
import Verif.Spec.TrueProof

/-! A proof that passes all checks without an unlucky challenge says the truth everywhere, and there is only one such proof. -/

set_option linter.unusedSectionVars false

namespace GkrMimc

open Spec Finset Polynomial

variable {F : Type} [Field F] [DecidableEq F]

/-- An unlucky round, for any function summed. -/
def UnluckyRound (H : List F → F) (cs : List (List F)) (g : List F → F) (d : Nat) : Prop :=
  ∃ (i : Nat) (hi : i < cs.length) (Q : F[X]), Q.natDegree ≤ d ∧
    (∀ x, Q.eval x = cubeSum (cs.length - 1 - i) (fun b => g ((cs.map H).take i ++ x :: b))) ∧
    polyOf cs[i] ≠ Q ∧ (polyOf cs[i]).eval (H cs[i]) = Q.eval (H cs[i])

/-- Rounds that pass all checks, with the right value at the end and without an unlucky challenge, are the partial sums. -/
theorem true_core (H : List F → F) (d : Nat) (cs : List (List F)) : ∀ (g : List F → F) (claim : F),
    (∀ pre : List F, pre.length < cs.length →
      PolyLe d (fun x => cubeSum (cs.length - 1 - pre.length) (fun b => g (pre ++ x :: b)))) →
    Consistent H cs claim → lastValue H cs claim = g (cs.map H) → ¬ UnluckyRound H cs g d → TrueSums H cs g := by
  induction cs with
  | nil => intro g claim _ _ _ _ j c hc; simp at hc
  | cons c cs ih =>
    intro g claim hp h2 h3 hb
    have tail : ∀ pre : List F, pre.length < cs.length →
        PolyLe d (fun x => cubeSum (cs.length - 1 - pre.length) (fun b => g (H c :: (pre ++ x :: b)))) := by
      intro pre hpre
      have := hp (H c :: pre) (by simpa using hpre)
      simp only [List.length_cons] at this
      have e : cs.length + 1 - 1 - (pre.length + 1) = cs.length - 1 - pre.length := by omega
      rw [e] at this
      exact this
    have lift : UnluckyRound H cs (fun b => g (H c :: b)) d → UnluckyRound H (c :: cs) g d := by
      rintro ⟨i, hi, Q, h4, h5, h6, h7⟩
      refine ⟨i + 1, by simpa using hi, Q, h4, ?_, h6, h7⟩
      intro x
      rw [h5]
      have e : (c :: cs).length - 1 - (i + 1) = cs.length - 1 - i := by simp; omega
      rw [e]; rfl
    obtain ⟨Q, hQd, hQ⟩ := hp [] (by simp)
    simp only [List.length_nil, List.length_cons, Nat.add_sub_cancel, Nat.sub_zero, List.nil_append] at hQ hQd
    have hc : polyOf c = Q := by
      by_contra hne
      by_cases he : (polyOf c).eval (H c) = Q.eval (H c)
      · exact hb ⟨0, by simp, Q, hQd, by simpa using hQ, hne, he⟩
      · exact hb (lift (sound_core H cs (fun b => g (H c :: b)) (fun _ => d) _ tail (by rw [← hQ]; exact he) h2.2 h3))
    have rest := ih (fun b => g (H c :: b)) _ tail h2.2 h3 (fun h => hb (lift h))
    intro j p hj x
    rcases j with _ | j
    · simp only [List.getElem?_cons_zero, Option.some.injEq] at hj
      subst hj
      rw [hc, hQ]
      simp
    · rw [List.getElem?_cons_succ] at hj
      rw [rest j p hj x]
      have e : (c :: cs).length - 1 - (j + 1) = cs.length - 1 - j := by simp; omega
      rw [e]; rfl

/-- Short coefficient lists with the same values are equal. -/
theorem polyOf_inj [SmallCasts F] {c d : List F} (hl : c.length = d.length) (h13 : c.length ≤ 13)
    (h : ∀ x, (polyOf c).eval x = (polyOf d).eval x) : c = d := by
  rcases Nat.eq_zero_or_pos c.length with h0 | h0
  · exact (List.eq_nil_of_length_eq_zero h0).trans (List.eq_nil_of_length_eq_zero (hl.symm.trans h0)).symm
  have hc : c ≠ [] := List.ne_nil_of_length_pos h0
  have hd : d ≠ [] := List.ne_nil_of_length_pos (hl ▸ h0)
  have e : polyOf c = polyOf d := by
    have n1 := polyOf_natDegree c hc
    have n2 := polyOf_natDegree d hd
    refine eq_of_natDegree_lt_card_of_eval_eq (ι := Fin c.length) _ _ (f := fun i => ((i : Nat) : F)) ?_ (fun i => h _) ?_
    · intro i j hij
      exact Fin.ext (SmallCasts.inj _ _ (by omega) (by omega) hij)
    · rw [Fintype.card_fin]
      omega
  apply List.ext_getElem hl
  intro i h1 h2
  have := congrArg (fun P : F[X] => P.coeff i) e
  simp only [polyOf, finsetSum_coeff, coeff_C_mul, coeff_X_pow] at this
  simpa [List.getD_eq_getElem?_getD, h1, h2] using this

/-- Two lists of partial sums of the same function, with the same numbers of coefficients. -/
theorem trueSums_unique [SmallCasts F] {H : List F → F} {cs ds : List (List F)} {g : List F → F} (h1 : TrueSums H cs g)
    (h2 : TrueSums H ds g) (hl : cs.map List.length = ds.map List.length) (h13 : ∀ c ∈ cs, c.length ≤ 13) : cs = ds := by
  have hlen : cs.length = ds.length := by simpa using congrArg List.length hl
  have key : ∀ j, cs.take j = ds.take j := by
    intro j
    induction j with
    | zero => simp
    | succ j ih =>
      rcases Nat.lt_or_ge j cs.length with hj | hj
      · rw [List.take_succ_eq_append_getElem hj, List.take_succ_eq_append_getElem (by omega), ih]
        congr 2
        refine polyOf_inj ?_ (h13 _ (List.getElem_mem _)) fun x => ?_
        · have := congrArg (fun l => l[j]?) hl
          simpa [hj, show j < ds.length by omega] using this
        · rw [h1 j _ (List.getElem?_eq_getElem hj) x, h2 j _ (List.getElem?_eq_getElem (by omega)) x, hlen, ← List.map_take,
            ← List.map_take, ih]
      · rw [List.take_of_length_le (by omega), List.take_of_length_le (by omega)] at ih
        rw [List.take_of_length_le (by omega), List.take_of_length_le (by omega), ih]
  have := key cs.length
  rwa [List.take_of_length_le (le_refl _), List.take_of_length_le (by omega)] at this

/-- A wrong claim about the inputs of a layer that does not cancel is a wrong goal for the layer below. -/
theorem wrong_below (H : List F → F) (c : Circuit F) (proof : GkrProof F) (top : Goal F) (k m : Nat)
    (values : List (List (List F))) (hA : HonestAssignment c k m values) (n : Nat) (l l' : Layer F) (v v' : List (List F))
    (hl : c.layers[n + 1]? = some l) (hv : values[n + 1]? = some v) (hl' : c.layers[n]? = some l') (hv' : values[n]? = some v')
    (hlen : (msgOf proof (n + 1)).rounds.length = 2 * l.bGInputs + (m + k))
    (hbad : ¬ BadCombination H l.bGInputs (tableOf k m l v) (msgOf proof (n + 1)))
    (h : ¬ ((msgOf proof (n + 1)).left = mle (tableOf k m l v) ((msgOf proof (n + 1)).qL H l.bGInputs ++ (msgOf proof (n + 1)).qN H l.bGInputs) ∧
      (msgOf proof (n + 1)).right = mle (tableOf k m l v) ((msgOf proof (n + 1)).qR H l.bGInputs ++ (msgOf proof (n + 1)).qN H l.bGInputs))) :
    (goalOf H c.layers proof top n).claim ≠ cubeSum (2 * l'.bGInputs + (m + k))
      (goalSummand l' (tableOf k m l' v') (goalOf H c.layers proof top n)) := by
  have hgl := hA.good l' (List.mem_of_getElem? hl')
  have hbG := hA.chained n l' l hl' hl
  have hgoal : goalOf H c.layers proof top n = goalBelow H l.bGInputs (msgOf proof (n + 1)) := by
    unfold goalOf; rw [hl]
  have hwv := hA.wired n l' v' hl' hv'
  rw [hv] at hwv
  have hwv := Option.some.inj hwv
  have hVV : tableOf k m l v = wiredOutputs l'.wires (2 ^ (m + k)) (2 ^ l'.bGOutputs) (tableOf k m l' v') := by
    unfold tableOf
    rw [hwv, ← hbG]
    exact interleave_wired l'.wires k m l'.bGInputs l'.bGOutputs v' (hA.chunked n l' v' hl' hv')
      (fun w hw => ⟨(hgl.inRange w hw).1, (hgl.inRange w hw).2.1⟩)
  rw [hgoal]
  unfold goalBelow
  rw [goal_below hgl (tableOf k m l' v') (m + k) _ _ _ _ _
    (by rw [Msg.qL_length (by omega), hbG]) (by rw [Msg.qR_length (by omega), hbG]) (by rw [Msg.qN_length]; omega), ← hVV]
  intro heq
  apply hbad
  unfold BadCombination
  refine ⟨?_, ?_⟩
  · rintro ⟨e1, e2⟩
    exact h ⟨sub_eq_zero.1 e1, sub_eq_zero.1 e2⟩
  · linear_combination heq

/-- A proof that passes all checks without an unlucky challenge says the truth at every layer. -/
theorem true_down (H : List F → F) (c : Circuit F) (proof : GkrProof F) (top : Goal F) (k m : Nat)
    (values : List (List (List F))) (hA : HonestAssignment c k m values) (inputs : List (List F))
    (hin : values[0]? = some inputs) (l0 : Layer F) (hl0 : c.layers[0]? = some l0) (D : Nat)
    (hD : ∀ l ∈ c.layers, DegreesLe D l.gates) (htop : top.point.length = m + k)
    (hG : GkrConsistent H (m + k) c.layers proof (tableOf k m l0 inputs) top)
    (hgood : ¬ ∃ (i : Nat) (l : Layer F) (v : List (List F)), c.layers[i]? = some l ∧ values[i]? = some v ∧
      (BadRound H l (tableOf k m l v) (goalOf H c.layers proof top i) (msgOf proof i) (D + 1) ∨
        BadCombination H l.bGInputs (tableOf k m l v) (msgOf proof i)))
    (i : Nat) (l : Layer F) (v : List (List F)) (hl : c.layers[i]? = some l) (hv : values[i]? = some v) :
    TrueMsg H l (tableOf k m l v) (goalOf H c.layers proof top i) (msgOf proof i) := by
  obtain ⟨hlen, hpt⟩ := consistent_lengths H c.layers proof top _ htop _ hG
  have hclaims : (msgOf proof i).left = mle (tableOf k m l v) ((msgOf proof i).qL H l.bGInputs ++ (msgOf proof i).qN H l.bGInputs) ∧
      (msgOf proof i).right = mle (tableOf k m l v) ((msgOf proof i).qR H l.bGInputs ++ (msgOf proof i).qN H l.bGInputs) := by
    rcases i with _ | n
    · rw [hl0] at hl
      obtain rfl := Option.some.inj hl
      rw [hin] at hv
      obtain rfl := Option.some.inj hv
      obtain ⟨_, i1, i2⟩ := hG.first l0 hl0
      exact ⟨i1.symm, i2.symm⟩
    · by_contra h
      have hlt : n + 1 < c.layers.length := (List.getElem?_eq_some_iff.1 hl).1
      obtain ⟨l', hl'⟩ : ∃ l', c.layers[n]? = some l' := ⟨_, List.getElem?_eq_getElem (by omega)⟩
      obtain ⟨v', hv'⟩ : ∃ v', values[n]? = some v' := ⟨_, List.getElem?_eq_getElem (by rw [hA.lengths]; omega)⟩
      exact hgood (sound_down H c proof top k m values hA inputs hin l0 hl0 D hD hG hlen hpt n l' v' hl' hv'
        (wrong_below H c proof top k m values hA n l l' v v' hl hv hl' hv' (hlen _ l hl)
          (fun hb => hgood ⟨n + 1, l, v, hl, hv, .inr hb⟩) h))
  refine ⟨?_, hclaims⟩
  obtain ⟨h1, h2⟩ := hG.each i l hl
  have hp := hpt i l hl
  have hr := hlen i l hl
  have hgl := hA.good l (List.mem_of_getElem? hl)
  set t := goalOf H c.layers proof top i with ht
  refine true_core H (D + 1) _ _ t.claim ?_ h1.2.2 ?_ fun hb => hgood ⟨i, l, v, hl, hv, .inl hb⟩
  · intro pre hpre
    have := (PolyLe.cubeSum ((msgOf proof i).rounds.length - 1 - pre.length) (fun x b => summand l.gates l.bGInputs
      (tableOf k m l v) (tableOf k m l v) (tab (2 ^ t.point.length) (chi t.point)) (l.gates.map fun g => tab (2 ^ (2 * l.bGInputs))
        (staticW l.wires g.id t.weight l.bGInputs)) (pre ++ x :: b))
      (fun b _ => summand_poly l.gates hgl.lawful l.bGInputs _ _ _ _ pre b)).mono
        (summandDeg_le (hD l (List.mem_of_getElem? hl)) _ _)
    refine (congrArg (PolyLe (D + 1)) ?_).mp this
    funext x
    apply cubeSum_congr
    intro b hb
    rw [goalSummand_eq hgl]
    simp [hb]; omega
  · rw [show lastValue H (msgOf proof i).rounds t.claim = _ from h2]
    unfold goalSummand
    rw [hclaims.1, hclaims.2]
    rfl

/-- Proofs of the right shape with the same messages are the same. -/
theorem proof_ext (c : Circuit F) (n : Nat) (a b : GkrProof F) (ha : ProofShape c n a) (hb : ProofShape c n b)
    (all : ∀ i, i < c.layers.length → msgOf a i = msgOf b i) : a = b := by
  cases a with
  | mk a1 a2 a3 =>
  cases b with
  | mk b1 b2 b3 =>
  obtain ⟨x1, x2, x3, _⟩ := ha
  obtain ⟨y1, y2, y3, _⟩ := hb
  simp only at x1 x2 x3 y1 y2 y3
  simp only [msgOf, Msg.mk.injEq] at all
  congr 1
  · apply List.ext_getElem (by omega)
    intro i h1 h2
    simpa [h1, h2] using (all i (by omega)).1
  · apply List.ext_getElem (by omega)
    intro i h1 h2
    simpa [h1, h2] using (all i (by omega)).2.1
  · apply List.ext_getElem (by omega)
    intro i h1 h2
    simpa [h1, h2] using (all i (by omega)).2.2

/-- Two proofs of the right shape that say the truth about the same tables at every layer, for goals about the same point, are
equal. -/
theorem true_unique_tables [SmallCasts F] (H : List F → F) (c : Circuit F) (n : Nat) (T : Nat → List F)
    (hd : ∀ l ∈ c.layers, DegreesOk l.gates) (a b : GkrProof F) (s t : Goal F)
    (hpoint : s.point = t.point) (hweight : s.weight = t.weight)
    (ha : ProofShape c n a) (hb : ProofShape c n b)
    (ta : ∀ (i : Nat) (l : Layer F), c.layers[i]? = some l → TrueMsg H l (T i) (goalOf H c.layers a s i) (msgOf a i))
    (tb : ∀ (i : Nat) (l : Layer F), c.layers[i]? = some l → TrueMsg H l (T i) (goalOf H c.layers b t i) (msgOf b i)) :
    a = b := by
  have key : ∀ j i, i + 1 + j = c.layers.length → msgOf a i = msgOf b i := by
    intro j
    induction j with
    | zero => ?_
    | succ j ih => ?_
    all_goals
      intro i hi
      obtain ⟨l, hl⟩ : ∃ l, c.layers[i]? = some l := ⟨_, List.getElem?_eq_getElem (by omega)⟩
      have hgoal : (goalOf H c.layers a s i).point = (goalOf H c.layers b t i).point ∧
          (goalOf H c.layers a s i).weight = (goalOf H c.layers b t i).weight := by
        first
        | (have e := ih (i + 1) (by omega)
           unfold goalOf
           rw [e]
           cases c.layers[i + 1]? with
           | none => exact ⟨hpoint, hweight⟩
           | some l => exact ⟨rfl, rfl⟩)
        | (unfold goalOf
           rw [List.getElem?_eq_none (by omega)]
           exact ⟨hpoint, hweight⟩)
      obtain ⟨a1, a2, a3⟩ := ta i l hl
      obtain ⟨b1, b2, b3⟩ := tb i l hl
      have hg : goalSummand l (T i) (goalOf H c.layers a s i) =
          goalSummand l (T i) (goalOf H c.layers b t i) := by
        funext x
        unfold goalSummand
        rw [hgoal.1, hgoal.2]
      rw [hg] at a1
      have hia : i < a.sumcheckProofs.length := by rw [ha.rounds]; omega
      have hib : i < b.sumcheckProofs.length := by rw [hb.rounds]; omega
      have sa := ha.each i l _ hl (List.getElem?_eq_getElem hia)
      have sb := hb.each i l _ hl (List.getElem?_eq_getElem hib)
      have ea : (msgOf a i).rounds = a.sumcheckProofs[i] := by simp [msgOf, hia]
      have eb : (msgOf b i).rounds = b.sumcheckProofs[i] := by simp [msgOf, hib]
      have hr : (msgOf a i).rounds = (msgOf b i).rounds := by
        refine trueSums_unique a1 b1 (by rw [ea, eb]; exact sa.trans sb.symm) ?_
        intro p hp
        have hmem : p.length ∈ (msgOf a i).rounds.map List.length := List.mem_map_of_mem hp
        rw [ea, show a.sumcheckProofs[i].map List.length = _ from sa] at hmem
        have := (hd l (List.mem_of_getElem? hl)).bounds
        simp only [List.mem_append, List.mem_replicate] at hmem
        omega
      have hL : (msgOf a i).left = (msgOf b i).left := by
        rw [a2, b2]; unfold Msg.qL Msg.qN; rw [hr]
      have hR : (msgOf a i).right = (msgOf b i).right := by
        rw [a3, b3]; unfold Msg.qR Msg.qN; rw [hr]
      cases ha' : msgOf a i
      cases hb' : msgOf b i
      rw [ha', hb'] at hr hL hR
      simp only at hr hL hR
      rw [hr, hL, hR]
  have all : ∀ i, i < c.layers.length → msgOf a i = msgOf b i := fun i hi => key (c.layers.length - 1 - i) i (by omega)
  exact proof_ext c n a b ha hb all

/-- Two proofs of the right shape that say the truth at every layer, for goals about the same point, are equal. -/
theorem true_unique [SmallCasts F] (H : List F → F) (c : Circuit F) (n : Nat) (values : List (List (List F))) (k m : Nat)
    (hvals : values.length = c.layers.length + 1) (hd : ∀ l ∈ c.layers, DegreesOk l.gates) (a b : GkrProof F) (s t : Goal F)
    (hpoint : s.point = t.point) (hweight : s.weight = t.weight)
    (ha : ProofShape c n a) (hb : ProofShape c n b)
    (ta : ∀ (i : Nat) (l : Layer F) (v : List (List F)), c.layers[i]? = some l → values[i]? = some v →
      TrueMsg H l (tableOf k m l v) (goalOf H c.layers a s i) (msgOf a i))
    (tb : ∀ (i : Nat) (l : Layer F) (v : List (List F)), c.layers[i]? = some l → values[i]? = some v →
      TrueMsg H l (tableOf k m l v) (goalOf H c.layers b t i) (msgOf b i)) : a = b := by
  refine true_unique_tables H c n (fun i => match c.layers[i]?, values[i]? with
    | some l, some v => tableOf k m l v
    | _, _ => []) hd a b s t hpoint hweight ha hb ?_ ?_
  all_goals
    intro i l hl
    have hi : i < c.layers.length := (List.getElem?_eq_some_iff.1 hl).1
    obtain ⟨v, hv⟩ : ∃ v, values[i]? = some v := ⟨_, List.getElem?_eq_getElem (by omega)⟩
    simp only [hl, hv]
  · exact ta i l v hl hv
  · exact tb i l v hl hv

end GkrMimc
