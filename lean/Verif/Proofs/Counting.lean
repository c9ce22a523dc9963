import Verif.Props.GkrSound
import Verif.Spec.PublicCoin
import Mathlib.Data.Fintype.BigOperators
import Mathlib.Data.Fintype.Pi

/-! Counting the challenge vectors that let a cheating prover through. -/

set_option linter.unusedSectionVars false

namespace GkrMimc

open Spec Finset Polynomial

section
variable {F : Type}

theorem ofFn_insertNth_take {n : Nat} (i : Fin (n + 1)) (x : F) (p : Fin n → F) :
    (List.ofFn (i.insertNth (α := fun _ => F) x p)).take i = (List.ofFn p).take i := by
  apply List.ext_getElem
  · simp; omega
  intro j h1 h2
  simp only [List.length_take, List.length_ofFn] at h1 h2
  have hj : (⟨j, by omega⟩ : Fin (n + 1)) < i := by
    rw [Fin.lt_def]; simp only; omega
  simp only [List.getElem_take, List.getElem_ofFn]
  rw [Fin.insertNth_apply_below hj]
  simp
  rfl

theorem count_eq {α : Type} [Fintype α] (p : α → Prop) [DecidablePred p] : count p = (univ.filter p).card := by
  unfold count
  congr

theorem count_mono {α : Type} [Fintype α] {p q : α → Prop} (h : ∀ x, p x → q x) : count p ≤ count q := by
  classical
  rw [count_eq, count_eq]
  exact card_le_card fun x hx => mem_filter.2 ⟨mem_univ _, h x (mem_filter.1 hx).2⟩

theorem count_le_card {α : Type} [Fintype α] (p : α → Prop) : count p ≤ Fintype.card α := card_le_univ _

theorem count_false {α : Type} [Fintype α] {p : α → Prop} (h : ∀ x, ¬ p x) : count p = 0 := by
  classical
  rw [count_eq, filter_eq_empty_iff.2 fun x _ => h x, card_empty]

theorem count_prod {α β : Type} [Fintype α] [Fintype β] (p : α × β → Prop) : count p = ∑ a : α, count fun b => p (a, b) := by
  classical
  rw [count_eq, card_filter, Fintype.sum_prod_type]
  apply sum_congr rfl
  intro a _
  rw [count_eq, card_filter]

theorem count_equiv {α β : Type} [Fintype α] [Fintype β] (e : α ≃ β) (p : β → Prop) : count p = count fun a => p (e a) := by
  classical
  rw [count_eq, count_eq, card_filter, card_filter, ← e.sum_comp]

variable [Fintype F]

/-- One bad coordinate: if for each prefix at most `d` values are bad, then few vectors have a bad coordinate `i`. -/
theorem count_one {n : Nat} (i : Fin (n + 1)) (Bad : List F → F → Prop) (d : Nat)
    (h : ∀ pre : List F, count (Bad pre) ≤ d) :
    count (fun ρ : Fin (n + 1) → F => Bad ((List.ofFn ρ).take i) (ρ i)) ≤ d * Fintype.card F ^ n := by
  rw [count_equiv (Fin.insertNthEquiv (fun _ => F) i), count_equiv (Equiv.prodComm _ _), count_prod]
  calc _ = ∑ p : Fin n → F, count (Bad ((List.ofFn p).take i)) := by
        apply sum_congr rfl
        intro p _
        congr 1
        funext x
        change Bad ((List.ofFn (i.insertNth (α := fun _ => F) x p)).take i) (i.insertNth (α := fun _ => F) x p i) = _
        rw [ofFn_insertNth_take, Fin.insertNth_apply_same]
    _ ≤ ∑ _p : Fin n → F, d := sum_le_sum fun p _ => h _
    _ = _ := by simp [mul_comm]

/-- The union bound over a family of bad events, each about one coordinate. -/
theorem count_family [Zero F] {ι : Type} (A : Finset ι) (n : Nat) (pos : ι → Nat) (hpos : ∀ a ∈ A, pos a < n)
    (Bad : ι → List F → F → Prop) (d : Nat) (h : ∀ a ∈ A, ∀ pre : List F, count (Bad a pre) ≤ d) :
    count (fun ρ : Fin n → F => ∃ a ∈ A, Bad a ((List.ofFn ρ).take (pos a)) ((List.ofFn ρ).getD (pos a) 0)) ≤
      A.card * d * Fintype.card F ^ (n - 1) := by
  classical
  rcases n with _ | n
  · rw [count_false]
    · exact Nat.zero_le _
    · rintro ρ ⟨a, ha, _⟩
      exact absurd (hpos a ha) (by omega)
  calc _ ≤ ∑ a ∈ A, count (fun ρ : Fin (n + 1) → F => Bad a ((List.ofFn ρ).take (pos a)) ((List.ofFn ρ).getD (pos a) 0)) := by
        simp only [count_eq]
        refine le_trans (card_le_card ?_) card_biUnion_le
        intro ρ hρ
        obtain ⟨a, ha, hb⟩ := (mem_filter.1 hρ).2
        exact mem_biUnion.2 ⟨a, ha, mem_filter.2 ⟨mem_univ _, hb⟩⟩
    _ ≤ ∑ _a ∈ A, d * Fintype.card F ^ n := by
        apply sum_le_sum
        intro a ha
        refine le_trans (count_mono ?_) (count_one ⟨pos a, hpos a ha⟩ (Bad a) d (h a ha))
        intro ρ hb
        rwa [show (List.ofFn ρ).getD (pos a) 0 = ρ ⟨pos a, hpos a ha⟩ by
          rw [List.getD_eq_getElem?_getD, List.getElem?_ofFn, dif_pos (hpos a ha)]; rfl] at hb
    _ = _ := by rw [sum_const, smul_eq_mul, mul_assoc]; rfl

end

variable {F : Type} [Field F] [DecidableEq F] [Fintype F]

/-- A polynomial given by at most `D + 1` coefficients that differs from some polynomial with the values of `f` and of degree
at most `D` agrees with `f` at no more than `D` points. -/
theorem count_agree (c : List F) (hc : c ≠ []) (D : Nat) (hl : c.length ≤ D + 1) (f : F → F) :
    count (fun x => ∃ Q : F[X], Q.natDegree ≤ D ∧ (∀ y, Q.eval y = f y) ∧ polyOf c ≠ Q ∧
      (polyOf c).eval x = Q.eval x) ≤ D := by
  classical
  by_cases h : ∃ Q : F[X], Q.natDegree ≤ D ∧ (∀ y, Q.eval y = f y) ∧ polyOf c ≠ Q
  · obtain ⟨Q, h1, h2, h3⟩ := h
    rw [count_eq]
    have h4 := few_agreements _ _ h3 (univ.filter fun x => ∃ Q : F[X], Q.natDegree ≤ D ∧ (∀ y, Q.eval y = f y) ∧
      polyOf c ≠ Q ∧ (polyOf c).eval x = Q.eval x) (by
        intro x hx
        obtain ⟨Q', _, q2, _, q4⟩ := (mem_filter.1 hx).2
        rw [q4, q2, h2])
    have h5 := polyOf_natDegree c hc
    omega
  · rw [count_false]
    · exact Nat.zero_le _
    · rintro x ⟨Q, q1, q2, q3, _⟩
      exact h ⟨Q, q1, q2, q3⟩

theorem playSumcheck_get (P : List F → List F) (ρ : List F) (i : Nat) (h : i < (playSumcheck P ρ).length) :
    (playSumcheck P ρ)[i] = P (ρ.take i) := by simp [playSumcheck]

theorem playSumcheck_map (P : List F → List F) (H : List F → F) (ρ : List F) (h : DrawnSumcheck P H ρ) :
    (playSumcheck P ρ).map H = ρ := by
  apply List.ext_getElem
  · simp [playSumcheck]
  intro i h1 h2
  rw [List.getElem_map, playSumcheck_get, h i h2, List.getD_eq_getElem _ _ h2]

/-! ### GKR -/

section
variable (P : Cheater F) (bN : Nat) (layers : List (Layer F)) (H : List F → F) (ρ : List F)

theorem roundsOf_some {i : Nat} {l : Layer F} (hl : layers[i]? = some l) : roundsOf bN layers i = 2 * l.bGInputs + bN := by
  simp [roundsOf, hl]

theorem offset_succ {i : Nat} {l : Layer F} (hl : layers[i + 1]? = some l) :
    offset bN layers i = offset bN layers (i + 1) + roundsOf bN layers (i + 1) + 1 := by
  have hlt := (List.getElem?_eq_some_iff.1 hl).1
  have he := (List.getElem?_eq_some_iff.1 hl).2
  unfold offset
  rw [List.drop_eq_getElem_cons hlt, List.map_cons, List.sum_cons, roundsOf_some bN layers hl, he]
  omega

theorem offset_le (i : Nat) : offset bN layers (i + 1) ≤ offset bN layers i := by
  rcases h : layers[i + 1]? with _ | l
  · unfold offset
    have := List.getElem?_eq_none_iff.1 h
    rw [List.drop_eq_nil_of_le (by omega)]
    simp
  · have := offset_succ bN layers h
    omega

theorem offset_le_zero (i : Nat) : offset bN layers i ≤ offset bN layers 0 := by
  induction i with
  | zero => exact le_rfl
  | succ i ih => exact (offset_le bN layers i).trans ih

theorem offset_coins {i : Nat} {l : Layer F} (hl : layers[i]? = some l) :
    offset bN layers i + roundsOf bN layers i + (if i = 0 then 0 else 1) ≤ coins bN layers := by
  unfold coins
  rcases i with _ | i
  · simp
  · have h1 := offset_succ bN layers hl
    have h2 := offset_le_zero bN layers i
    simp only [Nat.add_eq_zero_iff, one_ne_zero, and_false, if_false]
    omega

theorem play_rounds {i : Nat} (hi : i < layers.length) : (msgOf (P.play bN layers ρ) i).rounds =
    (List.range (roundsOf bN layers i)).map fun j => P.poly (ρ.take (offset bN layers i + j)) := by
  simp [msgOf, Cheater.play, List.getD_eq_getElem?_getD, List.getElem?_range hi]

theorem play_left {i : Nat} (hi : i < layers.length) : (msgOf (P.play bN layers ρ) i).left =
    (P.claims (ρ.take (offset bN layers i + roundsOf bN layers i))).1 := by
  simp [msgOf, Cheater.play, List.getD_eq_getElem?_getD, List.getElem?_range hi]

theorem play_right {i : Nat} (hi : i < layers.length) : (msgOf (P.play bN layers ρ) i).right =
    (P.claims (ρ.take (offset bN layers i + roundsOf bN layers i))).2 := by
  simp [msgOf, Cheater.play, List.getD_eq_getElem?_getD, List.getElem?_range hi]

theorem play_map (h : P.Drawn bN layers H ρ) (hlen : ρ.length = coins bN layers) {i : Nat} (hi : i < layers.length) :
    (msgOf (P.play bN layers ρ) i).rounds.map H = (ρ.drop (offset bN layers i)).take (roundsOf bN layers i) := by
  rw [play_rounds P bN layers ρ hi, List.map_map]
  have hc := offset_coins bN layers (List.getElem?_eq_getElem hi)
  apply List.ext_getElem
  · simp; omega
  intro j h1 h2
  simp only [List.length_map, List.length_range] at h1
  have hj : offset bN layers i + j < ρ.length := by omega
  simp only [List.getElem_map, List.getElem_range, Function.comp_apply, List.getElem_take, List.getElem_drop]
  rw [(h i hi).1 j h1, List.getD_eq_getElem _ _ hj]

/-- The goal of layer `i` as a function of the challenges before it. -/
def stratGoal (top : Goal F) (i : Nat) (pre : List F) : Goal F :=
  match layers[i + 1]? with
  | some l =>
    let o := offset bN layers (i + 1)
    let s := roundsOf bN layers (i + 1)
    let pt := (pre.drop o).take s
    let cl := P.claims (pre.take (o + s))
    let lam := pre.getD (o + s) 0
    ⟨cl.1 + lam * cl.2, pt.drop (2 * l.bGInputs),
      fun O => chi (pt.take l.bGInputs) O + lam * chi ((pt.drop l.bGInputs).take l.bGInputs) O⟩
  | none => top

theorem goalOf_play (h : P.Drawn bN layers H ρ) (hlen : ρ.length = coins bN layers) (top : Goal F) (i : Nat) :
    goalOf H layers (P.play bN layers ρ) top i = stratGoal P bN layers top i (ρ.take (offset bN layers i)) := by
  unfold goalOf stratGoal
  rcases hl : layers[i + 1]? with _ | l
  · rfl
  · dsimp only
    have hi := (List.getElem?_eq_some_iff.1 hl).1
    have ho := offset_succ bN layers hl
    have hc := offset_coins bN layers hl
    simp only [Nat.add_eq_zero_iff, one_ne_zero, and_false, if_false] at hc
    unfold goalBelow Msg.qN Msg.qL Msg.qR
    rw [play_map P bN layers H ρ h hlen hi, play_left P bN layers ρ hi, play_right P bN layers ρ hi,
      (h (i + 1) hi).2 (by omega)]
    have e1 : ((ρ.take (offset bN layers i)).drop (offset bN layers (i + 1))).take (roundsOf bN layers (i + 1)) =
        (ρ.drop (offset bN layers (i + 1))).take (roundsOf bN layers (i + 1)) := by
      rw [List.drop_take, List.take_take, min_eq_left (by omega)]
    have e2 : (ρ.take (offset bN layers i)).take (offset bN layers (i + 1) + roundsOf bN layers (i + 1)) =
        ρ.take (offset bN layers (i + 1) + roundsOf bN layers (i + 1)) := by
      rw [List.take_take, min_eq_left (by omega)]
    have e3 : (ρ.take (offset bN layers i)).getD (offset bN layers (i + 1) + roundsOf bN layers (i + 1)) 0 =
        ρ.getD (offset bN layers (i + 1) + roundsOf bN layers (i + 1)) 0 := by
      simp only [List.getD_eq_getElem?_getD]
      rw [List.getElem?_take, if_pos (by omega)]
    rw [e1, e2, e3]

/-- The bad event at round `j` of layer `i`, or (for `j` the number of rounds) at the combination of its claims. -/
def BadAt (top : Goal F) (D : Nat) (V : List F) (l : Layer F) (i j : Nat) (pre : List F) (x : F) : Prop :=
  let o := offset bN layers i
  let s := roundsOf bN layers i
  if j < s then
    P.poly pre ≠ [] ∧ ∃ Q : F[X], Q.natDegree ≤ D ∧
      (∀ y, Q.eval y = cubeSum (s - 1 - j) (fun b => goalSummand l V (stratGoal P bN layers top i (pre.take o))
        ((pre.drop o).take j ++ y :: b))) ∧
      polyOf (P.poly pre) ≠ Q ∧ (polyOf (P.poly pre)).eval x = Q.eval x
  else
    let pt := (pre.drop o).take s
    let qN := pt.drop (2 * l.bGInputs)
    let a := (P.claims pre).1 - mle V (pt.take l.bGInputs ++ qN)
    let b := (P.claims pre).2 - mle V ((pt.drop l.bGInputs).take l.bGInputs ++ qN)
    ¬ (a = 0 ∧ b = 0) ∧ a + x * b = 0

theorem BadAt_count (top : Goal F) (D : Nat) (hD : 1 ≤ D) (V : List F) (l : Layer F) (i j : Nat) (pre : List F)
    (hP : (P.poly pre).length ≤ D + 1) : count (BadAt P bN layers top D V l i j pre) ≤ D := by
  classical
  unfold BadAt
  dsimp only
  by_cases hj : j < roundsOf bN layers i
  · simp only [if_pos hj]
    by_cases hc : P.poly pre = []
    · rw [count_false fun x h => h.1 hc]
      exact Nat.zero_le _
    · exact le_trans (count_mono fun x h => h.2) (count_agree _ hc D hP _)
  · simp only [if_neg hj]
    rw [count_eq]
    refine le_trans (card_le_one.2 ?_) hD
    intro x hx y hy
    obtain ⟨h1, h2⟩ := (mem_filter.1 hx).2
    obtain ⟨_, h3⟩ := (mem_filter.1 hy).2
    exact C23_unlucky_combination _ _ _ _ h1 h2 h3

end

/-- The positions of all challenges. -/
def coinIndex (bN : Nat) (layers : List (Layer F)) : Finset (Σ _ : Nat, Nat) :=
  (range layers.length).sigma fun i => range (roundsOf bN layers i + if i = 0 then 0 else 1)

theorem coinIndex_card (bN : Nat) (layers : List (Layer F)) : (coinIndex bN layers).card = coins bN layers := by
  unfold coinIndex coins
  rw [card_sigma]
  simp only [card_range]
  rcases layers with _ | ⟨l0, ls⟩
  · simp [offset, roundsOf]
  · rw [List.length_cons, sum_range_succ']
    simp only [Nat.add_eq_zero_iff, one_ne_zero, and_false, if_false, if_true, Nat.add_zero]
    congr 1
    simp only [offset, Nat.zero_add, List.drop_succ_cons, List.drop_zero]
    have : ∀ ls : List (Layer F), ∑ i ∈ range ls.length, (roundsOf bN ls i + 1) =
        (ls.map fun l => 2 * l.bGInputs + bN + 1).sum := by
      intro ls
      induction ls with
      | nil => rfl
      | cons l ls ih =>
        rw [List.length_cons, sum_range_succ', List.map_cons, List.sum_cons, ← ih, add_comm]
        simp [roundsOf]
    rw [← this]
    simp [roundsOf]

/-- The number of challenge vectors for which all checks pass although some challenge is unlucky, for any circuit and its values. -/
theorem gkr_bad_count (P : Cheater F) (c : Circuit F) (k m : Nat) (values : List (List (List F))) (inputs : List (List F))
    (hin : values[0]? = some inputs) (l0 : Layer F) (hl0 : c.layers[0]? = some l0) (D : Nat)
    (hP : ∀ pre, (P.poly pre).length ≤ D + 2) (top : Goal F) :
    count (fun ρ : Fin (coins (m + k) c.layers) → F =>
      ∃ H : List F → F, P.Drawn (m + k) c.layers H (List.ofFn ρ) ∧
        GkrConsistent H (m + k) c.layers (P.play (m + k) c.layers (List.ofFn ρ)) (tableOf k m l0 inputs) top ∧
        ∃ (i : Nat) (l : Layer F) (v : List (List F)), c.layers[i]? = some l ∧ values[i]? = some v ∧
          (BadRound H l (tableOf k m l v) (goalOf H c.layers (P.play (m + k) c.layers (List.ofFn ρ)) top i)
            (msgOf (P.play (m + k) c.layers (List.ofFn ρ)) i) (D + 1) ∨
          BadCombination H l.bGInputs (tableOf k m l v) (msgOf (P.play (m + k) c.layers (List.ofFn ρ)) i))) ≤
      coins (m + k) c.layers * (D + 1) * Fintype.card F ^ (coins (m + k) c.layers - 1) := by
  set layers := c.layers with hlay
  set bN := m + k with hbN
  have hcount := count_family (coinIndex bN layers) (coins bN layers) (fun a => offset bN layers a.1 + a.2) (by
      rintro ⟨i, j⟩ ha
      obtain ⟨h1, h2⟩ := mem_sigma.1 ha
      simp only [mem_range] at h1 h2
      have := offset_coins bN layers (List.getElem?_eq_getElem h1)
      simp only
      omega)
    (fun a pre x => ∃ l v, layers[a.1]? = some l ∧ values[a.1]? = some v ∧
      BadAt P bN layers top (D + 1) (tableOf k m l v) l a.1 a.2 pre x) (D + 1) (by
      rintro ⟨i, j⟩ _ pre
      by_cases hx : ∃ l v, layers[i]? = some l ∧ values[i]? = some v
      · obtain ⟨l, v, hl, hv⟩ := hx
        refine le_trans (count_mono ?_) (BadAt_count P bN layers top (D + 1) (by omega) (tableOf k m l v) l i j pre (hP pre))
        rintro x ⟨l', v', hl', hv', hb⟩
        obtain rfl : l = l' := Option.some.inj (hl.symm.trans hl')
        obtain rfl : v = v' := Option.some.inj (hv.symm.trans hv')
        exact hb
      · rw [count_false]
        · exact Nat.zero_le _
        · rintro x ⟨l, v, hl, hv, _⟩
          exact hx ⟨l, v, hl, hv⟩)
  rw [coinIndex_card] at hcount
  refine le_trans (count_mono ?_) hcount
  rintro ρ ⟨H, hdr, hall, i, l, v, hl, hv, hbad⟩
  have hlen : (List.ofFn ρ).length = coins bN layers := by simp
  have hi := (List.getElem?_eq_some_iff.1 hl).1
  have hs := roundsOf_some bN layers hl
  have hc := offset_coins bN layers hl
  rw [goalOf_play P bN layers H _ hdr hlen] at hbad
  rcases hbad with ⟨j, hj, Q, q1, q2, q3, q4⟩ | hb
  · have hjl : j < roundsOf bN layers i := by
      rw [play_rounds P bN layers _ hi] at hj; simpa using hj
    have hjs : offset bN layers i + j < (List.ofFn ρ).length := by omega
    refine ⟨⟨i, j⟩, mem_sigma.2 ⟨mem_range.2 hi, mem_range.2 (by simp only; omega)⟩, l, v, hl, hv, ?_⟩
    unfold BadAt
    dsimp only
    rw [if_pos hjl]
    have hmsg : (msgOf (P.play bN layers (List.ofFn ρ)) i).rounds[j] = P.poly ((List.ofFn ρ).take (offset bN layers i + j)) := by
      simp only [play_rounds P bN layers _ hi]
      simp
    have hrl : (msgOf (P.play bN layers (List.ofFn ρ)) i).rounds.length = roundsOf bN layers i := by
      rw [play_rounds P bN layers _ hi]; simp
    rw [hmsg, ((hdr i hi).1 j hjl)] at q4
    rw [hmsg] at q3
    refine ⟨?_, Q, q1, ?_, q3, q4⟩
    · rw [← hmsg]
      exact (hall.each i l hl).1.1 _ (List.getElem_mem _)
    · intro y
      rw [q2 y, hrl, play_map P bN layers H _ hdr hlen hi]
      have e1 : ((List.ofFn ρ).take (offset bN layers i + j)).take (offset bN layers i) = (List.ofFn ρ).take (offset bN layers i) := by
        rw [List.take_take, min_eq_left (by omega)]
      have e2 : (((List.ofFn ρ).take (offset bN layers i + j)).drop (offset bN layers i)).take j =
          (((List.ofFn ρ).drop (offset bN layers i)).take (roundsOf bN layers i)).take j := by
        rw [List.drop_take, List.take_take, List.take_take]
        congr 1
        omega
      rw [e1, e2]
  · rcases i with _ | i
    · exfalso
      have hf := hall.first l hl
      obtain ⟨b1, _⟩ := hb
      apply b1
      rw [hin] at hv
      obtain rfl := Option.some.inj hv
      rw [hl0] at hl
      obtain rfl := Option.some.inj hl
      exact ⟨by rw [hf.2.1, sub_self], by rw [hf.2.2, sub_self]⟩
    · simp only [Nat.add_eq_zero_iff, one_ne_zero, and_false, if_false] at hc
      refine ⟨⟨i + 1, roundsOf bN layers (i + 1)⟩, mem_sigma.2 ⟨mem_range.2 hi, mem_range.2 (by simp)⟩, l, v, hl, hv, ?_⟩
      unfold BadAt
      dsimp only
      rw [if_neg (by omega)]
      unfold BadCombination Msg.qL Msg.qR Msg.qN at hb
      rw [play_map P bN layers H _ hdr hlen hi, play_left P bN layers _ hi, play_right P bN layers _ hi,
        (hdr (i + 1) hi).2 (by omega)] at hb
      have e1 : (((List.ofFn ρ).take (offset bN layers (i + 1) + roundsOf bN layers (i + 1))).drop (offset bN layers (i + 1))).take
          (roundsOf bN layers (i + 1)) = ((List.ofFn ρ).drop (offset bN layers (i + 1))).take (roundsOf bN layers (i + 1)) := by
        rw [List.drop_take, List.take_take]
        congr 1
        omega
      rw [e1]
      exact hb

/-- The number of challenge vectors for which a wrong claim about the outputs passes all checks, for any circuit and its
values. -/
theorem gkr_count_circuit (P : Cheater F) (c : Circuit F) (k m : Nat) (values : List (List (List F)))
    (hA : HonestAssignment c k m values) (inputs trueOutputs : List (List F)) (hin : values[0]? = some inputs)
    (htrue : values[c.layers.length]? = some trueOutputs) (l0 ln : Layer F) (hl0 : c.layers[0]? = some l0)
    (hln : c.layers[c.layers.length - 1]? = some ln)
    (D : Nat) (hD : ∀ l ∈ c.layers, ∀ g ∈ l.gates, g.degHL ≤ D ∧ g.degHR ≤ D ∧ g.degHPrime ≤ D)
    (hP : ∀ pre, (P.poly pre).length ≤ D + 2)
    (claim : F) (q q' : List F) (hq : q.length = ln.bGOutputs) (hq' : q'.length = m + k)
    (hwrong : claim ≠ mle (interleave (2 ^ k) (2 ^ (ln.bGOutputs + m)) trueOutputs) (q ++ q')) :
    count (fun ρ : Fin (coins (m + k) c.layers) → F =>
      ∃ H : List F → F, P.Drawn (m + k) c.layers H (List.ofFn ρ) ∧
        GkrConsistent H (m + k) c.layers (P.play (m + k) c.layers (List.ofFn ρ)) (tableOf k m l0 inputs) ⟨claim, q', chi q⟩) ≤
      coins (m + k) c.layers * (D + 1) * Fintype.card F ^ (coins (m + k) c.layers - 1) := by
  refine le_trans (count_mono ?_) (gkr_bad_count P c k m values inputs hin l0 hl0 D hP ⟨claim, q', chi q⟩)
  rintro ρ ⟨H, hdr, hall⟩
  exact ⟨H, hdr, hall, sound_circuit H c k m values hA inputs trueOutputs hin htrue l0 ln hl0 hln D hD _ claim
    q q' hq hq' hall hwrong⟩

/-- The number of challenge vectors for which a wrong claim about the outputs passes all checks. -/
theorem gkr_count (P : Cheater F) (wiring : List (List (Wire F))) (hne : wiring ≠ [])
    (hw : ∀ ws ∈ wiring, GoodWires ws) (G k m : Nat) (hG : Chained G (newCircuit wiring).layers)
    (ln : Layer F) (hln : (newCircuit wiring).layers[(newCircuit wiring).layers.length - 1]? = some ln)
    (D : Nat) (hD : ∀ ws ∈ wiring, ∀ w ∈ ws, w.gate.degHL ≤ D ∧ w.gate.degHR ≤ D ∧ w.gate.degHPrime ≤ D)
    (hP : ∀ pre, (P.poly pre).length ≤ D + 2)
    (inputs trueOutputs : List (List F)) (hin : WellChunked k (G + m) inputs)
    (htrue : (wiredAssignment (2 ^ m) (newCircuit wiring).layers inputs).getLast? = some trueOutputs)
    (claim : F) (q q' : List F) (hq : q.length = ln.bGOutputs) (hq' : q'.length = m + k)
    (hwrong : claim ≠ mle (interleave (2 ^ k) (2 ^ (ln.bGOutputs + m)) trueOutputs) (q ++ q')) :
    count (fun ρ : Fin (coins (m + k) (newCircuit wiring).layers) → F =>
      ∃ H : List F → F, P.Drawn (m + k) (newCircuit wiring).layers H (List.ofFn ρ) ∧
        GkrConsistent H (m + k) (newCircuit wiring).layers (P.play (m + k) (newCircuit wiring).layers (List.ofFn ρ))
          (interleave (2 ^ k) (2 ^ (G + m)) inputs) ⟨claim, q', chi q⟩) ≤
      coins (m + k) (newCircuit wiring).layers * (D + 1) * Fintype.card F ^ (coins (m + k) (newCircuit wiring).layers - 1) := by
  have hne' : (newCircuit wiring).layers ≠ [] := by simpa [newCircuit] using hne
  obtain ⟨a, b, _, _⟩ := wiredAssignment_facts k m (newCircuit wiring).layers G inputs hG hin
  obtain ⟨l0, hl0⟩ : ∃ l0, (newCircuit wiring).layers[0]? = some l0 :=
    ⟨_, List.getElem?_eq_getElem (List.length_pos_of_ne_nil hne')⟩
  have e0 := chained_first hG hl0
  rw [List.getLast?_eq_getElem?, a, Nat.add_sub_cancel] at htrue
  have := gkr_count_circuit P _ k m _ (honest_of_wired wiring hne hw G k m hG inputs hin) inputs trueOutputs b htrue l0 ln hl0
    hln D (newCircuit_degrees hD) hP claim q q' hq hq' hwrong
  unfold tableOf at this
  rw [e0] at this
  exact this

end GkrMimc
