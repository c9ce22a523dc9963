import Verif.Proofs.TranscriptProve
import Verif.Proofs.TrueProof

/-! Runs with transcript challenges: a message that does not say the truth dooms the run, up to luck; and there is only one run in which
all messages say the truth. -/

set_option linter.unusedSectionVars false

namespace GkrMimc

open Spec Finset Polynomial

variable {F : Type} [Field F] [DecidableEq F]

section
variable {bN bG : Nat} {layers : List (Layer F)} {U T : List F} {V : Nat → List F}

/-- After a false message at most `D + 1` challenges lead to a stage that is not doomed. -/
theorem false_count [Fintype F] (hc : ∀ l ∈ layers, GoodLayer l)
    (hch : ∀ (i : Nat) (l l' : Layer F), layers[i]? = some l → layers[i + 1]? = some l' → l.bGOutputs = l'.bGInputs)
    (hV : TrueValues bN layers V T) {D : Nat} (hD : ∀ l ∈ layers, DegreesLe D l.gates) (s : Stage F) (hs : StageOk bN bG layers s)
    (msg : List F) (hd : ¬ TrueNext bN layers V s msg) (hm : msg.length ≤ D + 2) :
    count (fun a => ¬ Doomed bN bG layers U T V (step bN bG layers U s msg a)) ≤ D + 1 := by
  have hall : (∀ a, Doomed bN bG layers U T V (step bN bG layers U s msg a)) →
      count (fun a => ¬ Doomed bN bG layers U T V (step bN bG layers U s msg a)) ≤ D + 1 := by
    intro h
    rw [count_false fun a => not_not.2 (h a)]
    exact Nat.zero_le _
  cases s with
  | rejected => exact hall fun _ => trivial
  | point pre => exact absurd trivial hd
  | layer i t ρ e =>
    obtain ⟨h1, h2⟩ := hs
    cases hl : layers[i]? with
    | none =>
      apply hall
      intro a
      unfold step
      dsimp only
      rw [hl]
      exact trivial
    | some l =>
      have hgl := hc l (List.mem_of_getElem? hl)
      have hρ := h2 l hl
      by_cases c1 : ρ.length < 2 * l.bGInputs + bN
      · obtain ⟨Q, hQd, hQ⟩ := goalSummand_poly hgl (V i) t h1 ρ c1 (hD l (List.mem_of_getElem? hl))
        have hPQ : polyOf msg ≠ Q := by
          intro h
          apply hd
          refine ⟨l, hl, ?_⟩
          rw [if_pos c1, h]
          exact fun x => (hQ x)
        by_cases c2 : (polyOf msg).eval 0 + (polyOf msg).eval 1 = e
        · classical
          rw [count_eq]
          refine (few_agreements _ _ hPQ _ ?_).trans (max_le (polyOf_natDegree_le msg (D + 1) hm) hQd)
          intro a ha
          by_contra hne'
          apply (mem_filter.1 ha).2
          unfold step
          dsimp only
          rw [hl]
          dsimp only
          rw [if_pos c1, if_pos c2]
          intro l' hl'
          rw [hl] at hl'
          obtain rfl := Option.some.inj hl'
          rw [List.length_append, List.length_singleton]
          simp only [List.append_assoc, List.singleton_append]
          have hQa := hQ a
          dsimp only at hQa
          rw [← hQa]
          exact hne'
        · apply hall
          intro a
          unfold step
          dsimp only
          rw [hl]
          dsimp only
          rw [if_pos c1, if_neg c2]
          exact trivial
      · rcases i with _ | j
        · apply hall
          intro a
          unfold step
          dsimp only
          rw [hl]
          dsimp only
          rw [if_neg c1]
          exact trivial
        · by_cases hmsg : ∃ left right, msg = [left, right]
          swap
          · apply hall
            intro a
            unfold step
            dsimp only
            rw [hl]
            dsimp only
            rw [if_neg c1]
            rcases msg with _ | ⟨left, _ | ⟨right, _ | _⟩⟩
            · exact trivial
            · exact trivial
            · exact absurd ⟨left, right, rfl⟩ hmsg
            · exact trivial
          obtain ⟨left, right, rfl⟩ := hmsg
          by_cases c3 : e = valueAt l t ρ left right
          swap
          · apply hall
            intro a
            unfold step
            dsimp only
            rw [hl]
            dsimp only
            rw [if_neg c1, if_neg c3]
            exact trivial
          have hlt : j + 1 < layers.length := (List.getElem?_eq_some_iff.1 hl).1
          obtain ⟨l', hl'⟩ : ∃ l', layers[j]? = some l' := ⟨_, List.getElem?_eq_getElem (by omega)⟩
          have hgl' := hc l' (List.mem_of_getElem? hl')
          have hlink := hch j l' l hl' hl
          have hρl : ρ.length = 2 * l.bGInputs + bN := by omega
          set qL := ρ.take l.bGInputs with hqL
          set qR := (ρ.drop l.bGInputs).take l.bGInputs with hqR
          set qN := ρ.drop (2 * l.bGInputs) with hqN
          have lL : qL.length = l'.bGOutputs := by rw [hlink, hqL]; simp; omega
          have lR : qR.length = l'.bGOutputs := by rw [hlink, hqR]; simp; omega
          have lN : qN.length = bN := by rw [hqN]; simp; omega
          have hbad : ¬ (left = mle (V (j + 1)) (qL ++ qN) ∧ right = mle (V (j + 1)) (qR ++ qN)) := by
            rintro ⟨e1, e2⟩
            apply hd
            refine ⟨l, hl, ?_⟩
            rw [if_neg c1, e1, e2]
          have key : ∀ a, ¬ Doomed bN bG layers U T V (step bN bG layers U (.layer (j + 1) t ρ e) [left, right] a) →
              left + a * right = mle (V (j + 1)) (qL ++ qN) + a * mle (V (j + 1)) (qR ++ qN) := by
            intro a ha
            by_contra hcon
            apply ha
            unfold step
            dsimp only
            rw [hl]
            dsimp only
            rw [if_neg c1, if_pos c3]
            intro l'' hl''
            rw [hl'] at hl''
            obtain rfl := Option.some.inj hl''
            have hg := goal_below hgl' (V j) bN qL qR qN (left + a * right) a lL lR lN
            rw [← hV.below j l' l hl' hl] at hg
            simp only [List.length_nil, Nat.sub_zero, List.nil_append]
            unfold goalAfter
            rw [hg]
            exact hcon
          refine (count_le_one ?_).trans (by omega)
          intro a b ha hb
          by_contra hab
          have ka := key a ha
          have kb := key b hb
          have h3 : (a - b) * (right - mle (V (j + 1)) (qR ++ qN)) = 0 := by linear_combination ka - kb
          rcases mul_eq_zero.1 h3 with h3 | h3
          · exact hab (sub_eq_zero.1 h3)
          · apply hbad
            refine ⟨?_, sub_eq_zero.1 h3⟩
            linear_combination ka - a * h3

/-- At most `D + 1` challenges are unlucky. -/
theorem unlucky_count [Fintype F] (hne : layers ≠ []) (hc : ∀ l ∈ layers, GoodLayer l)
    (hch : ∀ (i : Nat) (l l' : Layer F), layers[i]? = some l → layers[i + 1]? = some l' → l.bGOutputs = l'.bGInputs)
    (hV : TrueValues bN layers V T) (hbG : ∀ l : Layer F, layers[layers.length - 1]? = some l → l.bGOutputs = bG)
    {D : Nat} (hD : ∀ l ∈ layers, DegreesLe D l.gates) (s : Stage F) (hs : StageOk bN bG layers s) (msg : List F)
    (hm : msg.length ≤ D + 2) : count (Unlucky bN bG layers U T V s msg) ≤ D + 1 := by
  by_cases hd : Doomed bN bG layers U T V s
  · exact le_trans (count_mono fun a ha => ha.2) (step_count hne hc hch hV hbG hD s hs hd msg hm)
  by_cases ht : TrueNext bN layers V s msg
  · rw [count_false]
    · exact Nat.zero_le _
    · rintro a ⟨h | h, _⟩
      · exact hd h
      · exact h ht
  · exact le_trans (count_mono fun a ha => ha.2) (false_count hc hch hV hD s hs msg ht hm)

/-- A run without unlucky challenges that does not end doomed never was, and all its messages say the truth. -/
theorem lucky_run (H : List (List F × F) → List F → F) (msgs : List (List F)) : ∀ past,
    ¬ Doomed bN bG layers U T V (stageAfter bN bG layers U (say H past msgs)) →
    (∀ (j : Nat) (hj : j < msgs.length), ¬ Unlucky bN bG layers U T V (stageAfter bN bG layers U (say H past (msgs.take j))) msgs[j]
      (H (say H past (msgs.take j)) msgs[j])) →
    ¬ Doomed bN bG layers U T V (stageAfter bN bG layers U past) ∧ AllTrue bN bG layers U V H past msgs := by
  induction msgs with
  | nil => intro past h _; exact ⟨h, trivial⟩
  | cons c cs ih =>
    intro past hend hl
    obtain ⟨h1, h2⟩ := ih (past ++ [(c, H past c)]) (by rw [← say_cons]; exact hend) (by
      intro j hj
      have := hl (j + 1) (by simpa using hj)
      rw [List.take_succ_cons, say_cons] at this
      exact this)
    have h0 := hl 0 (by simp)
    change ¬ Unlucky bN bG layers U T V (stageAfter bN bG layers U past) c (H past c) at h0
    rw [stageAfter_snoc] at h1
    unfold Unlucky at h0
    rw [not_and, not_not] at h0
    have h3 : ¬ (Doomed bN bG layers U T V (stageAfter bN bG layers U past) ∨
        ¬ TrueNext bN layers V (stageAfter bN bG layers U past) c) := fun h => h1 (h0 h)
    rw [not_or, not_not] at h3
    exact ⟨h3.1, h3.2, h2⟩

def NotPoint : Stage F → Prop
  | .point _ => False
  | _ => True

theorem step_notPoint (s : Stage F) (h : NotPoint s) (msg : List F) (a : F) : NotPoint (step bN bG layers U s msg a) := by
  cases s with
  | point _ => exact h.elim
  | rejected => trivial
  | layer i t ρ e =>
    unfold step
    dsimp only
    split
    · trivial
    · split
      · split <;> trivial
      · split
        · split <;> trivial
        · trivial

/-- Messages that say the truth are determined by their lengths. -/
theorem allTrue_unique [SmallCasts F] (H : List (List F × F) → List F → F) (as : List (List F)) : ∀ (bs : List (List F)) past,
    NotPoint (stageAfter bN bG layers U past) → as.map List.length = bs.map List.length → (∀ c ∈ as, c.length ≤ 13) →
    AllTrue bN bG layers U V H past as → AllTrue bN bG layers U V H past bs → as = bs := by
  induction as with
  | nil => intro bs past _ h _ _ _; exact (List.map_eq_nil_iff.1 h.symm).symm
  | cons a as ih =>
    intro bs past hp hl h13 ha hb
    obtain ⟨b, bs, rfl⟩ : ∃ b bs', bs = b :: bs' := by
      cases bs with
      | nil => simp at hl
      | cons b bs => exact ⟨b, bs, rfl⟩
    rw [List.map_cons, List.map_cons, List.cons.injEq] at hl
    obtain ⟨a1, a2⟩ := ha
    obtain ⟨b1, b2⟩ := hb
    obtain rfl : a = b := by
      cases hs : stageAfter bN bG layers U past with
      | point _ => rw [hs] at hp; exact hp.elim
      | rejected => rw [hs] at a1; exact a1.elim
      | layer i t ρ e =>
        rw [hs] at a1 b1
        obtain ⟨l, hl1, a1⟩ := a1
        obtain ⟨l', hl2, b1⟩ := b1
        rw [hl1] at hl2
        obtain rfl := Option.some.inj hl2
        by_cases c1 : ρ.length < 2 * l.bGInputs + bN
        · rw [if_pos c1] at a1 b1
          exact polyOf_inj hl.1 (h13 a (by simp)) fun x => (a1 x).trans (b1 x).symm
        · rw [if_neg c1] at a1 b1
          rw [a1, b1]
    rw [ih bs (past ++ [(a, H past a)]) (by rw [stageAfter_snoc]; exact step_notPoint _ hp _ _) hl.2
      (fun c hc => h13 c (by simp [hc])) a2 b2]

end

/-- The lengths of the messages of a layer are fixed by the shape. -/
theorem shape_rounds {c : Circuit F} {n : Nat} {a b : GkrProof F} (ha : ProofShape c n a) (hb : ProofShape c n b) {i : Nat}
    (hi : i < c.layers.length) : (msgOf a i).rounds.map List.length = (msgOf b i).rounds.map List.length := by
  obtain ⟨l, hl⟩ : ∃ l, c.layers[i]? = some l := ⟨_, List.getElem?_eq_getElem hi⟩
  have hia : i < a.sumcheckProofs.length := by rw [ha.rounds]; exact hi
  have hib : i < b.sumcheckProofs.length := by rw [hb.rounds]; exact hi
  have ea : (msgOf a i).rounds = a.sumcheckProofs[i] := by simp [msgOf, hia]
  have eb : (msgOf b i).rounds = b.sumcheckProofs[i] := by simp [msgOf, hib]
  rw [ea, eb]
  exact (ha.each i l _ hl (List.getElem?_eq_getElem hia)).trans (hb.each i l _ hl (List.getElem?_eq_getElem hib)).symm

theorem messagesFrom_lengths {c : Circuit F} {n : Nat} {a b : GkrProof F} (ha : ProofShape c n a) (hb : ProofShape c n b) :
    ∀ i, i < c.layers.length → (messagesFrom a i).map List.length = (messagesFrom b i).map List.length
  | 0, hi => by rw [messagesFrom, messagesFrom, shape_rounds ha hb hi]
  | i + 1, hi => by
    rw [messagesFrom, messagesFrom, List.map_append, List.map_append, List.map_cons, List.map_cons, shape_rounds ha hb hi,
      messagesFrom_lengths ha hb i (by omega)]
    rfl

/-- The messages determine the rounds of all layers and the claims of all but the first. -/
theorem messagesFrom_inj {c : Circuit F} {n : Nat} {a b : GkrProof F} (ha : ProofShape c n a) (hb : ProofShape c n b) :
    ∀ i, i < c.layers.length → messagesFrom a i = messagesFrom b i →
      (∀ j, j ≤ i → (msgOf a j).rounds = (msgOf b j).rounds) ∧
      ∀ j, j < i → (msgOf a (j + 1)).left = (msgOf b (j + 1)).left ∧ (msgOf a (j + 1)).right = (msgOf b (j + 1)).right
  | 0, hi, h => by
    refine ⟨?_, by intro j hj; omega⟩
    intro j hj
    obtain rfl : j = 0 := by omega
    exact h
  | i + 1, hi, h => by
    rw [messagesFrom, messagesFrom] at h
    have hl : (msgOf a (i + 1)).rounds.length = (msgOf b (i + 1)).rounds.length := by
      simpa using congrArg List.length (shape_rounds ha hb hi)
    obtain ⟨h1, h2⟩ := List.append_inj h hl
    rw [List.cons.injEq] at h2
    obtain ⟨r1, r2⟩ := messagesFrom_inj ha hb i (by omega) h2.2
    simp only [List.cons.injEq, and_true] at h2
    refine ⟨?_, ?_⟩
    · intro j hj
      rcases Nat.lt_or_ge i j with h3 | h3
      · obtain rfl : j = i + 1 := by omega
        exact h1
      · exact r1 j h3
    · intro j hj
      rcases Nat.lt_or_ge j i with h3 | h3
      · exact r2 j h3
      · obtain rfl : j = i := by omega
        exact h2.1

end GkrMimc
