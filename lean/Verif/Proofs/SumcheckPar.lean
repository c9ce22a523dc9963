import Verif.Proofs.SumcheckComplete
import Verif.Proofs.Chunked
import Verif.Props.Eq

/-! The multi-threaded sumcheck prover computes what the single-threaded one computes. -/

set_option linter.unusedSectionVars false

namespace GkrMimc

open Spec Finset

variable {F : Type} [Field F] [DecidableEq F]

/-- Chunk `s` of `K` interleaved chunks. -/
def sub (K s : Nat) (f : Nat → F) (u : Nat) : F := f (u * K + s)

theorem sub_foldF (K s m : Nat) (f : Nat → F) (r : F) : sub K s (foldF (m * K) f r) = foldF m (sub K s f) r := by
  funext u
  unfold sub foldF
  rw [show m * K + (u * K + s) = (m + u) * K + s by ring]

theorem hsum_chunks (gates : List (Gate F)) (A B n K : Nat) (vL vR e : Nat → F) (st : Nat → Nat → F) :
    hsum gates A B (n * K) vL vR e st =
      ∑ s ∈ range K, hsum gates A B n (sub K s vL) (sub K s vR) (sub K s e) st := by
  unfold hsum
  rw [sum_range_mul, Finset.sum_comm]
  refine Finset.sum_congr rfl fun s _ => Finset.sum_congr rfl fun u _ => Finset.sum_congr rfl fun l _ =>
    Finset.sum_congr rfl fun r _ => Finset.sum_congr rfl fun i _ => ?_
  unfold sub
  rw [show l * (n * K) + (u * K + s) = (l * n + u) * K + s by ring,
    show r * (n * K) + (u * K + s) = (r * n + u) * K + s by ring]

/-- The states of the workers for a global state. -/
def workersOf (gates : List (Gate F)) (A B n K : Nat) (vL vR e : Nat → F) (st : Nat → Nat → F) : List (SProver F) :=
  tab K (fun s => mkP gates A B n (sub K s vL) (sub K s vR) (sub K s e) st)

theorem tab_sum (k : Nat) (g : Nat → F) : (tab k g).sum = ∑ i ∈ range k, g i := by
  induction k with
  | zero => simp
  | succ k ih => rw [tab_succ', List.sum_append, ih, Finset.sum_range_succ]; simp

theorem consumeAccumulate_tab (K D : Nat) (hK : 0 < K) (f : Nat → Nat → F) :
    consumeAccumulate (tab K (fun s => tab D (f s))) = .ok (tab D (fun t => ∑ s ∈ range K, f s t)) := by
  obtain ⟨k, rfl⟩ : ∃ k, K = k + 1 := ⟨K - 1, by omega⟩
  rw [tab_succ, consumeAccumulate]
  have key := forEach_acc (M := Nat → F) (mk := tab D)
    (body := fun (tmp : List F) res => forN res.length res fun i res => do
      let t ← idx tmp i
      modIdx res i (fun x => x + t)) (fun tmp => fun t => if t < D then tmp.getD t 0 else 0)
    (tab k (fun s => tab D (f (s + 1)))) (f 0) (by
      intro tmp htmp m
      obtain ⟨s, _, rfl⟩ := List.mem_map.1 htmp
      rw [tab_length]
      have h2 := forN_acc (M := Nat → F) (mk := tab D) (body := fun i res => do
        let t ← idx (tab D (f (s + 1))) i
        modIdx res i (fun x => x + t)) (fun i => Pi.single i (f (s + 1) i)) D m (by
          intro i hi m
          rw [idx_tab hi, ok_bind, modIdx_tab_add hi])
      refine h2.trans ?_
      congr 1
      apply tab_congr; intro t ht
      simp only [Pi.add_apply, Finset.sum_apply, Pi.single_apply]
      rw [Finset.sum_ite_eq, if_pos (mem_range.2 ht), if_pos ht, tab_getD ht])
  refine key.trans ?_
  congr 1
  apply tab_congr; intro t ht
  rw [Pi.add_apply, list_sum_apply, tab_map]
  rw [Finset.sum_range_succ', add_comm]
  congr 1
  rw [tab_sum]
  apply Finset.sum_congr rfl; intro s _
  rw [if_pos ht, tab_getD ht]

theorem mapGo_tab {α β : Type} (f : α → Go β) (n : Nat) (x : Nat → α) (y : Nat → β) (h : ∀ i < n, f (x i) = .ok (y i)) :
    mapGo f (tab n x) = .ok (tab n y) := by
  induction n generalizing x y with
  | zero => rfl
  | succ n ih =>
    rw [tab_succ, tab_succ, mapGo, h 0 (by omega), ih (fun i => x (i + 1)) (fun i => y (i + 1))
      (fun i hi => h (i + 1) (by omega))]

/-- One kind of rounds: workers and global prover agree. -/
structure ParOk (evals : SProver F → Go (List F)) (foldX : SProver F → F → SProver F)
    (Rel : Nat → SProver F → List (SProver F) → Prop) : Prop where
  evals : ∀ j p ws, Rel (j + 1) p ws → (mapGo evals ws >>= consumeAccumulate) = evals p
  fold : ∀ j p ws, Rel (j + 1) p ws → ∀ r, Rel j (foldX p r) (ws.map (foldX · r))

/-- The loop over the rounds of one kind, on the workers. -/
def parRounds (H : List F → F) (evals : SProver F → Go (List F)) (foldX : SProver F → F → SProver F)
    (j cnt : Nat) (ws : List (SProver F)) (cs : List (List F)) (qs : List F) :
    Go (List (SProver F) × List (List F) × List F) :=
  forFrom (fun _ (s : List (SProver F) × List (List F) × List F) => do
    let msgs ← mapGo evals s.1
    let evals ← consumeAccumulate msgs
    let c ← interpolateOnRange evals
    let r := H c
    return (s.1.map (foldX · r), s.2.1 ++ [c], s.2.2 ++ [r])) j cnt (ws, cs, qs)

theorem parRounds_eq (H : List F → F) {evals : SProver F → Go (List F)} {foldX : SProver F → F → SProver F}
    {Rel : Nat → SProver F → List (SProver F) → Prop} (h : ParOk evals foldX Rel) (cnt : Nat) :
    ∀ (j : Nat) (p : SProver F) (ws : List (SProver F)) (cs : List (List F)) (qs : List F), Rel cnt p ws →
    (∃ e, parRounds H evals foldX j cnt ws cs qs = .error e ∧ rounds H evals foldX cnt p = .error e) ∨
    ∃ ws' p' cs' qs', parRounds H evals foldX j cnt ws cs qs = .ok (ws', cs ++ cs', qs ++ qs') ∧
      rounds H evals foldX cnt p = .ok (p', cs', qs') ∧ qs'.length = cnt ∧ Rel 0 p' ws' := by
  induction cnt with
  | zero =>
    intro j p ws cs qs hr
    exact Or.inr ⟨ws, p, [], [], by simp [parRounds, forFrom], rfl, rfl, hr⟩
  | succ cnt ih =>
    intro j p ws cs qs hr
    have hev := h.evals cnt p ws hr
    unfold parRounds
    rw [rounds_succ, forFrom]
    have e1 : ∀ (g : List F → Go (List (SProver F) × List (List F) × List F)),
        (mapGo evals ws >>= fun msgs => consumeAccumulate msgs >>= g) = (evals p >>= g) := by
      intro g
      rw [← hev]
      cases mapGo evals ws <;> rfl
    simp only [e1]
    cases hE : evals p with
    | error e => exact Or.inl ⟨e, rfl, rfl⟩
    | ok E =>
      simp only [ok_bind]
      cases hc : interpolateOnRange E with
      | error e => exact Or.inl ⟨e, rfl, rfl⟩
      | ok c =>
        simp only [ok_bind, go_pure]
        rcases ih (j + 1) (foldX p (H c)) (ws.map (foldX · (H c))) (cs ++ [c]) (qs ++ [H c]) (h.fold cnt p ws hr _) with
          ⟨e, h1, h2⟩ | ⟨ws', p', cs', qs', h1, h2, h3, h4⟩
        · refine Or.inl ⟨e, h1, by rw [h2]; rfl⟩
        · refine Or.inr ⟨ws', p', c :: cs', H c :: qs', ?_, by rw [h2]; rfl, by simp [h3], h4⟩
          refine h1.trans ?_
          simp

/-- Relations of the three phases. -/
def RelL (gates : List (Gate F)) (B n K k : Nat) (p : SProver F) (ws : List (SProver F)) : Prop :=
  ∃ vL vR e st, p = mkP gates (2 ^ k) B (n * K) vL vR e st ∧ ws = workersOf gates (2 ^ k) B n K vL vR e st

/-- See `RelL`. -/
def RelR (gates : List (Gate F)) (n K k : Nat) (p : SProver F) (ws : List (SProver F)) : Prop :=
  ∃ vL vR e st, p = mkP gates 1 (2 ^ k) (n * K) vL vR e st ∧ ws = workersOf gates 1 (2 ^ k) n K vL vR e st

/-- See `RelL`. -/
def RelP (gates : List (Gate F)) (K k : Nat) (p : SProver F) (ws : List (SProver F)) : Prop :=
  ∃ vL vR e st, p = mkP gates 1 1 (2 ^ k * K) vL vR e st ∧ ws = workersOf gates 1 1 (2 ^ k) K vL vR e st

theorem getEvalsOnHL_nogates (A B n : Nat) (hn : 0 < n) (vL vR e : Nat → F) (st : Nat → Nat → F) :
    (mkP [] A B n vL vR e st).getEvalsOnHL = .error .index := by
  unfold SProver.getEvalsOnHL mkP newSProver
  simp only [tab_length]
  rw [goDiv_ok hn, ok_bind]; rfl

theorem parOkL {gates : List (Gate F)} (hg : ∀ g ∈ gates, LawfulGate g) {B n K : Nat} (hB : 0 < B)
    (hn : 0 < n) (hK : 0 < K) :
    ParOk SProver.getEvalsOnHL SProver.foldHL (RelL gates B n K) where
  evals := by
    rintro k p ws ⟨vL, vR, e, st, rfl, rfl⟩
    have e1 : 2 ^ (k + 1) = 2 * 2 ^ k := by ring
    rw [e1]
    by_cases hne : gates = []
    · subst hne
      rw [getEvalsOnHL_nogates _ _ _ (Nat.mul_pos hn hK)]
      obtain ⟨K, rfl⟩ : ∃ K', K = K' + 1 := ⟨K - 1, by omega⟩
      unfold workersOf
      rw [tab_succ, mapGo, getEvalsOnHL_nogates _ _ _ hn]; rfl
    unfold workersOf
    rw [mapGo_tab _ _ _ _ (fun s _ => getEvalsOnHL_mkP gates hg hne _ _ _ hB hn _ _ _ _), ok_bind,
      consumeAccumulate_tab K _ hK, getEvalsOnHL_mkP gates hg hne _ _ _ hB (Nat.mul_pos hn hK)]
    congr 1
    apply tab_congr; intro t _
    unfold foldSumL
    rw [hsum_chunks]
    apply Finset.sum_congr rfl; intro s _
    rw [← mul_assoc, sub_foldF]
  fold := by
    rintro k p ws ⟨vL, vR, e, st, rfl, rfl⟩ r
    have e1 : 2 ^ (k + 1) = 2 * 2 ^ k := by ring
    rw [e1, foldHL_mkP]
    refine ⟨_, _, _, _, rfl, ?_⟩
    unfold workersOf
    rw [tab_map]
    apply tab_congr; intro s _
    rw [foldHL_mkP, ← mul_assoc, sub_foldF]

theorem parOkR {gates : List (Gate F)} (hg : ∀ g ∈ gates, LawfulGate g) {n K : Nat}
    (hn : 0 < n) (hK : 0 < K) :
    ParOk SProver.getEvalsOnHR SProver.foldHR (RelR gates n K) where
  evals := by
    rintro k p ws ⟨vL, vR, e, st, rfl, rfl⟩
    have e1 : 2 ^ (k + 1) = 2 * 2 ^ k := by ring
    rw [e1]
    unfold workersOf
    rw [mapGo_tab _ _ _ _ (fun s _ => getEvalsOnHR_mkP gates hg _ _ hn _ _ _ _), ok_bind,
      consumeAccumulate_tab K _ hK, getEvalsOnHR_mkP gates hg _ _ (Nat.mul_pos hn hK)]
    congr 1
    apply tab_congr; intro t _
    unfold foldSumR
    rw [hsum_chunks]
    apply Finset.sum_congr rfl; intro s _
    rw [← mul_assoc, sub_foldF]
  fold := by
    rintro k p ws ⟨vL, vR, e, st, rfl, rfl⟩ r
    have e1 : 2 ^ (k + 1) = 2 * 2 ^ k := by ring
    rw [e1, foldHR_mkP]
    refine ⟨_, _, _, _, rfl, ?_⟩
    unfold workersOf
    rw [tab_map]
    apply tab_congr; intro s _
    rw [foldHR_mkP, ← mul_assoc, sub_foldF]

theorem parOkP {gates : List (Gate F)} {K : Nat} (hK : 0 < K) :
    ParOk SProver.getEvalsOnHPrime SProver.foldHPrime (RelP gates K) where
  evals := by
    rintro k p ws ⟨vL, vR, e, st, rfl, rfl⟩
    have e1 : 2 ^ (k + 1) = 2 * 2 ^ k := by ring
    rw [e1]
    unfold workersOf
    rw [mapGo_tab _ _ _ _ (fun s _ => getEvalsOnHPrime_mkP gates _ _ _ _ _), ok_bind,
      consumeAccumulate_tab K _ hK, mul_assoc, getEvalsOnHPrime_mkP gates]
    congr 1
    apply tab_congr; intro t _
    unfold foldSumP
    rw [hsum_chunks]
    apply Finset.sum_congr rfl; intro s _
    rw [sub_foldF, sub_foldF, sub_foldF]
  fold := by
    rintro k p ws ⟨vL, vR, e, st, rfl, rfl⟩ r
    have e1 : 2 ^ (k + 1) = 2 * 2 ^ k := by ring
    rw [e1, mul_assoc, foldHPrime_mkP]
    refine ⟨_, _, _, _, rfl, ?_⟩
    unfold workersOf
    rw [tab_map]
    apply tab_congr; intro s _
    rw [foldHPrime_mkP, sub_foldF, sub_foldF, sub_foldF]

/-- Rounds can be split. -/
theorem rounds_add (H : List F → F) (evals : SProver F → Go (List F)) (foldX : SProver F → F → SProver F) (a b : Nat) :
    ∀ p, rounds H evals foldX (a + b) p = (do
      let x ← rounds H evals foldX a p
      let y ← rounds H evals foldX b x.1
      return (y.1, x.2.1 ++ y.2.1, x.2.2 ++ y.2.2)) := by
  induction a with
  | zero =>
    intro p
    rw [Nat.zero_add, rounds_zero, ok_bind]
    cases rounds H evals foldX b p <;> simp
  | succ a ih =>
    intro p
    rw [show a + 1 + b = (a + b) + 1 by omega, rounds_succ, rounds_succ]
    cases evals p with
    | error e => rfl
    | ok E =>
      simp only [ok_bind]
      cases interpolateOnRange E with
      | error e => rfl
      | ok c =>
        simp only [ok_bind]
        rw [ih]
        cases rounds H evals foldX a (foldX p (H c)) with
        | error e => rfl
        | ok x =>
          simp only [ok_bind, go_pure]
          cases rounds H evals foldX b x.1 <;> simp

theorem merge_eq (gates : List (Gate F)) (K : Nat) (hK : 0 < K) (vL vR e : Nat → F) (st : Nat → Nat → F) :
    consumeMergeProvers K ((List.range K).zip (workersOf gates 1 1 1 K vL vR e st)) = .ok (mkP gates 1 1 K vL vR e st) := by
  have hz : (List.range K).zip (workersOf gates 1 1 1 K vL vR e st) =
      tab K (fun s => (s, mkP gates 1 1 1 (sub K s vL) (sub K s vR) (sub K s e) st)) := by
    unfold workersOf
    have : List.range K = tab K id := by simp [tab]
    rw [this, List.zip, zipWith_tab]; rfl
  rw [hz]
  have hz2 : tab K (fun s => (s, mkP gates 1 1 1 (sub K s vL) (sub K s vR) (sub K s e) st)) =
      (0, mkP gates 1 1 1 (sub K 0 vL) (sub K 0 vR) (sub K 0 e) st) :: tab (K - 1) (fun s =>
        (s + 1, mkP gates 1 1 1 (sub K (s + 1) vL) (sub K (s + 1) vR) (sub K (s + 1) e) st)) := by
    obtain ⟨k, rfl⟩ : ∃ k, K = k + 1 := ⟨K - 1, by omega⟩
    rw [tab_succ]; rfl
  have key : ∀ j ≤ K, forEach (tab j (fun s => (s, mkP gates 1 1 1 (sub K s vL) (sub K s vR) (sub K s e) st)))
      (List.replicate K (0 : F), List.replicate K (0 : F), List.replicate K (0 : F)) (fun ip s => do
        let l ← idx ip.2.vL 0
        let a ← setIdx s.1 ip.1 l
        let r ← idx ip.2.vR 0
        let b ← setIdx s.2.1 ip.1 r
        let e ← idx ip.2.eq 0
        let c ← setIdx s.2.2 ip.1 e
        return (a, b, c)) = .ok (tab K (fun i => if i < j then vL i else 0), tab K (fun i => if i < j then vR i else 0),
          tab K (fun i => if i < j then e i else 0)) := by
    intro j
    induction j with
    | zero => intro _; simp [replicate_eq_tab]
    | succ j ih =>
      intro hj
      rw [tab_succ', forEach_append, ih (by omega), ok_bind]
      have el : idx (mkP gates 1 1 1 (sub K j vL) (sub K j vR) (sub K j e) st).vL 0 = .ok (vL j) := by
        unfold mkP newSProver; simp only; rw [idx_tab (by omega)]; simp [sub]
      have er : idx (mkP gates 1 1 1 (sub K j vL) (sub K j vR) (sub K j e) st).vR 0 = .ok (vR j) := by
        unfold mkP newSProver; simp only; rw [idx_tab (by omega)]; simp [sub]
      have ee : idx (mkP gates 1 1 1 (sub K j vL) (sub K j vR) (sub K j e) st).eq 0 = .ok (e j) := by
        unfold mkP newSProver; simp only; rw [idx_tab (by omega)]; simp [sub]
      have upd : ∀ f : Nat → F, tab K (Function.update (fun i => if i < j then f i else 0) j (f j)) =
          tab K (fun i => if i < j + 1 then f i else 0) := by
        intro f
        apply tab_congr; intro i _
        rw [Function.update_apply]
        by_cases h : i = j
        · subst h; simp
        · rw [if_neg h]
          by_cases h2 : i < j
          · rw [if_pos h2, if_pos (by omega)]
          · rw [if_neg h2, if_neg (by omega)]
      rw [forEach]
      simp only [el, er, ee, ok_bind, setIdx_tab (show j < K by omega), upd]
      rfl
  have k1 := key K le_rfl
  rw [hz2] at k1 ⊢
  rw [consumeMergeProvers]
  simp only
  rw [k1, ok_bind]
  unfold mkP newSProver
  simp only [one_mul, go_pure]
  congr 2 <;> (apply tab_congr; intro i hi; rw [if_pos hi])

theorem forFrom_add {σ : Type} (body : Nat → σ → Go σ) (a b : Nat) : ∀ (k : Nat) (s : σ),
    forFrom body k (a + b) s = (forFrom body k a s >>= fun s' => forFrom body (k + a) b s') := by
  intro k s; rw [forFrom_append]

theorem forFrom_congr' {σ : Type} {body body' : Nat → σ → Go σ} (n : Nat) (P : σ → Prop) :
    ∀ (k : Nat) (s : σ), P s → (∀ i s, k ≤ i → i < k + n → P s → body i s = body' i s) →
    (∀ i s s', P s → body' i s = .ok s' → P s') →
    forFrom body k n s = forFrom body' k n s := by
  induction n with
  | zero => intros; rfl
  | succ n ih =>
    intro k s hP h hstep
    rw [forFrom, forFrom, h k s le_rfl (by omega) hP]
    cases hb : body' k s with
    | error e => rfl
    | ok s' =>
      exact ih (k + 1) s' (hstep k s s' hP hb) (fun i s h1 h2 => h i s (by omega) (by omega)) hstep

theorem mapGo_map {α β γ : Type} (f : β → Go γ) (g : α → β) (xs : List α) :
    mapGo f (xs.map g) = mapGo (fun x => f (g x)) xs := by
  induction xs with
  | nil => rfl
  | cons x xs ih => rw [List.map_cons, mapGo, mapGo, ih]

theorem zip_tab_const {α β : Type} (xs : List α) (d : β) : xs.zip (tab xs.length (fun _ => d)) = xs.map (fun x => (x, d)) := by
  induction xs with
  | nil => rfl
  | cons x xs ih => rw [List.length_cons, tab_succ, List.zip_cons_cons, ih, List.map_cons]

theorem sem_ok {nCore : Int} (h : 1 ≤ nCore) (n : Nat) : semaphoreSection nCore n = .ok () := by
  unfold semaphoreSection
  rw [if_neg (by omega), if_neg (by omega)]

theorem workersOf_length (gates : List (Gate F)) (A B n K : Nat) (vL vR e : Nat → F) (st : Nat → Nat → F) :
    (workersOf gates A B n K vL vR e st).length = K := by simp [workersOf]

/-- The main loop on one segment of rounds. -/
theorem segment_eq (H : List F → F) (bG m K : Nat) (evals : SProver F → Go (List F)) (foldX : SProver F → F → SProver F)
    (j cnt : Nat) (hev : ∀ i, j ≤ i → i < j + cnt → ∀ w : SProver F, workerEvals bG i w = evals w)
    (hfo : ∀ i, j ≤ i → i < j + cnt → ∀ (w : SProver F) r, workerFold bG i w r = foldX w r)
    (ws : List (SProver F)) (hws : ws.length = K) (cs : List (List F)) (qs : List F) :
    forFrom (fun k (s : List (SProver F) × List (List F) × List F) => do
      let msgs ← mapGo (fun x => workerEvals x.2.1 k x.1) (s.1.zip (tab K (fun _ => (bG, m))))
      let evals ← consumeAccumulate msgs
      let c ← interpolateOnRange evals
      let r := H c
      return ((s.1.zip (tab K (fun _ => (bG, m)))).map (fun x => workerFold x.2.1 k x.1 r), s.2.1 ++ [c], s.2.2 ++ [r]))
      j cnt (ws, cs, qs) = parRounds H evals foldX j cnt ws cs qs := by
  unfold parRounds
  apply forFrom_congr' cnt (fun s => s.1.length = K)
  · exact hws
  · rintro i ⟨w, c, q⟩ h1 h2 hK
    simp only at hK
    simp only
    rw [← hK, zip_tab_const, mapGo_map]
    have e1 : (fun x : SProver F => workerEvals bG i x) = evals := funext fun w => hev i h1 h2 w
    simp only [e1, List.map_map, Function.comp_def, hfo i h1 h2]
  · rintro i ⟨w, c, q⟩ ⟨w', c', q'⟩ hK hb
    simp only at hK hb ⊢
    cases h1 : mapGo evals w with
    | error e => rw [h1] at hb; cases hb
    | ok ms =>
      rw [h1, ok_bind] at hb
      cases h2 : consumeAccumulate ms with
      | error e => rw [h2] at hb; cases hb
      | ok E =>
        rw [h2, ok_bind] at hb
        cases h3 : interpolateOnRange E with
        | error e => rw [h3] at hb; cases hb
        | ok C =>
          rw [h3, ok_bind] at hb
          have := Except.ok.inj hb
          rw [Prod.mk.injEq] at this
          rw [← this.1, List.length_map, hK]

/-- The multi-threaded prover on interleaved chunks returns what the single-threaded one returns. -/
theorem mprove_eq (H : List F → F) {gates : List (Gate F)} (hg : ∀ g ∈ gates, LawfulGate g) (bG m k : Nat)
    (vL vR e : Nat → F) (st : Nat → Nat → F) (nCore : Int) (hc : 1 ≤ nCore) :
    (newMProver (chunksOf (2 ^ k) (2 ^ bG * 2 ^ m) vL) (chunksOf (2 ^ k) (2 ^ bG * 2 ^ m) vR)
        (chunksOf (2 ^ k) (2 ^ m) e) gates (tab gates.length fun i => tab (2 ^ bG * 2 ^ bG) (st i))).prove H nCore =
      (mkP gates (2 ^ bG) (2 ^ bG) (2 ^ m * 2 ^ k) vL vR e st).prove H := by
  have hK : 0 < 2 ^ k := Nat.two_pow_pos _
  have hm : 0 < 2 ^ m := Nat.two_pow_pos _
  have hG : 0 < 2 ^ bG := Nat.two_pow_pos _
  set K := 2 ^ k with hKd
  -- left side: set-up
  have hsub : ∀ i < K, MProver.subProver (newMProver (chunksOf K (2 ^ bG * 2 ^ m) vL) (chunksOf K (2 ^ bG * 2 ^ m) vR)
        (chunksOf K (2 ^ m) e) gates (tab gates.length fun i => tab (2 ^ bG * 2 ^ bG) (st i))) i =
      .ok (mkP gates (2 ^ bG) (2 ^ bG) (2 ^ m) (sub K i vL) (sub K i vR) (sub K i e) st) := by
    intro i hi
    unfold MProver.subProver newMProver chunksOf
    simp only
    rw [idx_tab hi, ok_bind, idx_tab hi, ok_bind, idx_tab hi, ok_bind]
    rfl
  have hw := gen_ok _ K hsub
  have hdims : ∀ i < K, SProver.dims (mkP gates (2 ^ bG) (2 ^ bG) (2 ^ m) (sub K i vL) (sub K i vR) (sub K i e) st) =
      .ok (bG, m) := by
    intro i hi
    unfold SProver.dims mkP newSProver
    simp only [tab_length]
    rw [goDiv_ok hm, ok_bind, Nat.mul_div_cancel _ hm, log2Ceil_pow, log2Ceil_pow]; rfl
  have hd := mapGo_tab SProver.dims K _ _ hdims
  have l0 : log2Ceil ((K * 2 ^ m : Nat) : Int) = m + k := by
    rw [hKd, ← pow_add, log2Ceil_pow]; omega
  have l1 : log2Ceil ((2 ^ bG : Nat) : Int) = bG := log2Ceil_pow _
  have l2 : log2Ceil ((K : Nat) : Int) = k := log2Ceil_pow _
  have hdiv : K * (2 ^ bG * 2 ^ m) / (K * 2 ^ m) = 2 ^ bG := by
    rw [show K * (2 ^ bG * 2 ^ m) = 2 ^ bG * (K * 2 ^ m) by ring, Nat.mul_div_cancel _ (Nat.mul_pos hK hm)]
  have htot : 2 * bG + (m + k) - k = bG + (bG + m) := by omega
  unfold MProver.prove
  have eqlen : (newMProver (chunksOf K (2 ^ bG * 2 ^ m) vL) (chunksOf K (2 ^ bG * 2 ^ m) vR)
        (chunksOf K (2 ^ m) e) gates (tab gates.length fun i => tab (2 ^ bG * 2 ^ bG) (st i))).eq.length = K := by
    simp [newMProver]
  have i1 : idx (newMProver (chunksOf K (2 ^ bG * 2 ^ m) vL) (chunksOf K (2 ^ bG * 2 ^ m) vR)
        (chunksOf K (2 ^ m) e) gates (tab gates.length fun i => tab (2 ^ bG * 2 ^ bG) (st i))).eq 0 =
      .ok (tab (2 ^ m) (sub K 0 e)) := idx_tab hK
  have i2 : idx (newMProver (chunksOf K (2 ^ bG * 2 ^ m) vL) (chunksOf K (2 ^ bG * 2 ^ m) vR)
        (chunksOf K (2 ^ m) e) gates (tab gates.length fun i => tab (2 ^ bG * 2 ^ bG) (st i))).vL 0 =
      .ok (tab (2 ^ bG * 2 ^ m) (sub K 0 vL)) := idx_tab hK
  simp only [eqlen]
  rw [i1, ok_bind, i2, ok_bind, tab_length, tab_length, goDiv_ok (Nat.mul_pos hK hm), ok_bind, hdiv, l0, l1, l2,
    sem_ok hc, ok_bind, hw, ok_bind, hd, ok_bind, htot]
  have hany : (tab K (fun _ : Nat => (bG, m))).any (fun d => decide (2 * d.1 + d.2 ≠ bG + (bG + m))) = false := by
    rw [List.any_eq_false]
    intro x hx
    obtain ⟨_, _, rfl⟩ := List.mem_map.1 hx
    simp; omega
  rw [hany]
  simp only [Bool.false_eq_true, if_false]
  -- right side
  unfold SProver.prove
  have r1 : (mkP gates (2 ^ bG) (2 ^ bG) (2 ^ m * K) vL vR e st).eq.length = 2 ^ m * K := by simp [mkP, newSProver]
  have r2 : (mkP gates (2 ^ bG) (2 ^ bG) (2 ^ m * K) vL vR e st).vR.length = 2 ^ bG * (2 ^ m * K) := by
    simp [mkP, newSProver]
  have l3 : log2Ceil ((2 ^ m * K : Nat) : Int) = m + k := by rw [hKd, ← pow_add, log2Ceil_pow]
  simp only [r1, r2]
  rw [goDiv_ok (Nat.mul_pos hm hK), ok_bind, Nat.mul_div_cancel _ (Nat.mul_pos hm hK), l1, l3]
  -- the three segments
  unfold forN
  rw [forFrom_add, Nat.zero_add]
  have wl : (tab K fun i => mkP gates (2 ^ bG) (2 ^ bG) (2 ^ m) (sub K i vL) (sub K i vR) (sub K i e) st).length = K := by simp
  rw [segment_eq H bG m K SProver.getEvalsOnHL SProver.foldHL 0 bG
    (by intro i _ h w; unfold workerEvals; rw [if_pos (by omega)])
    (by intro i _ h w r; unfold workerFold; rw [if_pos (by omega)]) _ wl]
  rcases parRounds_eq H (parOkL hg hG hm hK) bG 0 _ _ [] [] ⟨vL, vR, e, st, rfl, rfl⟩ with
    ⟨x, h1, h2⟩ | ⟨ws1, p1, cs1, qs1, h1, h2, h3, h4⟩
  · unfold workersOf at h1
    rw [h1, h2]; rfl
  unfold workersOf at h1
  rw [h1, h2, ok_bind, ok_bind]
  obtain ⟨vL1, vR1, e1, st1, hp1, hws1⟩ := h4
  rw [pow_zero] at hp1 hws1
  simp only [List.nil_append]
  rw [forFrom_add]
  rw [segment_eq H bG m K SProver.getEvalsOnHR SProver.foldHR bG bG
    (by intro i h0 h w; unfold workerEvals; rw [if_neg (by omega), if_pos (by omega)])
    (by intro i h0 h w r; unfold workerFold; rw [if_neg (by omega), if_pos (by omega)]) ws1
    (by rw [hws1, workersOf_length])]
  rcases parRounds_eq H (parOkR hg hm hK) bG bG p1 ws1 cs1 qs1 ⟨vL1, vR1, e1, st1, hp1, hws1⟩ with
    ⟨x, g1, g2⟩ | ⟨ws2, p2, cs2, qs2, g1, g2, g3, g4⟩
  · rw [g1, g2]; rfl
  rw [g1, g2, ok_bind, ok_bind]
  obtain ⟨vL2, vR2, e2, st2, hp2, hws2⟩ := g4
  rw [pow_zero] at hp2 hws2
  rw [segment_eq H bG m K SProver.getEvalsOnHPrime SProver.foldHPrime (bG + bG) m
    (by intro i h0 h w; unfold workerEvals; rw [if_neg (by omega), if_neg (by omega)])
    (by intro i h0 h w r; unfold workerFold; rw [if_neg (by omega), if_neg (by omega)]) ws2
    (by rw [hws2, workersOf_length])]
  simp only
  rw [rounds_add]
  rcases parRounds_eq H (parOkP (gates := gates) hK) m (bG + bG) p2 ws2 (cs1 ++ cs2) (qs1 ++ qs2) ⟨vL2, vR2, e2, st2, hp2, hws2⟩
    with ⟨x, f1, f2⟩ | ⟨ws3, p3, cs3, qs3, f1, f2, f3, f4⟩
  · rw [f1, f2]; rfl
  rw [f1, f2, ok_bind, ok_bind]
  obtain ⟨vL3, vR3, e3, st3, hp3, hws3⟩ := f4
  rw [pow_zero, one_mul] at hp3
  rw [pow_zero] at hws3
  simp only
  rw [hws3, merge_eq gates K hK, ok_bind, ← hp3]
  cases rounds H SProver.getEvalsOnHPrime SProver.foldHPrime k p3 with
  | error x => rfl
  | ok y =>
    obtain ⟨p4, cs4, qs4⟩ := y
    simp only [ok_bind, go_pure]
    cases p4.finalClaims with
    | error x => rfl
    | ok fc =>
      simp only [ok_bind]
      congr 2
      · simp
      · rw [List.drop_left' (by simp [h3, g3]; omega)]
      · rw [List.append_assoc, List.take_left' h3]
      · rw [List.append_assoc, List.drop_left' h3, List.take_left' g3]

theorem mgetClaim_eq {gates : List (Gate F)} (bG m k : Nat)
    (vL vR e : Nat → F) (st : Nat → Nat → F) (nCore : Int) (hc : 1 ≤ nCore) :
    (newMProver (chunksOf (2 ^ k) (2 ^ bG * 2 ^ m) vL) (chunksOf (2 ^ k) (2 ^ bG * 2 ^ m) vR)
        (chunksOf (2 ^ k) (2 ^ m) e) gates (tab gates.length fun i => tab (2 ^ bG * 2 ^ bG) (st i))).getClaim nCore =
      (mkP gates (2 ^ bG) (2 ^ bG) (2 ^ m * 2 ^ k) vL vR e st).getClaim := by
  have hK : 0 < 2 ^ k := Nat.two_pow_pos _
  have hm : 0 < 2 ^ m := Nat.two_pow_pos _
  rw [getClaim_mkP _ _ _ (Nat.mul_pos hm hK), hsum_chunks]
  unfold MProver.getClaim
  have eqlen : (newMProver (chunksOf (2 ^ k) (2 ^ bG * 2 ^ m) vL) (chunksOf (2 ^ k) (2 ^ bG * 2 ^ m) vR)
        (chunksOf (2 ^ k) (2 ^ m) e) gates (tab gates.length fun i => tab (2 ^ bG * 2 ^ bG) (st i))).eq.length = 2 ^ k := by
    simp [newMProver]
  simp only [eqlen]
  rw [sem_ok hc, ok_bind]
  have := forN_acc (M := F) (mk := id) (m := 0) (body := fun i res => do
      let sp ← MProver.subProver (newMProver (chunksOf (2 ^ k) (2 ^ bG * 2 ^ m) vL)
        (chunksOf (2 ^ k) (2 ^ bG * 2 ^ m) vR)
        (chunksOf (2 ^ k) (2 ^ m) e) gates (tab gates.length fun i => tab (2 ^ bG * 2 ^ bG) (st i))) i
      let x ← sp.getClaim
      return x + res)
    (fun s => hsum gates (2 ^ bG) (2 ^ bG) (2 ^ m) (sub (2 ^ k) s vL) (sub (2 ^ k) s vR) (sub (2 ^ k) s e) st) (2 ^ k) (by
      intro i hi x
      have : MProver.subProver (newMProver (chunksOf (2 ^ k) (2 ^ bG * 2 ^ m) vL) (chunksOf (2 ^ k) (2 ^ bG * 2 ^ m) vR)
            (chunksOf (2 ^ k) (2 ^ m) e) gates (tab gates.length fun i => tab (2 ^ bG * 2 ^ bG) (st i))) i =
          .ok (mkP gates (2 ^ bG) (2 ^ bG) (2 ^ m) (sub (2 ^ k) i vL) (sub (2 ^ k) i vR) (sub (2 ^ k) i e) st) := by
        unfold MProver.subProver newMProver chunksOf
        simp only
        rw [idx_tab hi, ok_bind, idx_tab hi, ok_bind, idx_tab hi, ok_bind]
        rfl
      rw [this, ok_bind, getClaim_mkP _ _ _ hm, ok_bind, add_comm]; rfl)
  simp only [id, zero_add] at this
  exact this

end GkrMimc
