import Verif.Proofs.ConcProto
import Verif.Proofs.SumcheckPar
import Verif.Model.ConcProve

/-! What a successful run of the sequential `Prove` says about each worker and each round, and that the results of
`ConsumeAccumulate` and `ConsumeMergeProvers` do not depend on the order of the messages. -/

set_option linter.unusedSectionVars false

namespace GkrMimc

open Spec Finset

variable {F : Type} [Field F] [DecidableEq F]

/-! ### Lengths of the evaluations -/

theorem combineSplit_length {split ev : List (List (List F))} {nEvals : Nat} {e : List F}
    (h : combineSplit split ev nEvals = .ok e) : e.length = nEvals := by
  unfold combineSplit at h
  refine (forN_ok_inv (fun res : List F => res.length = nEvals) _ _ _ (by simp) ?_ h).1
  intro i _ a b ha hb
  obtain ⟨rows, _, hb⟩ := bind_eq_ok.1 hb
  refine (forN_ok_inv (fun res : List F => res.length = nEvals) _ _ _ ha ?_ hb).1
  intro h' _ a b ha hb
  obtain ⟨row, _, hb⟩ := bind_eq_ok.1 hb
  refine (forN_ok_inv (fun res : List F => res.length = nEvals) _ _ _ ha ?_ hb).1
  intro t _ a b ha hb
  obtain ⟨v, _, hb⟩ := bind_eq_ok.1 hb
  obtain ⟨evi, _, hb⟩ := bind_eq_ok.1 hb
  obtain ⟨s, _, hb⟩ := bind_eq_ok.1 hb
  rw [modIdx_length hb, ha]

theorem getEvalsOnHL_length {p : SProver F} {e : List F} (h : p.getEvalsOnHL = .ok e) : e.length = p.degreeHL + 1 := by
  unfold SProver.getEvalsOnHL at h
  obtain ⟨_, _, h⟩ := bind_eq_ok.1 h
  obtain ⟨_, _, h⟩ := bind_eq_ok.1 h
  obtain ⟨_, _, h⟩ := bind_eq_ok.1 h
  obtain ⟨_, _, h⟩ := bind_eq_ok.1 h
  unfold SProver.accumulateEvalsOnHL at h
  obtain ⟨_, _, h⟩ := bind_eq_ok.1 h
  obtain ⟨_, _, h⟩ := bind_eq_ok.1 h
  obtain ⟨_, _, h⟩ := bind_eq_ok.1 h
  obtain ⟨_, _, h⟩ := bind_eq_ok.1 h
  exact combineSplit_length h

theorem getEvalsOnHR_length {p : SProver F} {e : List F} (h : p.getEvalsOnHR = .ok e) : e.length = p.degreeHR + 1 := by
  unfold SProver.getEvalsOnHR at h
  obtain ⟨_, _, h⟩ := bind_eq_ok.1 h
  obtain ⟨_, _, h⟩ := bind_eq_ok.1 h
  unfold SProver.accumulateEvalsOnHR at h
  obtain ⟨_, _, h⟩ := bind_eq_ok.1 h
  obtain ⟨_, _, h⟩ := bind_eq_ok.1 h
  exact combineSplit_length h

theorem getEvalsOnHPrime_length {p : SProver F} {e : List F} (h : p.getEvalsOnHPrime = .ok e) :
    e.length = p.degreeHPrime + 1 := by
  unfold SProver.getEvalsOnHPrime at h
  obtain ⟨_, _, h⟩ := bind_eq_ok.1 h
  unfold SProver.accumulateEvalsOnHPrime at h
  obtain ⟨_, _, h⟩ := bind_eq_ok.1 h
  refine (forN_ok_inv (fun res : List F => res.length = p.degreeHPrime + 1) _ _ _ (by simp) ?_ h).1
  intro i _ a b ha hb
  obtain ⟨row, _, hb⟩ := bind_eq_ok.1 hb
  refine (forN_ok_inv (fun res : List F => res.length = p.degreeHPrime + 1) _ _ _ ha ?_ hb).1
  intro t _ a b ha hb
  obtain ⟨v, _, hb⟩ := bind_eq_ok.1 hb
  obtain ⟨s, _, hb⟩ := bind_eq_ok.1 hb
  rw [modIdx_length hb, ha]

/-- The number of evaluations in round `k`. -/
def evalLen (bG k : Nat) (gates : List (Gate F)) : Nat :=
  let p := newSProver (F := F) [] [] [] gates []
  if k < bG then p.degreeHL + 1 else if k < 2 * bG then p.degreeHR + 1 else p.degreeHPrime + 1

/-- Two sub-provers with the same gates, degrees and static tables. -/
structure SameKind (p q : SProver F) : Prop where
  gates : p.gates = q.gates
  statics : p.statics = q.statics
  dHL : p.degreeHL = q.degreeHL
  dHR : p.degreeHR = q.degreeHR
  dHP : p.degreeHPrime = q.degreeHPrime

theorem SameKind.fold {p q : SProver F} (h : SameKind p q) (bG k : Nat) (r : F) :
    SameKind (workerFold bG k p r) (workerFold bG k q r) := by
  obtain ⟨h1, h2, h3, h4, h5⟩ := h
  unfold workerFold
  split_ifs
  · exact ⟨h1, by simp [SProver.foldHL, h2], h3, h4, h5⟩
  · exact ⟨h1, by simp [SProver.foldHR, h2], h3, h4, h5⟩
  · exact ⟨h1, h2, h3, h4, h5⟩

theorem SameKind.len {p q : SProver F} (h : SameKind p q) {bG k : Nat} {e e' : List F} (hp : workerEvals bG k p = .ok e)
    (hq : workerEvals bG k q = .ok e') : e.length = e'.length := by
  unfold workerEvals at hp hq
  split_ifs at hp hq
  · rw [getEvalsOnHL_length hp, getEvalsOnHL_length hq, h.dHL]
  · rw [getEvalsOnHR_length hp, getEvalsOnHR_length hq, h.dHR]
  · rw [getEvalsOnHPrime_length hp, getEvalsOnHPrime_length hq, h.dHP]

/-! ### Data of a run -/

/-- The data of a successful run of `n` workers for `K` rounds. -/
structure ProveData (F : Type) [Field F] [DecidableEq F] (H : List F → F) (bG n K : Nat) (W0 : Nat → SProver F) where
  W : Nat → Nat → SProver F
  E : Nat → Nat → List F
  c : Nat → List F
  start : ∀ w < n, W 0 w = W0 w
  evals : ∀ k < K, ∀ w < n, workerEvals bG k (W k w) = .ok (E k w)
  acc : ∀ k < K, (consumeAccumulate (tab n (E k)) >>= interpolateOnRange) = .ok (c k)
  next : ∀ k < K, ∀ w < n, W (k + 1) w = workerFold bG k (W k w) (H (c k))

theorem rounds_data (H : List F → F) (bG bN n : Nat) (W0 : Nat → SProver F) (K : Nat) :
    ∀ s : List (SProver F) × List (List F) × List F,
    (forN K (tab n W0, ([] : List (List F)), ([] : List F)) fun k s => do
      let msgs ← mapGo (fun (x : SProver F × (Nat × Nat)) => workerEvals x.2.1 k x.1) (s.1.zip (tab n fun _ => (bG, bN)))
      let evals ← consumeAccumulate msgs
      let c ← interpolateOnRange evals
      let r := H c
      return ((s.1.zip (tab n fun _ => (bG, bN))).map (fun x => workerFold x.2.1 k x.1 r), s.2.1 ++ [c], s.2.2 ++ [r])) = .ok s →
    ∃ D : ProveData F H bG n K W0, s = (tab n (D.W K), tab K D.c, tab K fun k => H (D.c k)) := by
  induction K with
  | zero =>
    intro s h
    simp only [forN_zero, Except.ok.injEq] at h
    refine ⟨⟨fun _ => W0, fun _ _ => [], fun _ => [], fun _ _ => rfl, by omega, by omega, by omega⟩, ?_⟩
    rw [← h]; rfl
  | succ K ih =>
    intro s h
    rw [forN_succ] at h
    obtain ⟨s', h1, h2⟩ := bind_eq_ok.1 h
    obtain ⟨D, rfl⟩ := ih s' h1
    obtain ⟨msgs, h3, h2⟩ := bind_eq_ok.1 h2
    obtain ⟨evals, h4, h2⟩ := bind_eq_ok.1 h2
    obtain ⟨c, h5, h2⟩ := bind_eq_ok.1 h2
    simp only [go_pure, Except.ok.injEq] at h2
    have hz : (tab n (D.W K)).zip (tab n fun _ => (bG, bN)) = tab n fun w => (D.W K w, (bG, bN)) := by
      rw [List.zip, zipWith_tab]
    rw [hz] at h3 h2
    obtain ⟨hl, hm⟩ := mapGo_ok_iff h3
    rw [tab_length] at hl
    have hmsgs : msgs = tab n (fun w => msgs.getD w []) := by
      have := eq_tab msgs []
      rwa [← hl] at this
    refine ⟨⟨Function.update D.W (K + 1) (fun w => workerFold bG K (D.W K w) (H c)), Function.update D.E K (fun w => msgs.getD w []),
      Function.update D.c K c, ?_, ?_, ?_, ?_⟩, ?_⟩
    · intro w hw
      rw [Function.update_of_ne (by omega)]
      exact D.start w hw
    · intro k hk w hw
      by_cases hkK : k = K
      · subst hkK
        rw [Function.update_of_ne (by omega), Function.update_self]
        have := hm w (by simpa using hw) (by omega)
        rw [tab_get] at this
        rw [this]
        simp [show w < msgs.length by omega]
      · rw [Function.update_of_ne (by omega), Function.update_of_ne hkK]
        exact D.evals k (by omega) w hw
    · intro k hk
      by_cases hkK : k = K
      · subst hkK
        rw [Function.update_self, Function.update_self, ← hmsgs, h4, ok_bind, h5]
      · rw [Function.update_of_ne hkK, Function.update_of_ne hkK]
        exact D.acc k (by omega)
    · intro k hk w hw
      by_cases hkK : k = K
      · subst hkK
        rw [Function.update_self, Function.update_of_ne (by omega), Function.update_self]
      · rw [Function.update_of_ne (by omega), Function.update_of_ne (by omega), Function.update_of_ne hkK]
        exact D.next k (by omega) w hw
    · refine h2.symm.trans ?_
      simp only [Function.update_self, tab_map]
      refine Prod.ext rfl (Prod.ext ?_ ?_)
      · simp only [tab_succ', Function.update_self]
        congr 1
        apply tab_congr; intro i hi
        rw [Function.update_of_ne (by omega)]
      · simp only [tab_succ', Function.update_self]
        congr 1
        apply tab_congr; intro i hi
        rw [Function.update_of_ne (by omega)]

section
variable {H : List F → F} {bG n K : Nat} {W0 : Nat → SProver F} (D : ProveData F H bG n K W0)

theorem ProveData.same (h0 : ∀ w < n, ∀ w' < n, SameKind (W0 w) (W0 w')) : ∀ k ≤ K, ∀ w < n, ∀ w' < n,
    SameKind (D.W k w) (D.W k w') := by
  intro k
  induction k with
  | zero =>
    intro _ w hw w' hw'
    rw [D.start w hw, D.start w' hw']
    exact h0 w hw w' hw'
  | succ k ih =>
    intro hk w hw w' hw'
    rw [D.next k (by omega) w hw, D.next k (by omega) w' hw']
    exact (ih (by omega) w hw w' hw').fold _ _ _

/-- The sum of the messages of some workers. -/
def ProveData.sum (k : Nat) (C : List Nat) : List F :=
  tab (D.E k 0).length fun t => (C.map fun w => (D.E k w).getD t 0).sum

theorem addMsg_tab (N : Nat) (f g : Nat → F) : addMsg (tab N g) (tab N f) = .ok (tab N fun t => f t + g t) := by
  have := consumeAccumulate_tab 2 N (by omega) (fun s => if s = 0 then f else g)
  rw [tab_succ, tab_one, consumeAccumulate, forEach_cons] at this
  obtain ⟨x, h1, h2⟩ := bind_eq_ok.1 this
  simp only [forEach_nil, Except.ok.injEq] at h2
  subst h2
  simp only [Finset.sum_range_succ, Finset.range_zero, Finset.sum_empty, zero_add, if_true, Nat.one_ne_zero, if_false] at h1
  exact h1

theorem ProveData.len (h0 : ∀ w < n, ∀ w' < n, SameKind (W0 w) (W0 w')) {k : Nat} (hk : k < K) {w : Nat} (hw : w < n) :
    (D.E k w).length = (D.E k 0).length :=
  (D.same h0 k (by omega) w hw 0 (by omega)).len (D.evals k hk w hw) (D.evals k hk 0 (by omega))

theorem ProveData.single (h0 : ∀ w < n, ∀ w' < n, SameKind (W0 w) (W0 w')) {k : Nat} (hk : k < K) {w : Nat} (hw : w < n) :
    D.E k w = D.sum k [w] := by
  unfold ProveData.sum
  rw [← D.len h0 hk hw]
  conv_lhs => rw [eq_tab (D.E k w) 0]
  simp

theorem ProveData.add (h0 : ∀ w < n, ∀ w' < n, SameKind (W0 w) (W0 w')) {k : Nat} (hk : k < K) (C : List Nat) {w : Nat}
    (hw : w < n) : addMsg (D.E k w) (D.sum k C) = .ok (D.sum k (C ++ [w])) := by
  rw [D.single h0 hk hw]
  unfold ProveData.sum
  rw [addMsg_tab]
  congr 1
  apply tab_congr; intro t _
  simp

theorem ProveData.total (h0 : ∀ w < n, ∀ w' < n, SameKind (W0 w) (W0 w')) (hn : 0 < n) {k : Nat} (hk : k < K) {C : List Nat}
    (hC : C.Perm (List.range n)) : interpolateOnRange (D.sum k C) = .ok (D.c k) := by
  have h := D.acc k hk
  have he : tab n (D.E k) = tab n (fun w => tab (D.E k 0).length fun t => (D.E k w).getD t 0) := by
    apply tab_congr; intro w hw
    conv_lhs => rw [eq_tab (D.E k w) 0, D.len h0 hk hw]
  rw [he, consumeAccumulate_tab _ _ hn, ok_bind] at h
  rw [← h]
  unfold ProveData.sum
  congr 1
  apply tab_congr; intro t _
  rw [(hC.map _).sum_eq]
  exact tab_sum n _

end

/-! ### Merging the sub-provers -/

/-- The tables after merging the sub-provers in `C`. -/
def mergedTab (n : Nat) (C : List Nat) (x : Nat → F) : List F := tab n fun i => if i ∈ C then x i else 0

theorem mergedTab_set (n : Nat) (C : List Nat) (x : Nat → F) {w : Nat} (hw : w < n) :
    setIdx (mergedTab n C x) w (x w) = .ok (mergedTab n (C ++ [w]) x) := by
  unfold mergedTab
  rw [setIdx_tab hw]
  congr 1
  apply tab_congr; intro i _
  rw [Function.update_apply]
  by_cases h : i = w
  · subst h; simp
  · simp [h]

theorem mergedTab_full (n : Nat) {C : List Nat} (hC : C.Perm (List.range n)) (x : Nat → F) : mergedTab n C x = tab n x := by
  unfold mergedTab
  apply tab_congr; intro i hi
  rw [if_pos (hC.mem_iff.2 (List.mem_range.2 hi))]

theorem mergeMsg_ok {n : Nat} {sp : SProver F} {C : List Nat} {l r e : Nat → F} {w : Nat} (hw : w < n)
    (hl : idx sp.vL 0 = .ok (l w)) (hr : idx sp.vR 0 = .ok (r w)) (he : idx sp.eq 0 = .ok (e w)) :
    mergeMsg w sp (mergedTab n C l, mergedTab n C r, mergedTab n C e) =
      .ok (mergedTab n (C ++ [w]) l, mergedTab n (C ++ [w]) r, mergedTab n (C ++ [w]) e) := by
  unfold mergeMsg
  simp only [hl, hr, he, ok_bind, mergedTab_set n C _ hw, go_pure]

theorem forEach_ok_mem {α σ : Type} {body : α → σ → Go σ} : ∀ {xs : List α} {s s' : σ}, forEach xs s body = .ok s' →
    ∀ x ∈ xs, ∃ a b, body x a = .ok b
  | [], _, _, _, x, hx => by simp at hx
  | y :: ys, s, s', h, x, hx => by
    rw [forEach_cons] at h
    obtain ⟨a, h1, h2⟩ := bind_eq_ok.1 h
    rcases List.mem_cons.1 hx with rfl | hx
    · exact ⟨_, _, h1⟩
    · exact forEach_ok_mem h2 x hx

theorem merge_data {n : Nat} (hn : 0 < n) {W : Nat → SProver F} {newP : SProver F}
    (h : consumeMergeProvers n ((List.range n).zip (tab n W)) = .ok newP) :
    ∃ l r e : Nat → F, (∀ w < n, idx (W w).vL 0 = .ok (l w) ∧ idx (W w).vR 0 = .ok (r w) ∧ idx (W w).eq 0 = .ok (e w)) ∧
      newP = newSProver (tab n l) (tab n r) (tab n e) (W 0).gates (W 0).statics := by
  have hz : (List.range n).zip (tab n W) = tab n (fun s => (s, W s)) := by
    have : List.range n = tab n id := by simp [tab]
    rw [this, List.zip, zipWith_tab]; rfl
  rw [hz] at h
  have hz2 : tab n (fun s => (s, W s)) = (0, W 0) :: tab (n - 1) (fun s => (s + 1, W (s + 1))) := by
    obtain ⟨k, rfl⟩ : ∃ k, n = k + 1 := ⟨n - 1, by omega⟩
    rw [tab_succ]; rfl
  rw [hz2, consumeMergeProvers] at h
  simp only at h
  rw [← hz2] at h
  obtain ⟨s, h1, h2⟩ := bind_eq_ok.1 h
  have hex : ∀ w < n, ∃ x : F × F × F, idx (W w).vL 0 = .ok x.1 ∧ idx (W w).vR 0 = .ok x.2.1 ∧ idx (W w).eq 0 = .ok x.2.2 := by
    intro w hw
    obtain ⟨a, b, hb⟩ := forEach_ok_mem h1 (w, W w) (List.mem_map.2 ⟨w, List.mem_range.2 hw, rfl⟩)
    obtain ⟨l, hl, hb⟩ := bind_eq_ok.1 hb
    obtain ⟨_, _, hb⟩ := bind_eq_ok.1 hb
    obtain ⟨r, hr, hb⟩ := bind_eq_ok.1 hb
    obtain ⟨_, _, hb⟩ := bind_eq_ok.1 hb
    obtain ⟨e, he, hb⟩ := bind_eq_ok.1 hb
    exact ⟨(l, r, e), hl, hr, he⟩
  classical
  let x : Nat → F × F × F := fun w => if hw : w < n then (hex w hw).choose else 0
  have hx : ∀ w < n, idx (W w).vL 0 = .ok (x w).1 ∧ idx (W w).vR 0 = .ok (x w).2.1 ∧ idx (W w).eq 0 = .ok (x w).2.2 := by
    intro w hw
    have := (hex w hw).choose_spec
    simpa only [x, dif_pos hw] using this
  refine ⟨fun w => (x w).1, fun w => (x w).2.1, fun w => (x w).2.2, hx, ?_⟩
  have key : ∀ j ≤ n, forEach (tab j (fun s => (s, W s)))
      (List.replicate n (0 : F), List.replicate n (0 : F), List.replicate n (0 : F)) (fun ip s => mergeMsg ip.1 ip.2 s) =
      .ok (mergedTab n (List.range j) fun w => (x w).1, mergedTab n (List.range j) fun w => (x w).2.1,
        mergedTab n (List.range j) fun w => (x w).2.2) := by
    intro j
    induction j with
    | zero => intro _; simp [replicate_eq_tab, mergedTab]
    | succ j ih =>
      intro hj
      obtain ⟨e1, e2, e3⟩ := hx j (by omega)
      rw [tab_succ', forEach_append, ih (by omega), ok_bind, forEach_cons,
        mergeMsg_ok (l := fun w => (x w).1) (r := fun w => (x w).2.1) (e := fun w => (x w).2.2) (show j < n by omega) e1 e2 e3,
        ok_bind, forEach_nil, List.range_succ]
  have k1 := key n le_rfl
  have : s = _ := Except.ok.inj (h1.symm.trans k1)
  subst this
  simp only [go_pure, Except.ok.injEq] at h2
  rw [← h2]
  simp only [mergedTab_full n (List.Perm.refl _)]

end GkrMimc
