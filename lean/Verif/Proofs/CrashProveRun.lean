import Verif.Proofs.CrashProve

/-! The program with marks under all schedules. -/

set_option linter.unusedSectionVars false

namespace GkrMimc

open Spec Finset

variable {F : Type} [Field F] [DecidableEq F]

/-! ### Sums and merged tables with marks -/

/-- The sum of the messages of some workers. -/
def sumT (L : Nat) (E : Nat → Option (List F)) (C : List Nat) : Option (List F) :=
  if C.all (fun w => (E w).isSome) then some (tab L fun t => (C.map fun w => ((E w).getD []).getD t 0).sum) else none

theorem sumT_single {L : Nat} {E : Nat → Option (List F)} {w : Nat} (hL : ∀ x, E w = some x → x.length = L) : E w = sumT L E [w] := by
  cases h : E w with
  | none => simp [sumT, h]
  | some x =>
    simp only [sumT, List.all_cons, h, Option.isSome_some, List.all_nil, Bool.and_self, if_true, List.map_cons, Option.getD_some, List.map_nil,
      List.sum_cons, List.sum_nil, add_zero, Option.some.injEq]
    conv_lhs => rw [eq_tab x 0, hL x h]

theorem sumT_add {L : Nat} {E : Nat → Option (List F)} {w : Nat} (hL : ∀ x, E w = some x → x.length = L) (C : List Nat) :
    addT (E w) (sumT L E C) = sumT L E (C ++ [w]) := by
  cases h : E w with
  | none => simp [sumT, h, addT]
  | some x =>
    by_cases hC : C.all (fun w => (E w).isSome) = true
    · have hC' : (C ++ [w]).all (fun w => (E w).isSome) = true := by simp [List.all_append, hC, h]
      unfold sumT
      rw [if_pos hC, if_pos hC']
      have hx : x = tab L fun t => x.getD t 0 := by
        conv_lhs => rw [eq_tab x 0, hL x h]
      simp only [addT, Option.bind_some]
      rw [hx, addMsg_tab, goOk]
      congr 1
      apply tab_congr; intro t _
      simp [h]
    · have hC' : ¬ (C ++ [w]).all (fun w => (E w).isSome) = true := by
        rw [List.all_append]; simp only [Bool.and_eq_true, not_and_or]; exact .inl hC
      unfold sumT
      rw [if_neg hC, if_neg hC']
      rfl

theorem sumT_perm {L : Nat} {E : Nat → Option (List F)} {C C' : List Nat} (h : C.Perm C') : sumT L E C = sumT L E C' := by
  unfold sumT
  have : C.all (fun w => (E w).isSome) = C'.all (fun w => (E w).isSome) := by
    rw [Bool.eq_iff_iff, List.all_eq_true, List.all_eq_true]
    exact ⟨fun hx w hw => hx w (h.mem_iff.2 hw), fun hx w hw => hx w (h.mem_iff.1 hw)⟩
  rw [this]
  congr 2
  apply tab_congr; intro t _
  exact (h.map _).sum_eq

/-- The first entries of the tables of a sub-prover. -/
def headT (o : Option (SProver F)) : Option (F × F × F) :=
  o.bind fun sp => goOk (do
    let l ← idx sp.vL 0
    let r ← idx sp.vR 0
    let e ← idx sp.eq 0
    return (l, r, e))

/-- The tables after merging some workers. -/
def mergedT (n : Nat) (W : Nat → Option (SProver F)) (C : List Nat) : Option (List F × List F × List F) :=
  if C.all (fun w => (headT (W w)).isSome) then
    some (mergedTab n C (fun w => ((headT (W w)).getD 0).1), mergedTab n C (fun w => ((headT (W w)).getD 0).2.1),
      mergedTab n C (fun w => ((headT (W w)).getD 0).2.2))
  else none

theorem headT_some {sp : SProver F} {x : F × F × F} (h : headT (some sp) = some x) :
    idx sp.vL 0 = .ok x.1 ∧ idx sp.vR 0 = .ok x.2.1 ∧ idx sp.eq 0 = .ok x.2.2 := by
  simp only [headT, Option.bind_some, goOk_some] at h
  obtain ⟨l, h1, h⟩ := bind_eq_ok.1 h
  obtain ⟨r, h2, h⟩ := bind_eq_ok.1 h
  obtain ⟨e, h3, h⟩ := bind_eq_ok.1 h
  simp only [go_pure, Except.ok.injEq] at h
  subst h
  exact ⟨h1, h2, h3⟩

theorem headT_none {sp : SProver F} (h : headT (some sp) = none) (i : Nat) (s : List F × List F × List F) : goOk (mergeMsg i sp s) = none := by
  by_contra hne
  obtain ⟨a, ha⟩ := Option.ne_none_iff_exists'.1 hne
  rw [goOk_some] at ha
  obtain ⟨l, hl, hb⟩ := bind_eq_ok.1 ha
  obtain ⟨_, _, hb⟩ := bind_eq_ok.1 hb
  obtain ⟨r, hr, hb⟩ := bind_eq_ok.1 hb
  obtain ⟨_, _, hb⟩ := bind_eq_ok.1 hb
  obtain ⟨e, he, hb⟩ := bind_eq_ok.1 hb
  simp [headT, hl, hr, he, ok_bind, goOk] at h

theorem mergeT_add {n : Nat} {W : Nat → Option (SProver F)} {w : Nat} (hw : w < n) (C : List Nat) :
    mergeT ((W w).map fun sp => (w, sp)) (mergedT n W C) = mergedT n W (C ++ [w]) := by
  cases hW : W w with
  | none => simp [mergeT, mergedT, hW, headT]
  | some sp =>
    by_cases hC : C.all (fun w => (headT (W w)).isSome) = true
    · cases hh : headT (some sp) with
      | none =>
        have : ¬ (C ++ [w]).all (fun w => (headT (W w)).isSome) = true := by simp [List.all_append, hW, hh]
        unfold mergedT
        rw [if_neg this]
        simp only [mergeT, Option.map_some, Option.bind_some]
        rw [if_pos hC]
        exact headT_none hh _ _
      | some x =>
        have hC' : (C ++ [w]).all (fun w => (headT (W w)).isSome) = true := by simp [List.all_append, hC, hW, hh]
        unfold mergedT
        rw [if_pos hC, if_pos hC']
        obtain ⟨e1, e2, e3⟩ := headT_some hh
        simp only [mergeT, Option.map_some, Option.bind_some]
        rw [mergeMsg_ok hw (by rw [hW, hh]; exact e1) (by rw [hW, hh]; exact e2) (by rw [hW, hh]; exact e3)]
        rfl
    · have hC' : ¬ (C ++ [w]).all (fun w => (headT (W w)).isSome) = true := by
        rw [List.all_append]; simp only [Bool.and_eq_true, not_and_or]; exact .inl hC
      unfold mergedT
      rw [if_neg hC, if_neg hC']
      simp [mergeT]

theorem mergedT_nil (n : Nat) (W : Nat → Option (SProver F)) :
    mergedT n W [] = some (List.replicate n 0, List.replicate n 0, List.replicate n 0) := by
  simp [mergedT, mergedTab, replicate_eq_tab]

theorem mergedT_perm {n : Nat} {W : Nat → Option (SProver F)} {C C' : List Nat} (h : C.Perm C') : mergedT n W C = mergedT n W C' := by
  unfold mergedT
  have : C.all (fun w => (headT (W w)).isSome) = C'.all (fun w => (headT (W w)).isSome) := by
    rw [Bool.eq_iff_iff, List.all_eq_true, List.all_eq_true]
    exact ⟨fun hx w hw => hx w (h.mem_iff.2 hw), fun hx w hw => hx w (h.mem_iff.1 hw)⟩
  have hm : ∀ x : Nat → F, mergedTab n C x = mergedTab n C' x := by
    intro x
    unfold mergedTab
    apply tab_congr; intro i _
    simp only [h.mem_iff]
  rw [this, hm, hm, hm]

/-! ### The states of the run -/

/-- The number of evaluations in round `k`. -/
def lenT (b k : Nat) (sp : SProver F) : Nat :=
  if k < b then sp.degreeHL + 1 else if k < 2 * b then sp.degreeHR + 1 else sp.degreeHPrime + 1

theorem workerEvals_length {b k : Nat} {sp : SProver F} {e : List F} (h : workerEvals b k sp = .ok e) : e.length = lenT b k sp := by
  unfold workerEvals at h
  unfold lenT
  split_ifs at h ⊢
  · exact getEvalsOnHL_length h
  · exact getEvalsOnHR_length h
  · exact getEvalsOnHPrime_length h

theorem SameKind.lenT {p q : SProver F} (h : SameKind p q) (b k : Nat) : GkrMimc.lenT b k p = GkrMimc.lenT b k q := by
  unfold GkrMimc.lenT
  rw [h.dHL, h.dHR, h.dHP]

/-- The state before a round: the workers, what main has recorded, and a sub-prover with the gates and the static tables of all of them. -/
structure StateT (F : Type) [Field F] [DecidableEq F] where
  W : Nat → Option (SProver F)
  hist : Option (List (List F) × List F)
  base : SProver F

section
variable (H : List F → F) (b n : Nat) (W0 : Nat → Option (SProver F)) (base0 : SProver F)

/-- The interpolated sum in round `k`. -/
def StateT.c (s : StateT F) (k : Nat) : Option (List F) :=
  (sumT (lenT b k s.base) (fun w => evalsT b k (s.W w)) (List.range n)).bind fun x => goOk (interpolateOnRange x)

def statesT : Nat → StateT F
  | 0 => ⟨W0, some ([], []), base0⟩
  | k + 1 => ⟨fun w => stepT b k ((statesT k).W w) (chalT H ((statesT k).c b n k)),
      histT H (statesT k).hist ((statesT k).c b n k), workerFold b k (statesT k).base (chalT H ((statesT k).c b n k))⟩

variable {H b n W0 base0} in
theorem statesT_same (h0 : ∀ w < n, ∀ sp, W0 w = some sp → SameKind sp base0) :
    ∀ k, ∀ w < n, ∀ sp, (statesT H b n W0 base0 k).W w = some sp → SameKind sp (statesT H b n W0 base0 k).base
  | 0, w, hw, sp, h => h0 w hw sp h
  | k + 1, w, hw, sp, h => by
    simp only [statesT, stepT, Option.bind_eq_some_iff, Option.map_eq_some_iff] at h
    obtain ⟨sp', h1, _, _, h2⟩ := h
    rw [← h2]
    exact (statesT_same h0 k w hw sp' h1).fold _ _ _

variable {H b n W0 base0} in
theorem statesT_len (h0 : ∀ w < n, ∀ sp, W0 w = some sp → SameKind sp base0) (k : Nat) {w : Nat} (hw : w < n) (x : List F)
    (h : evalsT b k ((statesT H b n W0 base0 k).W w) = some x) : x.length = lenT b k (statesT H b n W0 base0 k).base := by
  simp only [evalsT, Option.bind_eq_some_iff, goOk_some] at h
  obtain ⟨sp, h1, h2⟩ := h
  rw [workerEvals_length h2, (statesT_same h0 k w hw sp h1).lenT]

end

/-! ### The protocol -/

section
variable (H : List F → F) (b n K bG logN : Nat) (W0 : Nat → Option (SProver F)) (base0 : SProver F) (z : Msg F)

local notation "St" => statesT H b n W0 base0

def wNextT (w k : Nat) : Prog Unit (Msg F) :=
  if k < K then recvElem (3 + w) fun r => acquireP 2 (workerT b K w 0 (3 + w) 1 2 (k + 1) (stepT b k ((St k).W w) r))
  else .close (3 + w) (.ret .tok)

/-- The code of a worker after `t` steps. -/
def workerAtT (w t : Nat) : Prog Unit (Msg F) :=
  if t = 4 * K + 4 then .ret .tok
  else if t % 4 = 0 then acquireP 2 (workerT b K w 0 (3 + w) 1 2 (t / 4) ((St (t / 4)).W w))
  else if t % 4 = 1 then workerT b K w 0 (3 + w) 1 2 (t / 4) ((St (t / 4)).W w)
  else if t % 4 = 2 then .send 2 .tok (wNextT H b n K W0 base0 w (t / 4))
  else wNextT H b n K W0 base0 w (t / 4)

theorem workerAtT0 (w : Nat) {k : Nat} (hk : k ≤ K) :
    workerAtT H b n K W0 base0 w (4 * k) = acquireP 2 (workerT b K w 0 (3 + w) 1 2 k ((St k).W w)) := by
  unfold workerAtT
  rw [if_neg (by omega), if_pos (by omega), show 4 * k / 4 = k by omega]

theorem workerAtT1 (w : Nat) {k : Nat} (hk : k ≤ K) :
    workerAtT H b n K W0 base0 w (4 * k + 1) = workerT b K w 0 (3 + w) 1 2 k ((St k).W w) := by
  unfold workerAtT
  rw [if_neg (by omega), if_neg (by omega), if_pos (by omega), show (4 * k + 1) / 4 = k by omega]

theorem workerAtT2 (w : Nat) {k : Nat} (hk : k ≤ K) :
    workerAtT H b n K W0 base0 w (4 * k + 2) = .send 2 .tok (wNextT H b n K W0 base0 w k) := by
  unfold workerAtT
  rw [if_neg (by omega), if_neg (by omega), if_neg (by omega), if_pos (by omega), show (4 * k + 2) / 4 = k by omega]

theorem workerAtT3 (w : Nat) {k : Nat} (hk : k ≤ K) : workerAtT H b n K W0 base0 w (4 * k + 3) = wNextT H b n K W0 base0 w k := by
  unfold workerAtT
  rw [if_neg (by omega), if_neg (by omega), if_neg (by omega), if_neg (by omega), show (4 * k + 3) / 4 = k by omega]

theorem workerAtT4 (w : Nat) : workerAtT H b n K W0 base0 w (4 * K + 4) = .ret .tok := by
  unfold workerAtT
  rw [if_pos rfl]

/-- The message of worker `w` in round `k`. -/
def msgT (k w : Nat) : Msg F := if k < K then vecMsg (evalsT b k ((St k).W w)) else provMsg w ((St k).W w)

/-- What main does with the sum of the messages. -/
def afterAccT (B : Nat) (evals : Option (List F)) : Prog Unit (Msg F) :=
  broadcastP (rChansOf n) (chalT H (evals.bind fun x => goOk (interpolateOnRange x)))
    (mainT H n K bG logN z 0 1 (rChansOf n) (B + 1) (histT H (St B).hist (evals.bind fun x => goOk (interpolateOnRange x))))

/-- What main does with the merged tables. -/
def afterMergeT (w0 : Nat) (s : Option (List F × List F × List F)) : Prog Unit (Msg F) :=
  .close 0 <| .close 1 <| .ret (outT H bG logN z (St K).hist (newT (((St K).W w0).map fun sp => (w0, sp)) s))

def consumeT (B : Nat) : List Nat → Prog Unit (Msg F)
  | [] => mainT H n K bG logN z 0 1 (rChansOf n) B (St B).hist
  | w0 :: C =>
    if B < K then
      loopP (fun _ res next => .recv 0 fun v => next (addT (vecOf v) res)) (afterAccT H b n K bG logN W0 base0 z B) C.length (n - 1 - C.length)
        (sumT (lenT b B (St B).base) (fun w => evalsT b B ((St B).W w)) (w0 :: C))
    else
      loopP (fun _ s next => .recv 1 fun v => next (mergeT (provOf v) s)) (afterMergeT H b n K bG logN W0 base0 z w0) C.length (n - 1 - C.length)
        (mergedT n (St B).W (w0 :: C))

theorem consumeT_nil (B : Nat) : consumeT H b n K bG logN W0 base0 z B [] = mainT H n K bG logN z 0 1 (rChansOf n) B (St B).hist := rfl

theorem consumeT_lt {B : Nat} (hB : B < K) (w0 : Nat) (C : List Nat) : consumeT H b n K bG logN W0 base0 z B (w0 :: C) =
    loopP (fun _ res next => .recv 0 fun v => next (addT (vecOf v) res)) (afterAccT H b n K bG logN W0 base0 z B) C.length (n - 1 - C.length)
      (sumT (lenT b B (St B).base) (fun w => evalsT b B ((St B).W w)) (w0 :: C)) := by
  simp only [consumeT]
  rw [if_pos hB]

theorem consumeT_end (w0 : Nat) (C : List Nat) : consumeT H b n K bG logN W0 base0 z K (w0 :: C) =
    loopP (fun _ s next => .recv 1 fun v => next (mergeT (provOf v) s)) (afterMergeT H b n K bG logN W0 base0 z w0) C.length (n - 1 - C.length)
      (mergedT n (St K).W (w0 :: C)) := by
  simp only [consumeT]
  rw [if_neg (by omega)]

theorem mainT_lt {B : Nat} (hB : B < K) : mainT H n K bG logN z 0 1 (rChansOf n) B (St B).hist =
    .recv 0 fun v => loopP (fun _ res next => .recv 0 fun v => next (addT (vecOf v) res)) (afterAccT H b n K bG logN W0 base0 z B) 0 (n - 1)
      (vecOf v) := by
  unfold mainT
  rw [loopP_lt _ _ hB]
  rfl

theorem mainT_end : mainT H n K bG logN z 0 1 (rChansOf n) K (St K).hist =
    mergeAllT 1 n fun newP => .close 0 <| .close 1 <| .ret (outT H bG logN z (St K).hist newP) := by
  unfold mainT
  rw [Nat.sub_self]
  rfl

/-- The loop that starts the broadcasters. -/
def bcastT (B j : Nat) : Prog Unit (Msg F) :=
  loopP (fun i _ next =>
      liftGo (idx (rChansOf n) i) fun ch =>
      .go (.send ch (.elem (chalT H ((St (B - 1)).c b n (B - 1)))) <| .wgDone (B - 1) <| .ret .tok) (next ()))
    (fun _ => .wgWait (B - 1) (mainT H n K bG logN z 0 1 (rChansOf n) B (St B).hist)) j (n - j) ()

/-- The merged prover at the end of the run. -/
def lastT : Option (SProver F) :=
  (mergedT n (St K).W (List.range n)).map fun s => newSProver s.1 s.2.1 s.2.2 (St K).base.gates (St K).base.statics

variable {H b n K bG logN W0 base0 z}

theorem workerT_lt {k w : Nat} (hk : k < K) (o : Option (SProver F)) : workerT b K w 0 (3 + w) 1 2 k o =
    .send 0 (vecMsg (evalsT b k o)) (.send 2 .tok (recvElem (3 + w) fun r => acquireP 2 (workerT b K w 0 (3 + w) 1 2 (k + 1) (stepT b k o r)))) := by
  unfold workerT
  rw [loopP_lt _ _ hk]
  rfl

theorem workerT_end (w : Nat) (o : Option (SProver F)) :
    workerT b K w 0 (3 + w) 1 2 K o = .send 1 (provMsg w o) (.send 2 .tok (.close (3 + w) (.ret .tok))) := by
  unfold workerT
  rw [Nat.sub_self]
  rfl

theorem afterAccT_full {B : Nat} {C : List Nat} (hC : C.Perm (List.range n)) :
    afterAccT H b n K bG logN W0 base0 z B (sumT (lenT b B (St B).base) (fun w => evalsT b B ((St B).W w)) C) =
      broadcastP (rChansOf n) (chalT H ((St B).c b n B)) (mainT H n K bG logN z 0 1 (rChansOf n) (B + 1) (St (B + 1)).hist) := by
  rw [sumT_perm hC]
  rfl

theorem afterMergeT_full (h0 : ∀ w < n, ∀ sp, W0 w = some sp → SameKind sp base0) {w0 : Nat} (hw0 : w0 < n) {C : List Nat}
    (hC : C.Perm (List.range n)) : afterMergeT H b n K bG logN W0 base0 z w0 (mergedT n (St K).W C) =
      .close 0 (.close 1 (.ret (outT H bG logN z (St K).hist (lastT H b n K W0 base0)))) := by
  unfold afterMergeT lastT
  rw [mergedT_perm hC]
  have : newT (((St K).W w0).map fun sp => (w0, sp)) (mergedT n (St K).W (List.range n)) =
      (mergedT n (St K).W (List.range n)).map fun s => newSProver s.1 s.2.1 s.2.2 (St K).base.gates (St K).base.statics := by
    cases hW : (St K).W w0 with
    | none =>
      have : ¬ (List.range n).all (fun w => (headT ((St K).W w)).isSome) = true := by
        intro h
        have := List.all_eq_true.1 h w0 (List.mem_range.2 hw0)
        rw [hW] at this
        simp [headT] at this
      unfold mergedT
      rw [if_neg this]
      rfl
    | some sp =>
      have hs := statesT_same (H := H) (b := b) h0 K w0 hw0 sp hW
      simp only [newT, Option.map_some, Option.bind_some, hs.gates, hs.statics]
  rw [this]

/-- The program with marks is an instance of the protocol. -/
def protoT (h0 : ∀ w < n, ∀ sp, W0 w = some sp → SameKind sp base0) (hn : 0 < n) : Proto F n K where
  msg := msgT H b n K W0 base0
  rv := fun k => chalT H ((St k).c b n k)
  worker := workerAtT H b n K W0 base0
  consume := consumeT H b n K bG logN W0 base0 z
  bnew := fun B => broadcastP (rChansOf n) (chalT H ((St (B - 1)).c b n (B - 1))) (mainT H n K bG logN z 0 1 (rChansOf n) B (St B).hist)
  bcast := bcastT H b n K bG logN W0 base0 z
  mkc := fun j => launchT H b n K bG logN W0 z 0 1 2 j (tab j (3 + ·))
  out := outT H bG logN z (St K).hist (lastT H b n K W0 base0)
  hn := hn
  wAcq := by
    intro w _ k hk
    rw [workerAtT0 _ _ _ _ _ _ w hk, workerAtT1 _ _ _ _ _ _ w hk]
    rfl
  wSend := by
    intro w hw k hk
    rw [workerAtT1 _ _ _ _ _ _ w hk, workerAtT2 _ _ _ _ _ _ w hk]
    unfold wNextT msgT roundChan
    rcases Nat.lt_or_ge k K with hlt | hge
    · simp only [hlt, if_true]
      exact workerT_lt hlt _
    · obtain rfl : k = K := by omega
      simp only [Nat.lt_irrefl, if_false]
      exact workerT_end w _
  wRel := by
    intro w _ k hk
    rw [workerAtT2 _ _ _ _ _ _ w hk, workerAtT3 _ _ _ _ _ _ w hk]
  wRecv := by
    intro w hw k hk
    rw [workerAtT3 _ _ _ _ _ _ w (by omega), show 4 * k + 4 = 4 * (k + 1) by ring, workerAtT0 _ _ _ _ _ _ w (show k + 1 ≤ K by omega)]
    unfold wNextT
    rw [if_pos hk]
    refine ⟨_, rfl, rfl, ?_⟩
    intro v
    cases v with
    | none => simp [acquireP, Holds]
    | some v => cases v <;> simp [acquireP, Holds]
  wClose := by
    intro w _
    rw [workerAtT3 _ _ _ _ _ _ w le_rfl, workerAtT4]
    unfold wNextT
    rw [if_neg (by omega)]
  wRet := fun w _ => workerAtT4 _ _ _ _ _ _ w
  mMk := by
    intro j hj
    unfold launchT
    rw [loopP_lt _ _ hj]
    refine ⟨_, rfl, ?_⟩
    dsimp only
    have hw : workerAtT H b n K W0 base0 j 0 = acquireP 2 (workerT b K j 0 (3 + j) 1 2 0 (W0 j)) :=
      workerAtT0 _ _ _ _ _ _ j (k := 0) (Nat.zero_le _)
    rw [hw]
    congr 1
    · rw [← tab_succ' j (3 + ·)]
      split_ifs with hj1
      · rfl
      · rw [show n - (j + 1) = 0 by omega]
        obtain rfl : n = j + 1 := by omega
        rfl
  mConsume := by
    intro B hB C hCnd hCmem hCn
    rcases Nat.lt_or_ge B K with hlt | hge
    · have hch : roundChan K B = 0 := by simp [roundChan, hlt]
      have hmsg : ∀ w, msgT H b n K W0 base0 B w = vecMsg (evalsT b B ((St B).W w)) := fun w => by simp [msgT, hlt]
      rw [hch]
      simp only [hlt, if_true, hmsg]
      cases C with
      | nil =>
        rw [consumeT_nil, mainT_lt _ _ _ _ _ _ _ _ _ hlt]
        refine ⟨_, rfl, ?_⟩
        intro w hw _
        simp only [List.length_nil, Nat.zero_add, List.nil_append]
        rw [vecOf_vecMsg, sumT_single (E := fun w => evalsT b B ((St B).W w)) (w := w) (statesT_len h0 B hw)]
        by_cases h1 : 1 < n
        · rw [if_pos h1, consumeT_lt _ _ _ _ _ _ _ _ _ hlt]
          rfl
        · rw [if_neg h1, show n - 1 = 0 by omega]
          simp only [loopP]
          exact afterAccT_full (nodup_perm_range (by simp) (by simpa using hw) (by simp; omega))
      | cons w0 C =>
        simp only [List.length_cons] at hCn
        rw [consumeT_lt _ _ _ _ _ _ _ _ _ hlt, loopP_lt _ _ (show C.length < n - 1 by omega)]
        refine ⟨_, rfl, ?_⟩
        intro w hw hwC
        simp only [List.cons_append, List.length_cons]
        rw [vecOf_vecMsg, sumT_add (E := fun w => evalsT b B ((St B).W w)) (w := w) (statesT_len h0 B hw)]
        have hnd : (w0 :: C ++ [w]).Nodup := List.nodup_append.2 ⟨hCnd, List.nodup_singleton _, by
          intro a ha b hb
          rw [List.mem_singleton.1 hb]
          rintro rfl
          exact hwC ha⟩
        by_cases h1 : C.length + 1 + 1 < n
        · rw [if_pos h1, consumeT_lt _ _ _ _ _ _ _ _ _ hlt, List.length_append, List.length_singleton]
          rfl
        · rw [if_neg h1, show n - 1 - (C.length + 1) = 0 by omega]
          simp only [loopP]
          refine afterAccT_full (nodup_perm_range hnd ?_ (by simp; omega))
          intro v hv
          rcases List.mem_append.1 hv with h | h
          · exact hCmem v h
          · rw [List.mem_singleton.1 h]; exact hw
    · obtain rfl : B = K := by omega
      have hch : roundChan B B = 1 := by simp [roundChan]
      have hmsg : ∀ w, msgT H b n B W0 base0 B w = provMsg w ((St B).W w) := fun w => by simp [msgT]
      rw [hch]
      simp only [Nat.lt_irrefl, if_false, hmsg]
      cases C with
      | nil =>
        rw [consumeT_nil, mainT_end]
        refine ⟨_, rfl, ?_⟩
        intro w hw _
        simp only [List.length_nil, Nat.zero_add, List.nil_append]
        rw [provOf_provMsg, ← mergedT_nil n (St B).W, mergeT_add hw, List.nil_append]
        by_cases h1 : 1 < n
        · rw [if_pos h1, consumeT_end]
          rfl
        · rw [if_neg h1, show n - 1 = 0 by omega]
          simp only [loopP]
          exact afterMergeT_full h0 hw (nodup_perm_range (by simp) (by simpa using hw) (by simp; omega))
      | cons w0 C =>
        simp only [List.length_cons] at hCn
        rw [consumeT_end, loopP_lt _ _ (show C.length < n - 1 by omega)]
        refine ⟨_, rfl, ?_⟩
        intro w hw hwC
        simp only [List.cons_append, List.length_cons]
        rw [provOf_provMsg, mergeT_add hw]
        have hnd : (w0 :: C ++ [w]).Nodup := List.nodup_append.2 ⟨hCnd, List.nodup_singleton _, by
          intro a ha b hb
          rw [List.mem_singleton.1 hb]
          rintro rfl
          exact hwC ha⟩
        by_cases h1 : C.length + 1 + 1 < n
        · rw [if_pos h1, consumeT_end, List.length_append, List.length_singleton]
          rfl
        · rw [if_neg h1, show n - 1 - (C.length + 1) = 0 by omega]
          simp only [loopP]
          refine afterMergeT_full h0 (hCmem w0 (by simp)) (nodup_perm_range hnd ?_ (by simp; omega))
          intro v hv
          rcases List.mem_append.1 hv with h | h
          · exact hCmem v h
          · rw [List.mem_singleton.1 h]; exact hw
  mNew := by
    intro B h1 h2
    have hl : (rChansOf n).length = n := by simp [rChansOf]
    unfold broadcastP bcastT
    rw [hl]
    exact ⟨_, rfl, rfl⟩
  mGo := by
    intro B h1 h2 j hj
    unfold bcastT
    rw [loopP_lt _ _ hj]
    have : idx (rChansOf n) j = .ok (3 + j) := by unfold rChansOf; rw [idx_tab hj]
    rw [this, liftGo_ok]
  mWait := by
    intro B h1 h2
    unfold bcastT
    rw [Nat.sub_self]
    rfl

/-- The program with marks under all schedules. -/
theorem proveT_good (h0 : ∀ w < n, ∀ sp, W0 w = some sp → SameKind sp base0) (hn : 0 < n) {nCore : Int} (hc : 1 ≤ nCore) :
    ∃ bound, GoodRun 2 nCore.toNat (fun s => s.gs 0 = .ret (outT H bG logN z (St K).hist (lastT H b n K W0 base0))) bound
      (startOf (proveT H b n K bG logN W0 z nCore) () .tok) := by
  obtain ⟨N, rfl⟩ := Int.eq_ofNat_of_zero_le (show 0 ≤ nCore by omega)
  rw [start_eq]
  refine goodRun_cons_ex (soloConf_solo _ _ _ _ _ _ _) (soloConf_make _ _ _ _ _ _ _ _)
    (goodRun_cons_ex (soloConf_solo _ _ _ _ _ _ _) (soloConf_make _ _ _ _ _ _ _ _)
    (goodRun_semaphore_ex _ _ _ _ _ _ _ _ ?_))
  change ∃ B, GoodRun _ _ _ _ (soloConf _ ((protoT (H := H) (b := b) (K := K) (bG := bG) (logN := logN) (z := z) h0 hn).mkc 0) _ _ _ _ _)
  obtain ⟨B, hB⟩ := proto_good (protoT (H := H) (b := b) (K := K) (bG := bG) (logN := logN) (z := z) h0 hn) (show 1 ≤ N by omega)
    (Function.update (Function.update (Function.update (fun _ => ⟨[], 0, false⟩) 0 ⟨[], n, false⟩) 1 ⟨[], n, false⟩) 2
      ⟨List.replicate N .tok, N, false⟩) (by simp) (by simp) (by simp)
  exact ⟨B, goodRun_post hB fun _ hs => hs.1⟩

end

end GkrMimc
