import Verif.Proofs.ConcProveData

/-! `MultiThreadedProver.Prove` under all schedules. -/

set_option linter.unusedSectionVars false

namespace GkrMimc

open Spec Finset

variable {F : Type} [Field F] [DecidableEq F]

section Loops
variable {M V : Type}

theorem loopP_shift {σ : Type} {body body' : Nat → σ → (σ → Prog M V) → Prog M V} {k k' : σ → Prog M V} (hk : ∀ s, k s = k' s) :
    ∀ (n j j' : Nat) (s : σ), (∀ i < n, ∀ s next, body (j + i) s next = body' (j' + i) s next) →
      loopP body k j n s = loopP body' k' j' n s
  | 0, _, _, s, _ => hk s
  | n + 1, j, j', s, h => by
    have h0 := h 0 (by omega)
    simp only [Nat.add_zero] at h0
    simp only [loopP]
    rw [h0]
    congr 1
    funext s'
    exact loopP_shift hk n (j + 1) (j' + 1) s' (fun i hi s next => by
      have := h (i + 1) (by omega) s next
      rwa [show j + (i + 1) = j + 1 + i by omega, show j' + (i + 1) = j' + 1 + i by omega] at this)

theorem loopP_add {σ : Type} (body : Nat → σ → (σ → Prog M V) → Prog M V) (k : σ → Prog M V) (b : Nat) :
    ∀ (a j : Nat) (s : σ), loopP body k j (a + b) s = loopP body (fun s => loopP body k (j + a) b s) j a s
  | 0, j, s => by simp [loopP]
  | a + 1, j, s => by
    rw [show a + 1 + b = (a + b) + 1 by omega]
    simp only [loopP]
    congr 1
    funext s'
    rw [loopP_add body k b a (j + 1) s', show j + 1 + a = j + (a + 1) by omega]

theorem loopP_lt {σ : Type} (body : Nat → σ → (σ → Prog M V) → Prog M V) (k : σ → Prog M V) {j n : Nat} (h : j < n) (s : σ) :
    loopP body k j (n - j) s = body j s (fun s' => loopP body k (j + 1) (n - (j + 1)) s') := by
  obtain ⟨m, hm⟩ : ∃ m, n - j = m + 1 := ⟨n - j - 1, by omega⟩
  rw [hm, show n - (j + 1) = m by omega]
  rfl

end Loops

/-! ### The codes -/

section Codes
variable (H : List F → F) (b n K : Nat)

/-- The code of a worker after Acquire, in round `k`. -/
def uniLoop (w k : Nat) (sp : SProver F) : Prog Unit (Msg F) :=
  loopP (fun k => workerTurn (workerEvals b k) (workerFold b k) 0 (3 + w) 2)
    (fun sp => .send 1 (.prover w sp) <| releaseP 2 .tok <| .close (3 + w) <| .ret .tok) k (K - k) sp

theorem runForChunkP_eq {p : MProver F} {w : Nat} {sp : SProver F} {bN : Nat} (h1 : p.subProver w = .ok sp)
    (h2 : sp.dims = .ok (b, bN)) (hK : 2 * b + bN = K) :
    p.runForChunkP w 0 (3 + w) 1 2 = acquireP 2 (uniLoop b K w 0 sp) := by
  unfold MProver.runForChunkP uniLoop
  rw [h1, liftGo_ok, h2, liftGo_ok]
  congr 1
  rw [show K - 0 = b + (b + bN) by omega, loopP_add]
  apply loopP_shift
  · intro sp
    rw [loopP_add]
    apply loopP_shift
    · intro sp
      apply loopP_shift
      · intro sp; rfl
      · intro i hi s next
        unfold workerTurn
        have e1 : workerEvals b (0 + b + b + i) s = s.getEvalsOnHPrime := by
          unfold workerEvals; rw [if_neg (by omega), if_neg (by omega)]
        have e2 : ∀ r, workerFold b (0 + b + b + i) s r = s.foldHPrime r := by
          intro r; unfold workerFold; rw [if_neg (by omega), if_neg (by omega)]
        simp only [e1, e2]
    · intro i hi s next
      unfold workerTurn
      have e1 : workerEvals b (0 + b + i) s = s.getEvalsOnHR := by
        unfold workerEvals; rw [if_neg (by omega), if_pos (by omega)]
      have e2 : ∀ r, workerFold b (0 + b + i) s r = s.foldHR r := by
        intro r; unfold workerFold; rw [if_neg (by omega), if_pos (by omega)]
      simp only [e1, e2]
  · intro i hi s next
    unfold workerTurn
    have e1 : workerEvals b (0 + i) s = s.getEvalsOnHL := by
      unfold workerEvals; rw [if_pos (by omega)]
    have e2 : ∀ r, workerFold b (0 + i) s r = s.foldHL r := by
      intro r; unfold workerFold; rw [if_pos (by omega)]
    simp only [e1, e2]

/-- `rChans`. -/
def rChansOf : List Nat := tab n (3 + ·)

/-- The main loop of `Prove` from round `B` on. -/
def mainFrom (tail : List (List F) × List F → SProver F → Prog Unit (Msg F)) (B : Nat) (s : List (List F) × List F) :
    Prog Unit (Msg F) :=
  loopP (fun _ s next =>
      consumeAccumulateP 0 n fun evals =>
      liftGo (interpolateOnRange evals) fun c =>
      broadcastP (rChansOf n) (H c) (next (s.1 ++ [c], s.2 ++ [H c])))
    (fun s => consumeMergeProversP 1 n (tail s)) B (K - B) s

/-- The launching loop of `Prove`. -/
def launchFrom (p : MProver F) (k : List Nat → Prog Unit (Msg F)) (j : Nat) (chs : List Nat) : Prog Unit (Msg F) :=
  loopP (fun i chs next =>
      .make 1 fun rChan =>
      .go (p.runForChunkP i 0 rChan 1 2) (next (chs ++ [rChan]))) k j (n - j) chs

end Codes

section
variable {H : List F → F} {b n K : Nat} {W0 : Nat → SProver F} (D : ProveData F H b n K W0)

/-- What main has recorded before round `B`. -/
def ProveData.hist (B : Nat) : List (List F) × List F := (tab B D.c, tab B fun k => H (D.c k))

theorem ProveData.hist_succ (B : Nat) : ((D.hist B).1 ++ [D.c B], (D.hist B).2 ++ [H (D.c B)]) = D.hist (B + 1) := by
  simp [ProveData.hist, tab_succ']

theorem uniLoop_lt {k w : Nat} (hk : k < K) (hw : w < n) : uniLoop b K w k (D.W k w) =
    .send 0 (.vec (D.E k w)) (.send 2 .tok (recvElem (3 + w) fun r => acquireP 2 (uniLoop b K w (k + 1) (workerFold b k (D.W k w) r)))) := by
  unfold uniLoop
  rw [loopP_lt _ _ hk]
  unfold workerTurn
  rw [D.evals k hk w hw, liftGo_ok]
  rfl

theorem uniLoop_end (w : Nat) (sp : SProver F) :
    uniLoop b K w K sp = .send 1 (.prover w sp) (.send 2 .tok (.close (3 + w) (.ret .tok))) := by
  unfold uniLoop
  rw [Nat.sub_self]
  rfl

/-- What a worker does after the release in round `k`. -/
def ProveData.wNext (w k : Nat) : Prog Unit (Msg F) :=
  if k < K then recvElem (3 + w) fun r => acquireP 2 (uniLoop b K w (k + 1) (workerFold b k (D.W k w) r))
  else .close (3 + w) (.ret .tok)

/-- The code of a worker after `t` steps. -/
def ProveData.worker (w t : Nat) : Prog Unit (Msg F) :=
  if t = 4 * K + 4 then .ret .tok
  else if t % 4 = 0 then acquireP 2 (uniLoop b K w (t / 4) (D.W (t / 4) w))
  else if t % 4 = 1 then uniLoop b K w (t / 4) (D.W (t / 4) w)
  else if t % 4 = 2 then .send 2 .tok (D.wNext w (t / 4))
  else D.wNext w (t / 4)

theorem ProveData.worker0 (w : Nat) {k : Nat} (hk : k ≤ K) : D.worker w (4 * k) = acquireP 2 (uniLoop b K w k (D.W k w)) := by
  unfold ProveData.worker
  rw [if_neg (by omega), if_pos (by omega), show 4 * k / 4 = k by omega]

theorem ProveData.worker1 (w : Nat) {k : Nat} (hk : k ≤ K) : D.worker w (4 * k + 1) = uniLoop b K w k (D.W k w) := by
  unfold ProveData.worker
  rw [if_neg (by omega), if_neg (by omega), if_pos (by omega), show (4 * k + 1) / 4 = k by omega]

theorem ProveData.worker2 (w : Nat) {k : Nat} (hk : k ≤ K) : D.worker w (4 * k + 2) = .send 2 .tok (D.wNext w k) := by
  unfold ProveData.worker
  rw [if_neg (by omega), if_neg (by omega), if_neg (by omega), if_pos (by omega), show (4 * k + 2) / 4 = k by omega]

theorem ProveData.worker3 (w : Nat) {k : Nat} (hk : k ≤ K) : D.worker w (4 * k + 3) = D.wNext w k := by
  unfold ProveData.worker
  rw [if_neg (by omega), if_neg (by omega), if_neg (by omega), if_neg (by omega), show (4 * k + 3) / 4 = k by omega]

theorem ProveData.worker4 (w : Nat) : D.worker w (4 * K + 4) = .ret .tok := by
  unfold ProveData.worker
  rw [if_pos rfl]

/-- The message of worker `w` in round `k`. -/
def ProveData.msg (k w : Nat) : Msg F := if k < K then .vec (D.E k w) else .prover w (D.W k w)

variable (tail : List (List F) × List F → SProver F → Prog Unit (Msg F)) (l r e : Nat → F)

/-- What main does with the sum of the messages. -/
def ProveData.afterAcc (B : Nat) (evals : List F) : Prog Unit (Msg F) :=
  liftGo (interpolateOnRange evals) fun c =>
  broadcastP (rChansOf n) (H c) (mainFrom H n K tail (B + 1) ((D.hist B).1 ++ [c], (D.hist B).2 ++ [H c]))

/-- What main does with the merged tables; `w0` is the sub-prover that came first. -/
def ProveData.afterMerge (w0 : Nat) (s : List F × List F × List F) : Prog Unit (Msg F) :=
  tail (D.hist K) (newSProver s.1 s.2.1 s.2.2 (D.W K w0).gates (D.W K w0).statics)

/-- The code of main in round `B` after it has consumed the messages of the workers in `C`. -/
def ProveData.consume (B : Nat) : List Nat → Prog Unit (Msg F)
  | [] => mainFrom H n K tail B (D.hist B)
  | w0 :: C =>
    if B < K then
      loopP (fun _ res next => recvVec 0 fun tmp => liftGo (addMsg tmp res) next) (D.afterAcc tail B) C.length (n - 1 - C.length)
        (D.sum B (w0 :: C))
    else
      loopP (fun _ s next => recvProver 1 fun i sp => liftGo (mergeMsg i sp s) next) (D.afterMerge tail w0) C.length (n - 1 - C.length)
        (mergedTab n (w0 :: C) l, mergedTab n (w0 :: C) r, mergedTab n (w0 :: C) e)

theorem consume_nil (B : Nat) : D.consume tail l r e B [] = mainFrom H n K tail B (D.hist B) := rfl

theorem consume_lt {B : Nat} (hB : B < K) (w0 : Nat) (C : List Nat) : D.consume tail l r e B (w0 :: C) =
    loopP (fun _ res next => recvVec 0 fun tmp => liftGo (addMsg tmp res) next) (D.afterAcc tail B) C.length (n - 1 - C.length)
      (D.sum B (w0 :: C)) := by
  simp only [ProveData.consume]
  rw [if_pos hB]

theorem consume_end (w0 : Nat) (C : List Nat) : D.consume tail l r e K (w0 :: C) =
    loopP (fun _ s next => recvProver 1 fun i sp => liftGo (mergeMsg i sp s) next) (D.afterMerge tail w0) C.length (n - 1 - C.length)
      (mergedTab n (w0 :: C) l, mergedTab n (w0 :: C) r, mergedTab n (w0 :: C) e) := by
  simp only [ProveData.consume]
  rw [if_neg (by omega)]

theorem mainFrom_lt {B : Nat} (hB : B < K) : mainFrom H n K tail B (D.hist B) =
    recvVec 0 fun res => loopP (fun _ res next => recvVec 0 fun tmp => liftGo (addMsg tmp res) next) (D.afterAcc tail B) 0 (n - 1) res := by
  unfold mainFrom
  rw [loopP_lt _ _ hB]
  rfl

theorem mainFrom_end : mainFrom H n K tail K (D.hist K) = consumeMergeProversP 1 n (tail (D.hist K)) := by
  unfold mainFrom
  rw [Nat.sub_self]
  rfl

/-- The loop that starts the broadcasters. -/
def ProveData.bcast (B j : Nat) : Prog Unit (Msg F) :=
  loopP (fun i _ next =>
      liftGo (idx (rChansOf n) i) fun ch =>
      .go (.send ch (.elem (H (D.c (B - 1)))) <| .wgDone (B - 1) <| .ret .tok) (next ()))
    (fun _ => .wgWait (B - 1) (mainFrom H n K tail B (D.hist B))) j (n - j) ()

theorem ProveData.afterAcc_full (h0 : ∀ w < n, ∀ w' < n, SameKind (W0 w) (W0 w')) (hn : 0 < n) {B : Nat} (hB : B < K)
    {C : List Nat} (hC : C.Perm (List.range n)) : D.afterAcc tail B (D.sum B C) =
      broadcastP (rChansOf n) (H (D.c B)) (mainFrom H n K tail (B + 1) (D.hist (B + 1))) := by
  unfold ProveData.afterAcc
  rw [D.total h0 hn hB hC, liftGo_ok, D.hist_succ]

/-- The codes of `Prove` are an instance of the protocol. -/
def ProveData.proto (h0 : ∀ w < n, ∀ w' < n, SameKind (W0 w) (W0 w')) (hn : 0 < n) (p : MProver F) (out : Msg F)
    (kk : List Nat → Prog Unit (Msg F)) (hkk : kk (rChansOf n) = mainFrom H n K tail 0 ([], []))
    (hrun : ∀ w < n, p.runForChunkP w 0 (3 + w) 1 2 = acquireP 2 (uniLoop b K w 0 (W0 w)))
    (hhead : ∀ w < n, idx (D.W K w).vL 0 = .ok (l w) ∧ idx (D.W K w).vR 0 = .ok (r w) ∧ idx (D.W K w).eq 0 = .ok (e w))
    (htail : tail (D.hist K) (newSProver (tab n l) (tab n r) (tab n e) (D.W K 0).gates (D.W K 0).statics) =
      .close 0 (.close 1 (.ret out))) : Proto F n K where
  msg := D.msg
  rv := fun k => H (D.c k)
  worker := D.worker
  consume := D.consume tail l r e
  bnew := fun B => broadcastP (rChansOf n) (H (D.c (B - 1))) (mainFrom H n K tail B (D.hist B))
  bcast := D.bcast tail
  mkc := fun j => launchFrom n p kk j (tab j (3 + ·))
  out := out
  hn := hn
  wAcq := by
    intro w _ k hk
    rw [D.worker0 w hk, D.worker1 w hk]
    rfl
  wSend := by
    intro w hw k hk
    rw [D.worker1 w hk, D.worker2 w hk]
    unfold ProveData.wNext ProveData.msg roundChan
    rcases Nat.lt_or_ge k K with hlt | hge
    · simp only [hlt, if_true]
      exact uniLoop_lt D hlt hw
    · obtain rfl : k = K := by omega
      simp only [Nat.lt_irrefl, if_false]
      exact uniLoop_end w _
  wRel := by
    intro w _ k hk
    rw [D.worker2 w hk, D.worker3 w hk]
  wRecv := by
    intro w hw k hk
    rw [D.worker3 w (by omega), show 4 * k + 4 = 4 * (k + 1) by ring, D.worker0 w (show k + 1 ≤ K by omega)]
    unfold ProveData.wNext
    rw [if_pos hk]
    refine ⟨_, rfl, ?_, ?_⟩
    · simp only
      rw [D.next k hk w hw]
    · intro v
      cases v with
      | none => simp [acquireP, Holds]
      | some v => cases v <;> simp [acquireP, Holds]
  wClose := by
    intro w _
    rw [D.worker3 w le_rfl, D.worker4]
    unfold ProveData.wNext
    rw [if_neg (by omega)]
  wRet := fun w _ => D.worker4 w
  mMk := by
    intro j hj
    unfold launchFrom
    rw [loopP_lt _ _ hj]
    refine ⟨_, rfl, ?_⟩
    simp only
    rw [hrun j hj]
    congr 1
    · rw [show (0 : Nat) = 4 * 0 from rfl, D.worker0 j (Nat.zero_le _), D.start j hj]
    · rw [← tab_succ' j (3 + ·)]
      split_ifs with hj1
      · rfl
      · rw [show n - (j + 1) = 0 by omega]
        obtain rfl : n = j + 1 := by omega
        exact hkk
  mConsume := by
    intro B hB C hCnd hCmem hCn
    rcases Nat.lt_or_ge B K with hlt | hge
    · -- evaluations
      have hch : roundChan K B = 0 := by simp [roundChan, hlt]
      have hmsg : ∀ w, D.msg B w = .vec (D.E B w) := fun w => by simp [ProveData.msg, hlt]
      rw [hch]
      simp only [hlt, if_true, hmsg]
      cases C with
      | nil =>
        rw [consume_nil, mainFrom_lt D tail hlt]
        refine ⟨_, rfl, ?_⟩
        intro w hw _
        simp only [List.length_nil, Nat.zero_add, List.nil_append]
        rw [D.single h0 hlt hw]
        by_cases h1 : 1 < n
        · rw [if_pos h1, consume_lt D tail l r e hlt]
          rfl
        · rw [if_neg h1, show n - 1 = 0 by omega]
          simp only [loopP]
          exact D.afterAcc_full tail h0 hn hlt (nodup_perm_range (by simp) (by simpa using hw) (by simp; omega))
      | cons w0 C =>
        simp only [List.length_cons] at hCn
        rw [consume_lt D tail l r e hlt, loopP_lt _ _ (show C.length < n - 1 by omega)]
        refine ⟨_, rfl, ?_⟩
        intro w hw hwC
        simp only [List.cons_append, List.length_cons]
        rw [D.add h0 hlt _ hw, liftGo_ok]
        have hnd : (w0 :: C ++ [w]).Nodup := List.nodup_append.2 ⟨hCnd, List.nodup_singleton _, by
          intro a ha b hb
          rw [List.mem_singleton.1 hb]
          rintro rfl
          exact hwC ha⟩
        by_cases h1 : C.length + 1 + 1 < n
        · rw [if_pos h1, consume_lt D tail l r e hlt, List.length_append, List.length_singleton]
          rfl
        · rw [if_neg h1, show n - 1 - (C.length + 1) = 0 by omega]
          simp only [loopP]
          refine D.afterAcc_full tail h0 hn hlt (nodup_perm_range hnd ?_ (by simp; omega))
          intro v hv
          rcases List.mem_append.1 hv with h | h
          · exact hCmem v h
          · rw [List.mem_singleton.1 h]; exact hw
    · obtain rfl : B = K := by omega
      have hch : roundChan B B = 1 := by simp [roundChan]
      have hmsg : ∀ w, D.msg B w = .prover w (D.W B w) := fun w => by simp [ProveData.msg]
      have hfull : ∀ w0 < n, ∀ C : List Nat, C.Perm (List.range n) → D.afterMerge tail w0 (mergedTab n C l, mergedTab n C r, mergedTab n C e) =
          .close 0 (.close 1 (.ret out)) := by
        intro w0 hw0 C hC
        unfold ProveData.afterMerge
        simp only [mergedTab_full n hC]
        have := D.same h0 B le_rfl w0 hw0 0 hn
        rw [this.gates, this.statics, htail]
      rw [hch]
      simp only [Nat.lt_irrefl, if_false, hmsg]
      cases C with
      | nil =>
        rw [consume_nil, mainFrom_end D tail]
        refine ⟨_, rfl, ?_⟩
        intro w hw _
        obtain ⟨e1, e2, e3⟩ := hhead w hw
        simp only [List.length_nil, Nat.zero_add, List.nil_append]
        have hz : ∀ x : Nat → F, List.replicate n (0 : F) = mergedTab n [] x := by
          intro x; simp [mergedTab, replicate_eq_tab]
        rw [show ((List.replicate n (0 : F), List.replicate n (0 : F), List.replicate n (0 : F)) : List F × List F × List F) =
          (mergedTab n [] l, mergedTab n [] r, mergedTab n [] e) by rw [← hz, ← hz, ← hz],
          mergeMsg_ok hw e1 e2 e3, liftGo_ok, List.nil_append]
        by_cases h1 : 1 < n
        · rw [if_pos h1, consume_end D tail l r e]
          rfl
        · rw [if_neg h1, show n - 1 = 0 by omega]
          simp only [loopP]
          exact hfull w hw [w] (nodup_perm_range (by simp) (by simpa using hw) (by simp; omega))
      | cons w0 C =>
        simp only [List.length_cons] at hCn
        rw [consume_end D tail l r e, loopP_lt _ _ (show C.length < n - 1 by omega)]
        refine ⟨_, rfl, ?_⟩
        intro w hw hwC
        obtain ⟨e1, e2, e3⟩ := hhead w hw
        simp only [List.cons_append, List.length_cons]
        rw [mergeMsg_ok hw e1 e2 e3, liftGo_ok]
        have hnd : (w0 :: C ++ [w]).Nodup := List.nodup_append.2 ⟨hCnd, List.nodup_singleton _, by
          intro a ha b hb
          rw [List.mem_singleton.1 hb]
          rintro rfl
          exact hwC ha⟩
        by_cases h1 : C.length + 1 + 1 < n
        · rw [if_pos h1, consume_end D tail l r e, List.length_append, List.length_singleton]
          rfl
        · rw [if_neg h1, show n - 1 - (C.length + 1) = 0 by omega]
          simp only [loopP]
          refine hfull w0 (hCmem w0 (by simp)) _ (nodup_perm_range hnd ?_ (by simp; omega))
          intro v hv
          rcases List.mem_append.1 hv with h | h
          · exact hCmem v h
          · rw [List.mem_singleton.1 h]; exact hw
  mNew := by
    intro B h1 h2
    have hl : (rChansOf n).length = n := by simp [rChansOf]
    unfold broadcastP ProveData.bcast
    rw [hl]
    exact ⟨_, rfl, rfl⟩
  mGo := by
    intro B h1 h2 j hj
    unfold ProveData.bcast
    rw [loopP_lt _ _ hj]
    have : idx (rChansOf n) j = .ok (3 + j) := by unfold rChansOf; rw [idx_tab hj]
    rw [this, liftGo_ok]
  mWait := by
    intro B h1 h2
    unfold ProveData.bcast
    rw [Nat.sub_self]
    rfl

end

/-- All the chunks have the same dimensions. -/
def EvenChunks (p : MProver F) : Prop :=
  ∀ i < p.eq.length, ∀ j < p.eq.length, (p.subProver i >>= SProver.dims) = (p.subProver j >>= SProver.dims)

theorem gen_ok_iff {β : Type} {f : Nat → Go β} {m : Nat} {ys : List β} (h : gen m f = .ok ys) :
    ys.length = m ∧ ∀ i (hi : i < ys.length), f i = .ok ys[i] := by
  have key : ∀ (m k : Nat) (ys : List β), genM f k m = .ok ys → ys.length = m ∧ ∀ i (hi : i < ys.length), f (k + i) = .ok ys[i] := by
    intro m
    induction m with
    | zero =>
      intro k ys h
      simp only [genM, Except.ok.injEq] at h
      subst h
      exact ⟨rfl, fun i hi => by simp at hi⟩
    | succ m ih =>
      intro k ys h
      rw [genM] at h
      cases hy : f k with
      | error e => rw [hy] at h; cases h
      | ok y =>
        rw [hy] at h
        simp only at h
        cases hz : genM f (k + 1) m with
        | error e => rw [hz] at h; cases h
        | ok zs =>
          rw [hz] at h
          simp only [Except.ok.injEq] at h
          subst h
          obtain ⟨h1, h2⟩ := ih (k + 1) zs hz
          refine ⟨by simp [h1], ?_⟩
          intro i hi
          cases i with
          | zero => simpa using hy
          | succ i =>
            have := h2 i (by simpa using hi)
            rw [show k + 1 + i = k + (i + 1) by omega] at this
            simpa using this
  have := key m 0 ys h
  simpa using this

/-- A run of the sequential `Prove` gives the data of the protocol. -/
theorem prove_proto {H : List F → F} {p : MProver F} {nCore : Int} {out : SumcheckOut F} (h : p.prove H nCore = .ok out)
    (heven : EvenChunks p) : 1 ≤ nCore ∧ ∃ K, ∃ P : Proto F p.eq.length K, P.out = .out out ∧ ∃ g : Nat → Nat → Nat → Prog Unit (Msg F),
      g 0 1 2 = P.mkc 0 ∧ ∀ nCore', p.proveP H nCore' =
      .make p.eq.length fun evalsChan => .make p.eq.length fun finChan => newSemaphoreP .tok nCore' fun sem => g evalsChan finChan sem := by
  unfold MProver.prove at h
  obtain ⟨eq0, heq0, h⟩ := bind_eq_ok.1 h
  obtain ⟨vL0, hvL0, h⟩ := bind_eq_ok.1 h
  obtain ⟨gg, hgg, h⟩ := bind_eq_ok.1 h
  obtain ⟨_, hsem, h⟩ := bind_eq_ok.1 h
  obtain ⟨ws, hws, h⟩ := bind_eq_ok.1 h
  obtain ⟨dims, hdims, h⟩ := bind_eq_ok.1 h
  have hn : 0 < p.eq.length := idx_ok_lt heq0
  refine ⟨semaphoreSection_ok hsem hn, ?_⟩
  simp only at h
  by_cases hd : (dims.any fun d => decide (2 * d.1 + d.2 ≠ 2 * log2Ceil gg + log2Ceil ((p.eq.length * eq0.length : Nat) : Int) - log2Ceil p.eq.length)) = true
  · rw [if_pos hd] at h; cases h
  rw [if_neg hd] at h
  obtain ⟨s, hs, h⟩ := bind_eq_ok.1 h
  obtain ⟨newP, hmerge, h⟩ := bind_eq_ok.1 h
  obtain ⟨t, ht, h⟩ := bind_eq_ok.1 h
  obtain ⟨t1, cF, qF⟩ := t
  obtain ⟨fc, hfc, hfin⟩ := bind_eq_ok.1 h
  -- the workers
  obtain ⟨hwl, hwi⟩ := gen_ok_iff hws
  obtain ⟨hdl, hdi⟩ := mapGo_ok_iff hdims
  let W0 : Nat → SProver F := fun w => ws.getD w ⟨[], [], [], [], [], 0, 0, 0⟩
  have hW0 : ∀ w < p.eq.length, p.subProver w = .ok (W0 w) := by
    intro w hw
    rw [hwi w (by omega)]
    simp [W0, show w < ws.length by omega]
  have hwt : ws = tab p.eq.length W0 := by
    have := eq_tab ws ⟨[], [], [], [], [], 0, 0, 0⟩
    rwa [hwl] at this
  obtain ⟨b, bN, hd0⟩ : ∃ b bN, dims.getD 0 (0, 0) = (b, bN) := ⟨_, _, rfl⟩
  have hdim : ∀ w < p.eq.length, (W0 w).dims = .ok (b, bN) := by
    intro w hw
    have h1 := heven w hw 0 hn
    rw [hW0 w hw, hW0 0 hn, ok_bind, ok_bind] at h1
    rw [h1]
    have h2 := hdi 0 (by omega) (by omega)
    have : ws[0]'(by omega) = W0 0 := by simp [W0, show 0 < ws.length by omega]
    rw [this] at h2
    rw [h2]
    congr 1
    have : dims.getD 0 (0, 0) = dims[0]'(by omega) := by simp [show 0 < dims.length by omega]
    rw [← this, hd0]
  have hdt : dims = tab p.eq.length fun _ => (b, bN) := by
    apply tab_eq_of (by omega)
    intro i hi
    have h1 := hdi i (by omega) hi
    have : ws[i]'(by omega) = W0 i := by simp [W0, show i < ws.length by omega]
    rw [this, hdim i (by omega)] at h1
    exact (Except.ok.inj h1).symm
  have hK : 2 * b + bN = 2 * log2Ceil gg + log2Ceil ((p.eq.length * eq0.length : Nat) : Int) - log2Ceil p.eq.length := by
    by_contra hc
    apply hd
    rw [List.any_eq_true]
    refine ⟨(b, bN), ?_, by simpa using hc⟩
    rw [hdt]
    exact List.mem_map.2 ⟨0, List.mem_range.2 hn, rfl⟩
  rw [hwt, hdt] at hs
  obtain ⟨D, rfl⟩ := rounds_data H b bN p.eq.length W0 _ _ hs
  obtain ⟨l, r, e, hhead, rfl⟩ := merge_data hn hmerge
  have h0 : ∀ w < p.eq.length, ∀ w' < p.eq.length, SameKind (W0 w) (W0 w') := by
    intro w hw w' hw'
    have key : ∀ w sp, p.subProver w = .ok sp → ∃ a b c, sp = newSProver a b c p.gates p.statics := by
      intro w sp hsp
      unfold MProver.subProver at hsp
      obtain ⟨a, _, hsp⟩ := bind_eq_ok.1 hsp
      obtain ⟨b, _, hsp⟩ := bind_eq_ok.1 hsp
      obtain ⟨c, _, hsp⟩ := bind_eq_ok.1 hsp
      simp only [go_pure, Except.ok.injEq] at hsp
      exact ⟨a, b, c, hsp.symm⟩
    obtain ⟨a, b, c, h1⟩ := key w _ (hW0 w hw)
    obtain ⟨a', b', c', h2⟩ := key w' _ (hW0 w' hw')
    rw [h1, h2]
    exact ⟨rfl, rfl, rfl, rfl, rfl⟩
  let tail : Nat → Nat → List (List F) × List F → SProver F → Prog Unit (Msg F) := fun evalsChan finChan s newP =>
    liftGo (rounds H SProver.getEvalsOnHPrime SProver.foldHPrime (log2Ceil p.eq.length) newP) fun t =>
          liftGo t.1.finalClaims fun fc =>
          .close evalsChan <|
          .close finChan <|
          .ret (.out { polyCoeffs := s.1 ++ t.2.1,
                       qL := s.2.take (log2Ceil gg),
                       qR := (s.2.drop (log2Ceil gg)).take (log2Ceil gg),
                       qPrime := s.2.drop (2 * log2Ceil gg) ++ t.2.2,
                       finalClaims := fc })
  have htail : tail 0 1 (D.hist (2 * log2Ceil gg + log2Ceil ((p.eq.length * eq0.length : Nat) : Int) - log2Ceil p.eq.length)) (newSProver (tab p.eq.length l) (tab p.eq.length r) (tab p.eq.length e) (D.W (2 * log2Ceil gg + log2Ceil ((p.eq.length * eq0.length : Nat) : Int) - log2Ceil p.eq.length) 0).gates (D.W (2 * log2Ceil gg + log2Ceil ((p.eq.length * eq0.length : Nat) : Int) - log2Ceil p.eq.length) 0).statics) =
      .close 0 (.close 1 (.ret (.out out))) := by
    change liftGo _ _ = _
    rw [ht, liftGo_ok, hfc, liftGo_ok, ← Except.ok.inj hfin]
    rfl
  refine ⟨_, D.proto (tail 0 1) l r e h0 hn p (.out out) (fun chs => loopP (fun _ s next =>
          consumeAccumulateP 0 p.eq.length fun evals =>
          liftGo (interpolateOnRange evals) fun c =>
          broadcastP chs (H c) (next (s.1 ++ [c], s.2 ++ [H c])))
        (fun (s : List (List F) × List F) =>
          consumeMergeProversP 1 p.eq.length (tail 0 1 s))
        0 (2 * log2Ceil gg + log2Ceil ((p.eq.length * eq0.length : Nat) : Int) - log2Ceil p.eq.length) ([], [])) rfl
      (fun w hw => runForChunkP_eq b _ (hW0 w hw) (hdim w hw) hK) hhead htail, rfl, ?_⟩
  refine ⟨fun evalsChan finChan sem => loopP (fun i chs next =>
      .make 1 fun rChan =>
      .go (p.runForChunkP i evalsChan rChan finChan sem) (next (chs ++ [rChan])))
    (fun chs => loopP (fun _ s next =>
          consumeAccumulateP evalsChan p.eq.length fun evals =>
          liftGo (interpolateOnRange evals) fun c =>
          broadcastP chs (H c) (next (s.1 ++ [c], s.2 ++ [H c])))
        (fun (s : List (List F) × List F) =>
          consumeMergeProversP finChan p.eq.length (tail evalsChan finChan s))
        0 (2 * log2Ceil gg + log2Ceil ((p.eq.length * eq0.length : Nat) : Int) - log2Ceil p.eq.length) ([], [])) 0 p.eq.length [], rfl, ?_⟩
  intro nCore'
  unfold MProver.proveP
  rw [heq0, liftGo_ok, hvL0, liftGo_ok, hgg, liftGo_ok]

/-- `Prove` under all schedules; what is left when it returns. -/
theorem proveP_ended {H : List F → F} {p : MProver F} {nCore : Int} {out : SumcheckOut F} (h : p.prove H nCore = .ok out)
    (heven : EvenChunks p) : ∃ bound, GoodRun 2 nCore.toNat (fun s => s.gs 0 = .ret (.out out) ∧ ∀ i, i ≠ 0 → Ended 1 (s.gs i)) bound
      (startOf (p.proveP H nCore) () .tok) := by
  obtain ⟨hn, K, P, hout, g, hg, hP⟩ := prove_proto h heven
  obtain ⟨N, rfl⟩ := Int.eq_ofNat_of_zero_le (show 0 ≤ nCore by omega)
  rw [start_eq, hP]
  refine goodRun_cons_ex (soloConf_solo _ _ _ _ _ _ _) (soloConf_make _ _ _ _ _ _ _ _)
    (goodRun_cons_ex (soloConf_solo _ _ _ _ _ _ _) (soloConf_make _ _ _ _ _ _ _ _)
    (goodRun_semaphore_ex _ _ _ _ _ _ _ _ ?_))
  change ∃ B, GoodRun _ _ _ _ (soloConf _ (g 0 1 2) _ _ _ _ _)
  rw [hg, ← hout]
  exact proto_good P (by omega) _ (by simp) (by simp) (by simp)

/-- `Prove` under all schedules. -/
theorem proveP_good {H : List F → F} {p : MProver F} {nCore : Int} {out : SumcheckOut F} (h : p.prove H nCore = .ok out)
    (heven : EvenChunks p) : ∃ bound, GoodRun 2 nCore.toNat (fun s => s.gs 0 = .ret (.out out)) bound
      (startOf (p.proveP H nCore) () .tok) :=
  (proveP_ended h heven).imp fun _ g => goodRun_post g fun _ hs => hs.1

/-- With zero cores `Prove` blocks for ever, whatever it would return with one core. -/
theorem proveP_deadlock {H : List F → F} {p : MProver F} {nCore : Int} {out : SumcheckOut F} (h : p.prove H nCore = .ok out)
    (heven : EvenChunks p) : ∃ bound, Deadlocks bound (startOf (p.proveP H 0) () .tok) := by
  obtain ⟨_, K, P, _, g, hg, hP⟩ := prove_proto h heven
  rw [start_eq, hP]
  unfold newSemaphoreP
  simp only [if_neg (show ¬ ((0 : Int) < 0) by omega)]
  obtain ⟨B, hB⟩ := proto_deadlock P (Function.update (Function.update (Function.update (fun _ => ⟨[], 0, false⟩) 0 ⟨[], p.eq.length, false⟩) 1
    ⟨[], p.eq.length, false⟩) 2 ⟨[], 0, false⟩) (by simp) (by simp) (by simp)
  rw [← hg] at hB
  exact ⟨_, deadlocks_cons (soloConf_solo _ _ _ _ _ _ _) (soloConf_make _ _ _ _ _ _ _ _)
    (deadlocks_cons (soloConf_solo _ _ _ _ _ _ _) (soloConf_make _ _ _ _ _ _ _ _)
      (deadlocks_cons (soloConf_solo _ _ _ _ _ _ _) (soloConf_make _ _ _ _ _ _ _ _) hB))⟩

end GkrMimc
