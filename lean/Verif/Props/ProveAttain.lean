import Verif.Props.ConcAttain

/-! C20, continued: `Prove`, `LayerAsBKTWithCopy` and the loops of `Sub` and `Mul` attain the bound `nCore`, too. -/

set_option linter.unusedSectionVars false

namespace GkrMimc

open Spec

variable {F : Type} [Field F] [DecidableEq F]

/-- As `run_semaphore`, with the number of channels. -/
theorem run_semaphore_nC {M V : Type} (tok : V) (n : Nat) (k : Nat → Prog M V) (s : Conf M V) (hc : s.crashed = none)
    (hg : s.gs 0 = newSemaphoreP tok n k) :
    ∃ s', Reach s s' ∧ s'.crashed = none ∧ s'.gs 0 = k s.nC ∧ s'.nG = s.nG ∧ s'.nC = s.nC + 1 ∧ (s'.chans s.nC).buf.length = n := by
  have hg' : s.gs 0 = .make n fun c => loopP (fun _ _ next => .send c tok (next ())) (fun _ => k c) 0 n () := by
    rw [hg]; unfold newSemaphoreP; rw [if_neg (by omega)]; simp
  have e : exec s 0 = some { s.setChan s.nC ⟨[], n, false⟩ with
      gs := (Function.update s.gs 0 (loopP (fun _ _ next => .send s.nC tok (next ())) (fun _ => k s.nC) 0 n ())),
      nC := s.nC + 1 } := by
    unfold exec
    rw [hg']
  obtain ⟨s', h1, h2, h3, h4, h5, -, -, h8⟩ := run_fill s.nC tok (k s.nC) n 0
    { s.setChan s.nC ⟨[], n, false⟩ with
      gs := (Function.update s.gs 0 (loopP (fun _ _ next => .send s.nC tok (next ())) (fun _ => k s.nC) 0 n ())),
      nC := s.nC + 1 } hc
    (by simp) (by simp [Conf.setChan]) (by simp [Conf.setChan])
  exact ⟨s', (reach_exec 0 hc e).trans h1, h2, by rw [h3]; simp, h4, h5, by rw [h8]; simp [Conf.setChan]⟩

/-- The caller starts the workers that are left. -/
theorem Proto.run_launch {n K : Nat} (P : Proto F n K) : ∀ (d j : Nat) (s : Conf Unit (Msg F)), d + j + 1 = n → s.crashed = none →
    s.nG = 1 + j → s.nC = 3 + j → s.gs 0 = P.mkc j → (∀ t < j, s.gs (1 + t) = P.worker t 0) →
    ∃ s', Reach s s' ∧ s'.crashed = none ∧ s'.chans 2 = s.chans 2 ∧ ∀ t < n, s'.gs (1 + t) = P.worker t 0 := by
  intro d
  induction d with
  | zero =>
    intro j s hd hc hG hC hg hw
    obtain ⟨f, hf, hf'⟩ := P.mMk j (by omega)
    obtain ⟨s2, r, c2, ch2, w2, -, -, -⟩ := step j s f _ hc hG hC (by rw [hg, hf]) hf' hw
    exact ⟨s2, r, c2, ch2, fun t ht => w2 t (by omega)⟩
  | succ d ih =>
    intro j s hd hc hG hC hg hw
    obtain ⟨f, hf, hf'⟩ := P.mMk j (by omega)
    rw [if_pos (by omega)] at hf'
    obtain ⟨s2, r, c2, ch2, w2, g2, G2, C2⟩ := step j s f _ hc hG hC (by rw [hg, hf]) hf' hw
    obtain ⟨s3, r3, c3, ch3, w3⟩ := ih (j + 1) s2 (by omega) c2 (by omega) (by omega) g2 w2
    exact ⟨s3, r.trans r3, c3, ch3.trans ch2, w3⟩
where
  step (j : Nat) (s : Conf Unit (Msg F)) (f : Nat → Prog Unit (Msg F)) (k : Prog Unit (Msg F)) (hc : s.crashed = none)
      (hG : s.nG = 1 + j) (hC : s.nC = 3 + j) (hg : s.gs 0 = .make 1 f) (hf : f (3 + j) = .go (P.worker j 0) k)
      (hw : ∀ t < j, s.gs (1 + t) = P.worker t 0) :
      ∃ s', Reach s s' ∧ s'.crashed = none ∧ s'.chans 2 = s.chans 2 ∧ (∀ t < j + 1, s'.gs (1 + t) = P.worker t 0) ∧ s'.gs 0 = k ∧
        s'.nG = s.nG + 1 ∧ s'.nC = s.nC + 1 := by
    have e1 : exec s 0 = some { s.setChan s.nC ⟨[], 1, false⟩ with
        gs := Function.update s.gs 0 (.go (P.worker j 0) k), nC := s.nC + 1 } := by
      unfold exec
      rw [hg]
      simp only [hC, hf]
    let s1 : Conf Unit (Msg F) := { s.setChan s.nC ⟨[], 1, false⟩ with
        gs := Function.update s.gs 0 (.go (P.worker j 0) k), nC := s.nC + 1 }
    have hg1 : s1.gs 0 = .go (P.worker j 0) k := by simp [s1]
    have e2 : exec s1 0 = some { s1 with gs := Function.update (Function.update s1.gs 0 k) s1.nG (P.worker j 0), nG := s1.nG + 1 } := by
      unfold exec
      rw [hg1]
    refine ⟨_, (reach_exec 0 hc e1).trans (reach_exec 0 (show s1.crashed = none from hc) e2), hc, ?_, ?_, ?_, rfl, rfl⟩
    · simp only [s1, Conf.setChan]
      rw [Function.update_of_ne (by omega)]
    · intro t ht
      simp only [s1, Conf.setChan, hG]
      by_cases htj : t = j
      · subst htj; simp
      · rw [Function.update_of_ne (by omega), Function.update_of_ne (by omega), Function.update_of_ne (by omega), hw t (by omega)]
    · simp only [s1, Conf.setChan, hG]
      rw [Function.update_of_ne (by omega), Function.update_self]

/-- C20. Some schedule of `Prove` has `min nChunks nCore` workers between `Acquire` and `Release` at the same time. -/
theorem C20_prove_attained (H : List F → F) (p : MProver F) (nCore : Int) (out : SumcheckOut F) (h : p.prove H nCore = .ok out)
    (heven : EvenChunks p) :
    ∃ s, Reach (startOf (p.proveP H nCore) () .tok) s ∧
      ∃ S : Finset Nat, S.card = min p.eq.length nCore.toNat ∧ ∀ i ∈ S, 1 ≤ i ∧ Holds 2 (s.gs i) := by
  obtain ⟨hn, K, P, -, g, hg, hP⟩ := prove_proto h heven
  obtain ⟨N, rfl⟩ := Int.eq_ofNat_of_zero_le (show 0 ≤ nCore by omega)
  obtain ⟨s1, a1, a2, a3, a4, a5⟩ := run_make (M := Unit) (V := Msg F) _ _ (startOf (p.proveP H N) () .tok) rfl
    (by rw [hP]; rfl)
  obtain ⟨s2, b1, b2, b3, b4, b5⟩ := run_make _ _ s1 a2 a3
  obtain ⟨s3, c1, c2, c3, c4, c5, c6⟩ := run_semaphore_nC .tok N _ s2 b2 b3
  have n1 : s1.nC = 1 := a5
  have n2 : s2.nC = 2 := by omega
  have nG : s3.nG = 1 := by rw [c4, b4, a4]; rfl
  rw [n1, n2] at c3
  rw [n2] at c6
  have n0 : (startOf (p.proveP H N) () Msg.tok).nC = 0 := rfl
  rw [n0, hg] at c3
  obtain ⟨s4, d1, d2, d3, d4⟩ := P.run_launch (p.eq.length - 1) 0 s3 (by have := P.hn; omega) c2 nG (by omega) c3
    (by intro t ht; omega)
  obtain ⟨s5, e1, e2, e3, -, -⟩ := run_acquire 2 (fun t => P.worker t 1) 1 (min p.eq.length N) s4 d2
    (by intro t ht; rw [d4 t (by omega)]; exact P.wAcq t (by omega) 0 (by omega)) (by rw [d3, c6]; omega)
  refine ⟨s5, a1.trans (b1.trans (c1.trans (d1.trans e1))), (Finset.range (min p.eq.length N)).map (addRightEmbedding 1), by simp, ?_⟩
  intro i hi
  simp only [Finset.mem_map, Finset.mem_range, addRightEmbedding_apply] at hi
  obtain ⟨t, ht, rfl⟩ := hi
  refine ⟨by omega, ?_⟩
  rw [Nat.add_comm, e3 t ht, P.wSend t (by omega) 0 (by omega), P.wRel t (by omega) 0 (by omega)]
  exact .inr (.inl rfl)

/-- Two chunks, five cores: both workers at the same time. -/
example (H : List Fr → Fr) : ∃ s, Reach (startOf ((newMProver [[1, 5], [2, 6]] [[1, 5], [2, 6]] [[-6], [7]]
      [cipherGate frString 3, copyGate] [[0, 0, 1 - 7, 0], [0, 0, 7, 0]]).proveP H 5) () .tok) s ∧
    ∃ S : Finset Nat, S.card = 2 ∧ ∀ i ∈ S, 1 ≤ i ∧ Holds 2 (s.gs i) := by
  have h : SizedChunks [cipherGate frString 3, copyGate] 1 0 1 [[1, 5], [2, 6]] [[1, 5], [2, 6]] [[-6], [7]]
    [[0, 0, 1 - 7, 0], [0, 0, 7, 0]] := ⟨by simp [WellChunked], by simp [WellChunked], by simp [WellChunked], rfl, by simp⟩
  obtain ⟨_, out, _, _, h2, _⟩ := C18_complete H _ (by simp) exampleGates_ok.1 exampleGates_ok.2 1 0 1 _ _ _ _ h 5 (by norm_num)
  exact C20_prove_attained H _ 5 out h2 h.even

/-- As `run_wgNew`, with the number of channels. -/
theorem run_wgNew_nC {M V : Type} (n : Nat) (k : Nat → Prog M V) (s : Conf M V) (hc : s.crashed = none) (hg : s.gs 0 = .wgNew n k) :
    ∃ s', Reach s s' ∧ s'.crashed = none ∧ s'.gs 0 = k s.nW ∧ s'.nG = s.nG ∧ s'.nC = s.nC := by
  refine ⟨{ s with gs := Function.update s.gs 0 (k s.nW), wgs := Function.update s.wgs s.nW n, nW := s.nW + 1 },
    reach_exec 0 hc (by unfold exec; rw [hg]), hc, by simp, rfl, rfl⟩

/-- C20. The same for `LayerAsBKTWithCopy`. -/
theorem C20_layerAsBKTWithCopy_attained (values : List (List (List F))) (layer : Nat) (v res0 : List (Table F)) (nCore : Int)
    (hn : 0 ≤ nCore) (h : idx values layer = .ok v) :
    ∃ s, Reach (startOf (layerAsBKTWithCopyP values layer nCore) res0 .tok) s ∧
      ∃ S : Finset Nat, S.card = min v.length nCore.toNat ∧ ∀ i ∈ S, 1 ≤ i ∧ Holds 0 (s.gs i) := by
  obtain ⟨N, rfl⟩ := Int.eq_ofNat_of_zero_le hn
  obtain ⟨s1, a1, a2, a3, a4, hC⟩ := run_wgNew_nC (M := List (Table F)) (V := Msg F) v.length _
    (startOf (layerAsBKTWithCopyP values layer N) res0 .tok) rfl
    (by change layerAsBKTWithCopyP values layer N = _; unfold layerAsBKTWithCopyP; rw [h, liftGo_ok])
  have hW : (startOf (layerAsBKTWithCopyP values layer N) res0 Msg.tok).nW = 0 := rfl
  have hC' : (startOf (layerAsBKTWithCopyP values layer N) res0 Msg.tok).nC = 0 := rfl
  rw [hC'] at hC
  rw [hW] at a3
  obtain ⟨s2, b1, b2, b3, b4, b5⟩ := run_semaphore .tok N _ s1 a2 a3
  have hG : s2.nG = 1 := by rw [b4, a4]; rfl
  rw [hC] at b3 b5
  rw [loopP_shift (body' := fun i _ next => .go (acquireP 0 (.act (fun res => res.set i (List.replicate (v.getD i []).length 0))
      (.act (fun res => res.set i (v.getD i [])) (jobEnd 0 0)))) (next ())) (k' := fun _ => .wgWait 0 (closeSemP 0 (.ret .tok)))
    (fun _ => rfl) v.length 0 0 () (by
      intro i hi s next
      rw [show idx v (0 + i) = .ok (v.getD (0 + i) []) by simp [idx, hi], liftGo_ok])] at b3
  obtain ⟨s3, g1, g2, g3⟩ := run_pool 0 (fun i => .act (fun res => res.set i (List.replicate (v.getD i []).length 0))
    (.act (fun res => res.set i (v.getD i [])) (jobEnd 0 0))) v.length N s2 b2 hG.ge _ b5.ge b3
  refine ⟨s3, a1.trans (b1.trans g1), (Finset.range (min v.length N)).map (addRightEmbedding 1), by simp, ?_⟩
  intro i hi
  simp only [Finset.mem_map, Finset.mem_range, addRightEmbedding_apply] at hi
  obtain ⟨t, ht, rfl⟩ := hi
  refine ⟨by omega, ?_⟩
  have := g3 t ht
  rw [hG, Nat.add_comm] at this
  rw [this]
  exact .inl rfl

/-- The caller acquires and starts goroutines, while there are tokens. -/
theorem run_acqSpawn {M V : Type} (c : Nat) (p : Nat → Prog M V) (k : Prog M V) : ∀ (m n j : Nat) (s : Conf M V), m ≤ n →
    s.crashed = none → 1 ≤ s.nG → m ≤ (s.chans c).buf.length →
    s.gs 0 = loopP (fun i _ next => acquireP c (.go (p i) (next ()))) (fun _ => k) j n () →
    ∃ s', Reach s s' ∧ (∀ t < m, s'.gs (s.nG + t) = p (j + t)) ∧ ∀ i, 1 ≤ i → i < s.nG → s'.gs i = s.gs i
  | 0, n, j, s, _, hc, _, _, hg => ⟨s, .refl s, by intro t ht; omega, by intros; rfl⟩
  | m + 1, 0, j, s, hmn, _, _, _, _ => by omega
  | m + 1, n + 1, j, s, hmn, hc, hG, hb, hg => by
    obtain ⟨v, rest, hv⟩ : ∃ v rest, (s.chans c).buf = v :: rest := by
      cases hbuf : (s.chans c).buf with
      | nil => rw [hbuf] at hb; simp at hb
      | cons v rest => exact ⟨v, rest, rfl⟩
    let L := loopP (fun i _ next => acquireP c (.go (p i) (next ()))) (fun _ => k) (j + 1) n ()
    have hg' : s.gs 0 = .recv c fun _ => .go (p j) L := hg
    let s1 := (s.setChan c { s.chans c with buf := rest }).goOn 0 (.go (p j) L)
    have e1 : exec s 0 = some s1 := by
      unfold exec
      rw [hg']
      simp only [hv, s1]
    have hg1 : s1.gs 0 = .go (p j) L := by simp [s1, Conf.goOn]
    let s2 : Conf M V := { s1 with gs := Function.update (Function.update s1.gs 0 L) s1.nG (p j), nG := s1.nG + 1 }
    have e2 : exec s1 0 = some s2 := by
      unfold exec
      rw [hg1]
    have hn1 : s1.nG = s.nG := rfl
    have hn2 : s2.nG = s.nG + 1 := rfl
    obtain ⟨s', h1, h2, h3⟩ := run_acqSpawn c p k m n (j + 1) s2 (by omega) hc (by omega)
      (by rw [hv] at hb; simp [s2, s1, Conf.goOn, Conf.setChan] at hb ⊢; omega)
      (by simp only [s2]; rw [Function.update_of_ne (by omega), Function.update_self])
    refine ⟨s', (reach_exec 0 hc e1).trans ((reach_exec 0 (show s1.crashed = none from hc) e2).trans h1), ?_, ?_⟩
    · intro t ht
      cases t with
      | zero =>
        rw [Nat.add_zero, h3 s.nG hG (by omega)]
        simp [s2, hn1]
      | succ t =>
        have := h2 t (by omega)
        rw [show s.nG + (t + 1) = s2.nG + t by omega, this, show j + 1 + t = j + (t + 1) by omega]
    · intro i hi hi'
      rw [h3 i hi (by omega)]
      simp only [s2, s1, Conf.goOn, Conf.setChan]
      rw [Function.update_of_ne (by omega), Function.update_of_ne (by omega), Function.update_of_ne (by omega)]

theorem holds_acts {W : Type} (write : Nat → W → W) (wg : Nat) : ∀ n j,
    Holds 0 (loopP (fun i _ next => .act (write i) (next ())) (fun _ => jobEnd (F := F) 0 wg) j n ())
  | 0, _ => .inl rfl
  | n + 1, j => holds_acts write wg n (j + 1)

/-- C20. The same for the parallel loops of `Sub` and `Mul`: as many workers at a time as there are ranges or cores. -/
theorem C20_chunked_loop_attained {W : Type} (write : Nat → W → W) (size : Nat) (nCore : Int) (hn : 0 ≤ nCore) (m0 : W)
    (rs : List ChunkRange) (h : intoChunkRanges nCore size = .ok rs) :
    ∃ s, Reach (startOf (chunkedLoopP (F := F) write size nCore) m0 .tok) s ∧
      ∃ S : Finset Nat, S.card = min rs.length nCore.toNat ∧ ∀ i ∈ S, 1 ≤ i ∧ Holds 0 (s.gs i) := by
  obtain ⟨N, rfl⟩ := Int.eq_ofNat_of_zero_le hn
  obtain ⟨s1, b1, b2, b3, b4, b5⟩ := run_semaphore (M := W) (V := Msg F) .tok N _
    (startOf (chunkedLoopP (F := F) write size N) m0 .tok) rfl
    (by change chunkedLoopP write size N = _; unfold chunkedLoopP; rw [h, liftGo_ok])
  obtain ⟨s2, a1, a2, a3, a4, a5⟩ := run_wgNew _ _ s1 b2 b3
  have hG : s2.nG = 1 := by rw [a4, b4]; rfl
  have hC : (startOf (chunkedLoopP (F := F) write size N) m0 Msg.tok).nC = 0 := rfl
  rw [hC] at a3 b5
  rw [loopP_shift (body' := fun c _ next => acquireP 0 (.go (loopP (fun i _ next => .act (write i) (next ()))
      (fun _ => jobEnd 0 s1.nW) (rs.getD c ⟨0, 0⟩).begin_ ((rs.getD c ⟨0, 0⟩).end_ - (rs.getD c ⟨0, 0⟩).begin_) ()) (next ())))
    (k' := fun _ => .wgWait s1.nW (.ret .tok)) (fun _ => rfl) rs.length 0 0 () (by
      intro i hi s next
      rw [show idx rs (0 + i) = .ok (rs.getD (0 + i) ⟨0, 0⟩) by simp [idx, hi], liftGo_ok])] at a3
  obtain ⟨s3, g1, g2, -⟩ := run_acqSpawn 0 _ _ (min rs.length N) rs.length 0 s2 (by omega) a2 hG.ge (by rw [a5, b5]; omega) a3
  refine ⟨s3, b1.trans (a1.trans g1), (Finset.range (min rs.length N)).map (addRightEmbedding 1), by simp, ?_⟩
  intro i hi
  simp only [Finset.mem_map, Finset.mem_range, addRightEmbedding_apply] at hi
  obtain ⟨t, ht, rfl⟩ := hi
  refine ⟨by omega, ?_⟩
  have := g2 t ht
  rw [hG, Nat.add_comm] at this
  rw [this]
  exact holds_acts _ _ _ _

/-- Two of three copies at the same time; both ranges of a subtraction of 5000 entries at the same time. -/
example : (∃ s, Reach (startOf (layerAsBKTWithCopyP [[[(1 : Fr)], [2], [3]]] 0 2) [[], [], []] .tok) s ∧
      ∃ S : Finset Nat, S.card = 2 ∧ ∀ i ∈ S, 1 ≤ i ∧ Holds 0 (s.gs i)) ∧
    ∀ left right t : Table Fr, ∃ s, Reach (startOf (chunkedLoopP (F := Fr) (subWrite left right) 5000 4) t .tok) s ∧
      ∃ S : Finset Nat, S.card = 2 ∧ ∀ i ∈ S, 1 ≤ i ∧ Holds 0 (s.gs i) :=
  ⟨C20_layerAsBKTWithCopy_attained _ 0 [[1], [2], [3]] _ 2 (by omega) rfl,
    fun left right t => C20_chunked_loop_attained _ 5000 4 (by omega) t [⟨0, 4096⟩, ⟨4096, 5000⟩] (by decide +kernel)⟩

end GkrMimc
