import Verif.Proofs.ConcClaim

/-! The protocol of `Prove` between main goroutine, workers and broadcasters, for arbitrary data: invariant, progress,
termination. Channels: 0 `evalsChan`, 1 `finChan`, 2 the semaphore, `3+w` the `rChan` of worker `w`. Goroutines: 0 main, `1+w`
worker `w`, then `n` broadcasters for each round. -/

set_option linter.unusedSectionVars false

namespace GkrMimc

open Spec Finset

variable {F : Type} [Field F] [DecidableEq F]

/-- The end of a goroutine: at most a send, not on `f`, and a close. -/
def Ended {M V : Type} (f : Nat) (P : Prog M V) : Prop :=
  (∃ r, P = .ret r) ∨ (∃ c r, P = .close c (.ret r)) ∨ ∃ c v c' r, c ≠ f ∧ P = .send c v (.close c' (.ret r))

/-- The channel for the messages of round `k`. -/
def roundChan (K k : Nat) : Nat := if k < K then 0 else 1

/-- The codes of the goroutines, abstractly: `worker w t` is the code of worker `w` after `t` steps; `consume B C` the code of
main in round `B` after it has consumed the messages of the workers in `C`; round `K` is the final one. -/
structure Proto (F : Type) (n K : Nat) where
  msg : Nat → Nat → Msg F
  rv : Nat → F
  worker : Nat → Nat → Prog Unit (Msg F)
  consume : Nat → List Nat → Prog Unit (Msg F)
  bnew : Nat → Prog Unit (Msg F)
  bcast : Nat → Nat → Prog Unit (Msg F)
  mkc : Nat → Prog Unit (Msg F)
  out : Msg F
  hn : 0 < n
  wAcq : ∀ w < n, ∀ k ≤ K, worker w (4 * k) = .recv 2 fun _ => worker w (4 * k + 1)
  wSend : ∀ w < n, ∀ k ≤ K, worker w (4 * k + 1) = .send (roundChan K k) (msg k w) (worker w (4 * k + 2))
  wRel : ∀ w < n, ∀ k ≤ K, worker w (4 * k + 2) = .send 2 .tok (worker w (4 * k + 3))
  wRecv : ∀ w < n, ∀ k < K, ∃ f, worker w (4 * k + 3) = .recv (3 + w) f ∧ f (some (.elem (rv k))) = worker w (4 * k + 4) ∧
    ∀ v, ¬ Holds 2 (f v)
  wClose : ∀ w < n, worker w (4 * K + 3) = .close (3 + w) (worker w (4 * K + 4))
  wRet : ∀ w < n, worker w (4 * K + 4) = .ret .tok
  mMk : ∀ j < n, ∃ f, mkc j = .make 1 f ∧ f (3 + j) = .go (worker j 0) (if j + 1 < n then mkc (j + 1) else consume 0 [])
  mConsume : ∀ B ≤ K, ∀ C : List Nat, C.Nodup → (∀ w ∈ C, w < n) → C.length < n → ∃ f, consume B C = .recv (roundChan K B) f ∧
    ∀ w < n, w ∉ C → f (some (msg B w)) = if C.length + 1 < n then consume B (C ++ [w])
      else if B < K then bnew (B + 1) else .close 0 (.close 1 (.ret out))
  mNew : ∀ B, 1 ≤ B → B ≤ K → ∃ f, bnew B = .wgNew n f ∧ f (B - 1) = bcast B 0
  mGo : ∀ B, 1 ≤ B → B ≤ K → ∀ j < n, bcast B j =
    .go (.send (3 + j) (.elem (rv (B - 1))) (.wgDone (B - 1) (.ret .tok))) (bcast B (j + 1))
  mWait : ∀ B, 1 ≤ B → B ≤ K → bcast B n = .wgWait (B - 1) (consume B [])

/-- Where main is. -/
inductive PPhase where
  | mk (j : Nat)
  | go (j : Nat)
  | bnew
  | bcast (j : Nat)
  | consume
  | closeE
  | closeF
  | done
deriving DecidableEq

/-- The first broadcaster of the round before `B`. -/
def bbase (n B : Nat) : Nat := 1 + n + (B - 1) * n

theorem bbase_zero (n : Nat) : bbase n 0 = 1 + n := by simp [bbase]

theorem bbase_one (n : Nat) : bbase n 1 = 1 + n := by simp [bbase]

theorem bbase_succ (n B : Nat) (h : 1 ≤ B) : bbase n (B + 1) = bbase n B + n := by
  obtain ⟨b, rfl⟩ : ∃ b, B = b + 1 := ⟨B - 1, by omega⟩
  simp only [bbase, Nat.add_sub_cancel]
  ring

theorem bbase_le (n B : Nat) : 1 + n ≤ bbase n B := by unfold bbase; omega

variable {n K : Nat} (P : Proto F n K)

/-- The code of the broadcaster for worker `w`. -/
def bAt (B w : Nat) : Nat → Prog Unit (Msg F)
  | 1 => .send (3 + w) (.elem (P.rv (B - 1))) (.wgDone (B - 1) (.ret .tok))
  | 2 => .wgDone (B - 1) (.ret .tok)
  | _ => .ret .tok

/-- The code of main. -/
def mainAt (B : Nat) (C : List Nat) : PPhase → Prog Unit (Msg F)
  | .mk j => P.mkc j
  | .go j => .go (P.worker j 0) (if j + 1 < n then P.mkc (j + 1) else P.consume 0 [])
  | .bnew => P.bnew B
  | .bcast j => P.bcast B j
  | .consume => P.consume B C
  | .closeE => .close 0 (.close 1 (.ret P.out))
  | .closeF => .close 1 (.ret P.out)
  | .done => .ret P.out

/-- Has worker `w` been started? -/
def started (n w : Nat) : PPhase → Prop
  | .mk j => w < j
  | .go j => w < j
  | _ => w < n

instance (n w : Nat) (ph : PPhase) : Decidable (started n w ph) := by
  cases ph <;> unfold started <;> infer_instance

/-- Does `rChans[w]` exist? -/
def made (n w : Nat) : PPhase → Prop
  | .mk j => w < j
  | .go j => w ≤ j
  | _ => w < n

/-- 1 if the broadcaster has returned. -/
def bFin (u : Nat) : Nat := if u = 3 then 1 else 0

/-- What the broadcasters of the previous round have done when main consumes. -/
def allSent (n B : Nat) (u : Nat → Nat) (s : Conf Unit (Msg F)) : Prop :=
  (B = 0 → ∀ w, u w = 0) ∧ (1 ≤ B → ∀ w < n, u w = 3) ∧ s.nG = bbase n B + (if B = 0 then 0 else n) ∧ s.nW = B

/-- Facts that depend on the phase. -/
def phaseOk (n K B : Nat) (C : List Nat) (u : Nat → Nat) (s : Conf Unit (Msg F)) : PPhase → Prop
  | .mk j => B = 0 ∧ C = [] ∧ j < n ∧ (∀ w, u w = 0) ∧ s.nG = 1 + j ∧ s.nC = 3 + j ∧ s.nW = 0
  | .go j => B = 0 ∧ C = [] ∧ j < n ∧ (∀ w, u w = 0) ∧ s.nG = 1 + j ∧ s.nC = 4 + j ∧ s.nW = 0
  | .bnew => 1 ≤ B ∧ C = [] ∧ (∀ w, u w = 0) ∧ s.nG = bbase n B ∧ s.nW = B - 1
  | .bcast j => 1 ≤ B ∧ C = [] ∧ j ≤ n ∧ (∀ w < j, 1 ≤ u w) ∧ (∀ w, j ≤ w → u w = 0) ∧ s.nG = bbase n B + j ∧ s.nW = B ∧
      s.wgs (B - 1) + ∑ w ∈ range n, bFin (u w) = n
  | .consume => C.length < n ∧ allSent n B u s
  | _ => B = K ∧ C.length = n ∧ allSent n B u s

/-- Does a worker hold a token? -/
def wHold (t : Nat) : Nat := if t % 4 = 1 ∨ t % 4 = 2 then 1 else 0

/-- The invariant. -/
structure PInv (N : Nat) (ph : PPhase) (B : Nat) (t u : Nat → Nat) (C Q : List Nat) (s : Conf Unit (Msg F)) : Prop where
  alive : s.crashed = none
  hB : B ≤ K
  phase : phaseOk n K B C u s ph
  main : s.gs 0 = mainAt P B C ph
  work : ∀ w < n, s.gs (1 + w) = if started n w ph then P.worker w (t w) else .ret .tok
  bc : ∀ w < n, s.gs (bbase n B + w) = bAt P B w (u w)
  other : ∀ i, 1 + n ≤ i → (i < bbase n B ∨ bbase n B + n ≤ i) → s.gs i = .ret .tok
  rch : ∀ w < n, made n w ph → s.chans (3 + w) =
    ⟨if 2 ≤ u w ∧ t w + 1 ≤ 4 * B then [.elem (P.rv (B - 1))] else [], 1, decide (t w = 4 * K + 4)⟩
  ev : s.chans 0 = ⟨if B < K then Q.map (P.msg B) else [], n, decide (ph = .closeF ∨ ph = .done)⟩
  fi : s.chans 1 = ⟨if B < K then [] else Q.map (P.msg B), n, decide (ph = .done)⟩
  semCap : (s.chans 2).cap = N
  semOpen : (s.chans 2).closed = false
  tokens : (s.chans 2).buf.length + ∑ w ∈ range n, wHold (t w) = N
  fresh : ∀ w < n, ¬ started n w ph → t w = 0
  low : ∀ w < n, 4 * B ≤ t w + 2
  high : ∀ w < n, t w ≤ 4 * K + 4
  high' : B < K → ∀ w < n, t w ≤ 4 * B + 3
  sent : 1 ≤ B → ∀ w < n, 4 * B ≤ t w → 2 ≤ u w
  uhigh : ∀ w, u w ≤ 3
  nodup : (C ++ Q).Nodup
  mem : ∀ w, w ∈ C ++ Q ↔ w < n ∧ 4 * B + 2 ≤ t w

/-- Steps left of main, without the rounds after this one. -/
def mainLeft (n : Nat) (C : List Nat) : PPhase → Nat
  | .mk j => 2 * (n - j) + n + 3
  | .go j => 2 * (n - j) - 1 + n + 3
  | .bnew => 2 * n + 5
  | .bcast j => (n - j) + n + 4
  | .consume => (n - C.length) + 3
  | .closeE => 2
  | .closeF => 1
  | .done => 0

/-- Steps left. -/
def protoLeft (n K : Nat) (ph : PPhase) (B : Nat) (t u : Nat → Nat) (C : List Nat) : Nat :=
  ∑ w ∈ range n, (4 * K + 4 - t w) + ∑ w ∈ range n, (3 - u w) + mainLeft n C ph + (K - B) * (5 * n + 5)

section
variable {P} {N : Nat} {ph : PPhase} {B : Nat} {t u : Nat → Nat} {C Q : List Nat} {s s' : Conf Unit (Msg F)}

theorem started_lt {w : Nat} (h : PInv P N ph B t u C Q s) (hw : started n w ph) : w < n := by
  have hp := h.phase
  cases ph <;> simp only [phaseOk] at hp <;> simp only [started] at hw <;> omega

theorem started_made {w : Nat} (hw : started n w ph) : made n w ph := by
  cases ph <;> simp only [started] at hw <;> simp only [made] <;> omega

theorem PInv.length (h : PInv P N ph B t u C Q s) : C.length + Q.length ≤ n := by
  have := nodup_length_le (n := n) h.nodup (fun w hw => ((h.mem w).1 hw).1)
  simpa using this

/-- What the window says about a position. -/
theorem PInv.cases (h : PInv P N ph B t u C Q s) {w : Nat} (hw : w < n) :
    (1 ≤ B ∧ t w = 4 * (B - 1) + 2) ∨ (1 ≤ B ∧ t w = 4 * (B - 1) + 3) ∨ t w = 4 * B ∨ t w = 4 * B + 1 ∨ t w = 4 * B + 2 ∨
      t w = 4 * B + 3 ∨ (B = K ∧ t w = 4 * K + 4) := by
  have h1 := h.low w hw
  have h2 := h.high w hw
  have h3 := h.hB
  by_cases hB : B < K
  · have h4 := h.high' hB w hw
    omega
  · omega

theorem wHold_pos {w : Nat} (hw : w < n) (h : t w % 4 = 1 ∨ t w % 4 = 2) : 1 ≤ ∑ w ∈ range n, wHold (t w) := by
  have := Finset.single_le_sum (f := fun w => wHold (t w)) (fun _ _ => Nat.zero_le _) (Finset.mem_range.2 hw)
  simp only [wHold, h, if_true] at this
  exact this

/-- One step of worker `w`. -/
theorem PInv.worker_step (h : PInv P N ph B t u C Q s) {w : Nat} {Q' : List Nat} (hw : started n w ph)
    (h1 : s'.crashed = none) (h2 : s'.gs = Function.update s.gs (1 + w) (P.worker w (t w + 1))) (h3 : s'.nG = s.nG)
    (h4 : s'.nC = s.nC) (h5 : s'.nW = s.nW) (h6 : s'.wgs = s.wgs)
    (h7 : s'.chans 0 = ⟨if B < K then Q'.map (P.msg B) else [], n, decide (ph = .closeF ∨ ph = .done)⟩)
    (h8 : s'.chans 1 = ⟨if B < K then [] else Q'.map (P.msg B), n, decide (ph = .done)⟩)
    (h9 : (s'.chans 2).cap = N) (h10 : (s'.chans 2).closed = false)
    (h11 : (s'.chans 2).buf.length + wHold (t w + 1) = (s.chans 2).buf.length + wHold (t w))
    (h12 : s'.chans (3 + w) =
      ⟨if 2 ≤ u w ∧ t w + 1 + 1 ≤ 4 * B then [.elem (P.rv (B - 1))] else [], 1, decide (t w + 1 = 4 * K + 4)⟩)
    (h13 : ∀ v, v ≠ w → s'.chans (3 + v) = s.chans (3 + v))
    (h14 : t w + 1 ≤ 4 * K + 4) (h15 : B < K → t w + 1 ≤ 4 * B + 3) (h16 : 1 ≤ B → 4 * B ≤ t w + 1 → 2 ≤ u w)
    (h17 : (C ++ Q').Nodup) (h18 : ∀ v, v ∈ C ++ Q' ↔ v < n ∧ 4 * B + 2 ≤ Function.update t w (t w + 1) v) :
    PInv P N ph B (Function.update t w (t w + 1)) u C Q' s' where
  alive := h1
  hB := h.hB
  phase := by
    have hp := h.phase
    cases ph <;> simp only [phaseOk, allSent, h3, h4, h5, h6] at hp ⊢ <;> exact hp
  main := by rw [h2, Function.update_of_ne (by omega)]; exact h.main
  work := by
    intro v hv
    rw [h2]
    by_cases hvw : v = w
    · subst hvw; rw [Function.update_self, Function.update_self, if_pos hw]
    · rw [Function.update_of_ne (by omega), Function.update_of_ne hvw]; exact h.work v hv
  bc := by
    intro v hv
    have := bbase_le n B
    have := started_lt h hw
    rw [h2, Function.update_of_ne (by omega)]
    exact h.bc v hv
  other := by
    intro i hi hi'
    have := started_lt h hw
    rw [h2, Function.update_of_ne (by omega)]
    exact h.other i hi hi'
  rch := by
    intro v hv hm
    by_cases hvw : v = w
    · subst hvw; rw [Function.update_self]; exact h12
    · rw [h13 v hvw, Function.update_of_ne hvw]; exact h.rch v hv hm
  ev := h7
  fi := h8
  semCap := h9
  semOpen := h10
  tokens := by
    have := sum_upd n w (started_lt h hw) (fun _ t => wHold t) t (t w + 1)
    have := h.tokens
    omega
  fresh := by
    intro v hv hs
    have : v ≠ w := by rintro rfl; exact hs hw
    rw [Function.update_of_ne this]
    exact h.fresh v hv hs
  low := by
    intro v hv
    by_cases hvw : v = w
    · subst hvw; rw [Function.update_self]; have := h.low v hv; omega
    · rw [Function.update_of_ne hvw]; exact h.low v hv
  high := by
    intro v hv
    by_cases hvw : v = w
    · subst hvw; rw [Function.update_self]; exact h14
    · rw [Function.update_of_ne hvw]; exact h.high v hv
  high' := by
    intro hB v hv
    by_cases hvw : v = w
    · subst hvw; rw [Function.update_self]; exact h15 hB
    · rw [Function.update_of_ne hvw]; exact h.high' hB v hv
  sent := by
    intro hB v hv
    by_cases hvw : v = w
    · subst hvw; rw [Function.update_self]; exact h16 hB
    · rw [Function.update_of_ne hvw]; exact h.sent hB v hv
  uhigh := h.uhigh
  nodup := h17
  mem := h18

theorem PInv.mem_same (h : PInv P N ph B t u C Q s) {w : Nat} (hw : w < n) (hy : 4 * B + 2 ≤ t w ↔ 4 * B + 2 ≤ t w + 1) :
    ∀ v, v ∈ C ++ Q ↔ v < n ∧ 4 * B + 2 ≤ Function.update t w (t w + 1) v := by
  intro v
  rw [h.mem v]
  by_cases hv : v = w
  · subst hv; rw [Function.update_self, hy]
  · rw [Function.update_of_ne hv]

theorem PInv.room (h : PInv P N ph B t u C Q s) {w : Nat} (hw : w < n) (ht : t w = 4 * B + 1) : C.length + Q.length < n := by
  have hnot : w ∉ C ++ Q := by rw [h.mem w]; omega
  have := nodup_length_le (l := w :: (C ++ Q)) (n := n) (List.nodup_cons.2 ⟨hnot, h.nodup⟩) (by
    intro v hv
    rcases List.mem_cons.1 hv with rfl | hv
    · exact hw
    · exact ((h.mem v).1 hv).1)
  simp at this
  omega

/-- While a worker of round `B` has not sent, the channels for its messages are open. -/
theorem PInv.open_ev (h : PInv P N ph B t u C Q s) {w : Nat} (hw : w < n) (ht : t w = 4 * B + 1) :
    ph ≠ .closeF ∧ ph ≠ .done := by
  have hr := h.room hw ht
  have hp := h.phase
  constructor
  · rintro rfl
    simp only [phaseOk] at hp
    omega
  · rintro rfl
    simp only [phaseOk] at hp
    omega

theorem left_upd_t {w : Nat} (hw : w < n) (h : t w + 1 ≤ 4 * K + 4) :
    protoLeft n K ph B (Function.update t w (t w + 1)) u C < protoLeft n K ph B t u C := by
  unfold protoLeft
  have := sum_upd n w hw (fun _ t => 4 * K + 4 - t) t (t w + 1)
  omega

theorem left_upd_u {w y : Nat} (hw : w < n) (h : u w < y) (hy : y ≤ 3) :
    protoLeft n K ph B t (Function.update u w y) C < protoLeft n K ph B t u C := by
  unfold protoLeft
  have := sum_upd n w hw (fun _ u => 3 - u) u y
  omega

/-- What a worker can do. -/
theorem PInv.worker_exec (h : PInv P N ph B t u C Q s) {w : Nat} (hwn : w < n) (he : exec s (1 + w) = some s') :
    ∃ Q', protoLeft n K ph B (Function.update t w (t w + 1)) u C < protoLeft n K ph B t u C ∧
      PInv P N ph B (Function.update t w (t w + 1)) u C Q' s' := by
  have hj := h.work w hwn
  have hBK := h.hB
  by_cases hw : started n w ph
  swap
  · rw [if_neg hw] at hj
    simp [exec, hj] at he
  rw [if_pos hw] at hj
  have hrc := h.rch w hwn (started_made hw)
  have hhigh := h.high w hwn
  rcases h.cases hwn with ⟨hB, ht⟩ | ⟨hB, ht⟩ | ht | ht | ht | ht | ⟨hB, ht⟩
  · -- Release after round B-1
    rw [ht, P.wRel w hwn (B - 1) (by omega)] at hj
    have hpos := wHold_pos (t := t) hwn (by omega)
    have htk := h.tokens
    simp only [exec, hj, h.semOpen, Bool.false_eq_true, if_false] at he
    rw [if_pos (by rw [h.semCap]; omega)] at he
    simp only [Option.some.injEq] at he
    subst he
    refine ⟨Q, left_upd_t hwn (by omega), h.worker_step hw h.alive ?_ rfl rfl rfl rfl ?_ ?_ ?_ ?_ ?_ ?_ ?_ (by omega) (by omega)
      (by omega) h.nodup (h.mem_same hwn (by omega))⟩
    · rw [ht]; rfl
    · simp [Conf.goOn, Conf.setChan, h.ev]
    · simp [Conf.goOn, Conf.setChan, h.fi]
    · simp [Conf.goOn, Conf.setChan, h.semCap]
    · simp [Conf.goOn, Conf.setChan, h.semOpen]
    · have e1 : wHold (t w + 1) = 0 := by unfold wHold; rw [if_neg (by omega)]
      have e2 : wHold (t w) = 1 := by unfold wHold; rw [if_pos (by omega)]
      rw [e1, e2]
      simp [Conf.goOn, Conf.setChan]
    · simp only [Conf.goOn, Conf.setChan]
      rw [Function.update_of_ne (by omega), hrc]
      have e1 : (2 ≤ u w ∧ t w + 1 ≤ 4 * B) ↔ (2 ≤ u w ∧ t w + 1 + 1 ≤ 4 * B) := by omega
      have e2 : (t w = 4 * K + 4) ↔ (t w + 1 = 4 * K + 4) := by omega
      simp only [e1, e2]
    · intro v _
      simp only [Conf.goOn, Conf.setChan]
      rw [Function.update_of_ne (by omega)]
  · -- receive r
    obtain ⟨f, hf, hf1, _⟩ := P.wRecv w hwn (B - 1) (by omega)
    rw [ht, hf] at hj
    simp only [exec, hj, hrc] at he
    by_cases hu : 2 ≤ u w
    · rw [if_pos ⟨hu, by omega⟩] at he
      simp only [Option.some.injEq] at he
      subst he
      refine ⟨Q, left_upd_t hwn (by omega), h.worker_step hw h.alive ?_ rfl rfl rfl rfl ?_ ?_ ?_ ?_ ?_ ?_ ?_ (by omega) (by omega)
        (fun _ _ => hu) h.nodup (h.mem_same hwn (by omega))⟩
      · rw [hf1, ht]; rfl
      · simp only [Conf.goOn, Conf.setChan]; rw [Function.update_of_ne (by omega), h.ev]
      · simp only [Conf.goOn, Conf.setChan]; rw [Function.update_of_ne (by omega), h.fi]
      · simp only [Conf.goOn, Conf.setChan]; rw [Function.update_of_ne (by omega), h.semCap]
      · simp only [Conf.goOn, Conf.setChan]; rw [Function.update_of_ne (by omega), h.semOpen]
      · have e1 : wHold (t w + 1) = 0 := by unfold wHold; rw [if_neg (by omega)]
        have e2 : wHold (t w) = 0 := by unfold wHold; rw [if_neg (by omega)]
        rw [e1, e2]
        simp only [Conf.goOn, Conf.setChan]; rw [Function.update_of_ne (by omega)]
      · simp only [Conf.goOn, Conf.setChan]
        rw [Function.update_self, if_neg (by omega)]
        have e2 : (t w = 4 * K + 4) ↔ (t w + 1 = 4 * K + 4) := by omega
        simp only [e2]
      · intro v hv
        simp only [Conf.goOn, Conf.setChan]
        rw [Function.update_of_ne (by omega)]
    · rw [if_neg (by omega)] at he
      have : decide (t w = 4 * K + 4) = false := by simp; omega
      simp [this] at he
  · -- Acquire
    rw [ht, P.wAcq w hwn B hBK] at hj
    simp only [exec, hj, h.semOpen] at he
    cases hb : (s.chans 2).buf with
    | nil => rw [hb] at he; simp at he
    | cons v rest =>
      rw [hb] at he
      simp only [Option.some.injEq] at he
      subst he
      refine ⟨Q, left_upd_t hwn (by omega), h.worker_step hw h.alive ?_ rfl rfl rfl rfl ?_ ?_ ?_ ?_ ?_ ?_ ?_ (by omega) (by omega)
        (fun hB _ => h.sent hB w hwn (by omega)) h.nodup (h.mem_same hwn (by omega))⟩
      · rw [ht]; rfl
      · simp [Conf.goOn, Conf.setChan, h.ev]
      · simp [Conf.goOn, Conf.setChan, h.fi]
      · simp [Conf.goOn, Conf.setChan, h.semCap]
      · simp [Conf.goOn, Conf.setChan, h.semOpen]
      · have e1 : wHold (t w + 1) = 1 := by unfold wHold; rw [if_pos (by omega)]
        have e2 : wHold (t w) = 0 := by unfold wHold; rw [if_neg (by omega)]
        rw [e1, e2]
        simp [Conf.goOn, Conf.setChan, hb]
      · simp only [Conf.goOn, Conf.setChan]
        rw [Function.update_of_ne (by omega), hrc]
        have e1 : (2 ≤ u w ∧ t w + 1 ≤ 4 * B) ↔ (2 ≤ u w ∧ t w + 1 + 1 ≤ 4 * B) := by omega
        have e2 : (t w = 4 * K + 4) ↔ (t w + 1 = 4 * K + 4) := by omega
        simp only [e1, e2]
      · intro v _
        simp only [Conf.goOn, Conf.setChan]
        rw [Function.update_of_ne (by omega)]
  · -- send the message of round B
    rw [ht, P.wSend w hwn B hBK] at hj
    have hroom := h.room hwn ht
    obtain ⟨ho1, ho2⟩ := h.open_ev hwn ht
    have hnot : w ∉ C ++ Q := by rw [h.mem w]; omega
    have hnd : (C ++ (Q ++ [w])).Nodup := by
      rw [← List.append_assoc]
      exact List.nodup_append.2 ⟨h.nodup, List.nodup_singleton _, by
        intro a ha b hb
        rw [List.mem_singleton.1 hb]
        rintro rfl
        exact hnot ha⟩
    have hmem : ∀ v, v ∈ C ++ (Q ++ [w]) ↔ v < n ∧ 4 * B + 2 ≤ Function.update t w (t w + 1) v := by
      intro v
      rw [← List.append_assoc, List.mem_append, h.mem v, List.mem_singleton]
      by_cases hv : v = w
      · subst hv; simp [ht, hwn]
      · rw [Function.update_of_ne hv]; simp [hv]
    have e1 : wHold (t w + 1) = 1 := by unfold wHold; rw [if_pos (by omega)]
    have e2 : wHold (t w) = 1 := by unfold wHold; rw [if_pos (by omega)]
    have e3 : (2 ≤ u w ∧ t w + 1 ≤ 4 * B) ↔ (2 ≤ u w ∧ t w + 1 + 1 ≤ 4 * B) := by omega
    have e4 : (t w = 4 * K + 4) ↔ (t w + 1 = 4 * K + 4) := by omega
    by_cases hlt : B < K
    · have hch : roundChan K B = 0 := by simp [roundChan, hlt]
      rw [hch] at hj
      simp only [exec, hj, h.ev, ho1, ho2, or_self, decide_false, Bool.false_eq_true, if_false, hlt, if_true, List.length_map] at he
      rw [if_pos (by omega)] at he
      simp only [Option.some.injEq] at he
      subst he
      refine ⟨Q ++ [w], left_upd_t hwn (by omega), h.worker_step hw h.alive ?_ rfl rfl rfl rfl ?_ ?_ ?_ ?_ ?_ ?_ ?_ (by omega) (by omega)
        (fun hB _ => h.sent hB w hwn (by omega)) hnd hmem⟩
      · rw [ht]; rfl
      · simp [Conf.goOn, Conf.setChan, hlt, ho1, ho2]
      · simp [Conf.goOn, Conf.setChan, h.fi, hlt]
      · simp [Conf.goOn, Conf.setChan, h.semCap]
      · simp [Conf.goOn, Conf.setChan, h.semOpen]
      · rw [e1, e2]; simp [Conf.goOn, Conf.setChan]
      · simp only [Conf.goOn, Conf.setChan]
        rw [Function.update_of_ne (by omega), hrc]
        simp only [e3, e4]
      · intro v _
        simp only [Conf.goOn, Conf.setChan]
        rw [Function.update_of_ne (by omega)]
    · have hch : roundChan K B = 1 := by simp [roundChan, hlt]
      rw [hch] at hj
      simp only [exec, hj, h.fi, ho2, decide_false, Bool.false_eq_true, if_false, hlt, List.length_map] at he
      rw [if_pos (by omega)] at he
      simp only [Option.some.injEq] at he
      subst he
      refine ⟨Q ++ [w], left_upd_t hwn (by omega), h.worker_step hw h.alive ?_ rfl rfl rfl rfl ?_ ?_ ?_ ?_ ?_ ?_ ?_ (by omega) (by omega)
        (fun hB _ => h.sent hB w hwn (by omega)) hnd hmem⟩
      · rw [ht]; rfl
      · simp [Conf.goOn, Conf.setChan, h.ev, hlt]
      · simp [Conf.goOn, Conf.setChan, hlt, ho2]
      · simp [Conf.goOn, Conf.setChan, h.semCap]
      · simp [Conf.goOn, Conf.setChan, h.semOpen]
      · rw [e1, e2]; simp [Conf.goOn, Conf.setChan]
      · simp only [Conf.goOn, Conf.setChan]
        rw [Function.update_of_ne (by omega), hrc]
        simp only [e3, e4]
      · intro v _
        simp only [Conf.goOn, Conf.setChan]
        rw [Function.update_of_ne (by omega)]
  · -- Release after round B
    rw [ht, P.wRel w hwn B hBK] at hj
    have hpos := wHold_pos (t := t) hwn (by omega)
    have htk := h.tokens
    simp only [exec, hj, h.semOpen, Bool.false_eq_true, if_false] at he
    rw [if_pos (by rw [h.semCap]; omega)] at he
    simp only [Option.some.injEq] at he
    subst he
    refine ⟨Q, left_upd_t hwn (by omega), h.worker_step hw h.alive ?_ rfl rfl rfl rfl ?_ ?_ ?_ ?_ ?_ ?_ ?_ (by omega) (by omega)
      (fun hB _ => h.sent hB w hwn (by omega)) h.nodup (h.mem_same hwn (by omega))⟩
    · rw [ht]; rfl
    · simp [Conf.goOn, Conf.setChan, h.ev]
    · simp [Conf.goOn, Conf.setChan, h.fi]
    · simp [Conf.goOn, Conf.setChan, h.semCap]
    · simp [Conf.goOn, Conf.setChan, h.semOpen]
    · have e1 : wHold (t w + 1) = 0 := by unfold wHold; rw [if_neg (by omega)]
      have e2 : wHold (t w) = 1 := by unfold wHold; rw [if_pos (by omega)]
      rw [e1, e2]
      simp [Conf.goOn, Conf.setChan]
    · simp only [Conf.goOn, Conf.setChan]
      rw [Function.update_of_ne (by omega), hrc]
      have e1 : (2 ≤ u w ∧ t w + 1 ≤ 4 * B) ↔ (2 ≤ u w ∧ t w + 1 + 1 ≤ 4 * B) := by omega
      have e2 : (t w = 4 * K + 4) ↔ (t w + 1 = 4 * K + 4) := by omega
      simp only [e1, e2]
    · intro v _
      simp only [Conf.goOn, Conf.setChan]
      rw [Function.update_of_ne (by omega)]
  · -- blocked on r, or close
    have hnb : ¬ (2 ≤ u w ∧ t w + 1 ≤ 4 * B) := by omega
    by_cases hlt : B < K
    · exfalso
      obtain ⟨f, hf, _, _⟩ := P.wRecv w hwn B hlt
      rw [ht, hf] at hj
      have : decide (t w = 4 * K + 4) = false := by simp; omega
      simp only [exec, hj, hrc] at he
      rw [if_neg hnb] at he
      simp [this] at he
    · have hBK' : B = K := by omega
      rw [ht, hBK', P.wClose w hwn] at hj
      have hcl : decide (t w = 4 * K + 4) = false := by simp; omega
      simp only [exec, hj, hrc, hcl, Bool.false_eq_true, if_false, Option.some.injEq] at he
      subst he
      refine ⟨Q, left_upd_t hwn (by omega), h.worker_step hw h.alive ?_ rfl rfl rfl rfl ?_ ?_ ?_ ?_ ?_ ?_ ?_ (by omega) (by omega)
        (fun hB _ => h.sent hB w hwn (by omega)) h.nodup (h.mem_same hwn (by omega))⟩
      · rw [ht, hBK']; rfl
      · simp only [Conf.goOn, Conf.setChan]; rw [Function.update_of_ne (by omega), h.ev]
      · simp only [Conf.goOn, Conf.setChan]; rw [Function.update_of_ne (by omega), h.fi]
      · simp only [Conf.goOn, Conf.setChan]; rw [Function.update_of_ne (by omega), h.semCap]
      · simp only [Conf.goOn, Conf.setChan]; rw [Function.update_of_ne (by omega), h.semOpen]
      · have e1 : wHold (t w + 1) = 0 := by unfold wHold; rw [if_neg (by omega)]
        have e2 : wHold (t w) = 0 := by unfold wHold; rw [if_neg (by omega)]
        rw [e1, e2]
        simp only [Conf.goOn, Conf.setChan]; rw [Function.update_of_ne (by omega)]
      · simp only [Conf.goOn, Conf.setChan]
        rw [Function.update_self, if_neg hnb, if_neg (by omega)]
        have : decide (t w + 1 = 4 * K + 4) = true := by simp; omega
        rw [this]
      · intro v hv
        simp only [Conf.goOn, Conf.setChan]
        rw [Function.update_of_ne (by omega)]
  · rw [ht, P.wRet w hwn] at hj
    simp [exec, hj] at he

/-- In which phases broadcasters are active. -/
theorem PInv.active (h : PInv P N ph B t u C Q s) {w : Nat} (hw : w < n) (hu : u w = 1 ∨ u w = 2) :
    ∃ j, ph = .bcast j ∧ w < j := by
  have hp := h.phase
  cases ph with
  | mk j => have := hp.2.2.2.1 w; omega
  | go j => have := hp.2.2.2.1 w; omega
  | bnew => have := hp.2.2.1 w; omega
  | bcast j =>
    refine ⟨j, rfl, ?_⟩
    by_contra hc
    have := hp.2.2.2.2.1 w (by omega)
    omega
  | consume =>
    rcases Nat.eq_zero_or_pos B with hB | hB
    · have := hp.2.1 hB w; omega
    · have := hp.2.2.1 hB w hw; omega
  | closeE =>
    rcases Nat.eq_zero_or_pos B with hB | hB
    · have := hp.2.2.1 hB w; omega
    · have := hp.2.2.2.1 hB w hw; omega
  | closeF =>
    rcases Nat.eq_zero_or_pos B with hB | hB
    · have := hp.2.2.1 hB w; omega
    · have := hp.2.2.2.1 hB w hw; omega
  | done =>
    rcases Nat.eq_zero_or_pos B with hB | hB
    · have := hp.2.2.1 hB w; omega
    · have := hp.2.2.2.1 hB w hw; omega

theorem sum_bFin_lt {w : Nat} (hw : w < n) (h : u w ≠ 3) : ∑ w ∈ range n, bFin (u w) < n := by
  have : ∑ w ∈ range n, bFin (u w) < ∑ w ∈ range n, 1 := by
    apply Finset.sum_lt_sum
    · intro i _; unfold bFin; split_ifs <;> omega
    · exact ⟨w, Finset.mem_range.2 hw, by simp [bFin, h]⟩
  simpa using this

/-- What a broadcaster can do. -/
theorem PInv.bcast_exec (h : PInv P N ph B t u C Q s) {w : Nat} (hwn : w < n) (he : exec s (bbase n B + w) = some s') :
    ∃ y, protoLeft n K ph B t (Function.update u w y) C < protoLeft n K ph B t u C ∧
      PInv P N ph B t (Function.update u w y) C Q s' := by
  have hj := h.bc w hwn
  have hBK := h.hB
  have hbb := bbase_le n B
  have huh := h.uhigh w
  rcases (show u w = 0 ∨ u w = 1 ∨ u w = 2 ∨ u w = 3 by omega) with hu | hu | hu | hu
  · rw [hu] at hj; simp [bAt, exec, hj] at he
  · -- send r
    obtain ⟨j, rfl, hwj⟩ := h.active hwn (.inl hu)
    obtain ⟨hB1, hC, hjn, hge, hz, hG, hW, hwg⟩ := h.phase
    have hrc := h.rch w hwn (by simpa [made] using hwn)
    have htw : ¬ 4 * B ≤ t w := fun hc => by have := h.sent hB1 w hwn hc; omega
    have hcl : decide (t w = 4 * K + 4) = false := by simp; omega
    rw [hu] at hj
    simp only [bAt] at hj
    rw [hcl, if_neg (by omega)] at hrc
    simp only [exec, hj, hrc, Bool.false_eq_true, if_false, List.length_nil, Nat.zero_lt_one, if_true, Option.some.injEq] at he
    subst he
    refine ⟨2, left_upd_u hwn (by omega) (by omega), h.alive, hBK, ?_, ?_, ?_, ?_, ?_, ?_, ?_, ?_, ?_, ?_, ?_, h.fresh, h.low, h.high,
      h.high', ?_, ?_, h.nodup, h.mem⟩
    · refine ⟨hB1, hC, hjn, ?_, ?_, hG, hW, ?_⟩
      · intro v hv
        by_cases hvw : v = w
        · subst hvw; rw [Function.update_self]; omega
        · rw [Function.update_of_ne hvw]; exact hge v hv
      · intro v hv
        rw [Function.update_of_ne (by omega)]; exact hz v hv
      · have e := sum_upd n w hwn (fun _ u => bFin u) u 2
        have e1 : bFin 2 = 0 := rfl
        have e2 : bFin (u w) = 0 := by rw [hu]; rfl
        change s.wgs (B - 1) + _ = n
        omega
    · change Function.update s.gs _ _ 0 = _
      rw [Function.update_of_ne (by omega)]; exact h.main
    · intro v hv
      change Function.update s.gs _ _ _ = _
      rw [Function.update_of_ne (by omega)]; exact h.work v hv
    · intro v hv
      change Function.update s.gs _ _ _ = _
      by_cases hvw : v = w
      · subst hvw; rw [Function.update_self, Function.update_self]; rfl
      · rw [Function.update_of_ne (by omega), Function.update_of_ne hvw]; exact h.bc v hv
    · intro i hi hi'
      change Function.update s.gs _ _ _ = _
      rw [Function.update_of_ne (by omega)]; exact h.other i hi hi'
    · intro v hv hm
      simp only [Conf.goOn, Conf.setChan]
      by_cases hvw : v = w
      · subst hvw
        rw [Function.update_self, Function.update_self, if_pos ⟨le_rfl, by omega⟩, hcl]
        rfl
      · rw [Function.update_of_ne (by omega), Function.update_of_ne hvw]; exact h.rch v hv hm
    · simp only [Conf.goOn, Conf.setChan]; rw [Function.update_of_ne (by omega)]; exact h.ev
    · simp only [Conf.goOn, Conf.setChan]; rw [Function.update_of_ne (by omega)]; exact h.fi
    · simp only [Conf.goOn, Conf.setChan]; rw [Function.update_of_ne (by omega)]; exact h.semCap
    · simp only [Conf.goOn, Conf.setChan]; rw [Function.update_of_ne (by omega)]; exact h.semOpen
    · simp only [Conf.goOn, Conf.setChan]; rw [Function.update_of_ne (by omega)]; exact h.tokens
    · intro _ v hv hv'
      by_cases hvw : v = w
      · subst hvw; rw [Function.update_self]
      · rw [Function.update_of_ne hvw]; exact h.sent hB1 v hv hv'
    · intro v
      by_cases hvw : v = w
      · subst hvw; rw [Function.update_self]; omega
      · rw [Function.update_of_ne hvw]; exact h.uhigh v
  · -- wg.Done
    obtain ⟨j, rfl, hwj⟩ := h.active hwn (.inr hu)
    obtain ⟨hB1, hC, hjn, hge, hz, hG, hW, hwg⟩ := h.phase
    have hlt := sum_bFin_lt (u := u) hwn (by omega)
    rw [hu] at hj
    simp only [bAt] at hj
    simp only [exec, hj] at he
    rw [if_neg (by omega)] at he
    simp only [Option.some.injEq] at he
    subst he
    refine ⟨3, left_upd_u hwn (by omega) (by omega), h.alive, hBK, ?_, ?_, ?_, ?_, ?_, ?_, h.ev, h.fi, h.semCap, h.semOpen, h.tokens,
      h.fresh, h.low, h.high, h.high', ?_, ?_, h.nodup, h.mem⟩
    · refine ⟨hB1, hC, hjn, ?_, ?_, hG, hW, ?_⟩
      · intro v hv
        by_cases hvw : v = w
        · subst hvw; rw [Function.update_self]; omega
        · rw [Function.update_of_ne hvw]; exact hge v hv
      · intro v hv
        rw [Function.update_of_ne (by omega)]; exact hz v hv
      · have e := sum_upd n w hwn (fun _ u => bFin u) u 3
        have e1 : bFin 3 = 1 := rfl
        have e2 : bFin (u w) = 0 := by rw [hu]; rfl
        simp only [Function.update_self]
        omega
    · change Function.update s.gs _ _ 0 = _
      rw [Function.update_of_ne (by omega)]; exact h.main
    · intro v hv
      change Function.update s.gs _ _ _ = _
      rw [Function.update_of_ne (by omega)]; exact h.work v hv
    · intro v hv
      change Function.update s.gs _ _ _ = _
      by_cases hvw : v = w
      · subst hvw; rw [Function.update_self, Function.update_self]; rfl
      · rw [Function.update_of_ne (by omega), Function.update_of_ne hvw]; exact h.bc v hv
    · intro i hi hi'
      change Function.update s.gs _ _ _ = _
      rw [Function.update_of_ne (by omega)]; exact h.other i hi hi'
    · intro v hv hm
      by_cases hvw : v = w
      · subst hvw
        rw [Function.update_self]
        have := h.rch v hv hm
        rw [hu] at this
        simp only [le_refl, true_and, Nat.reduceLeDiff] at this ⊢
        exact this
      · rw [Function.update_of_ne hvw]; exact h.rch v hv hm
    · intro _ v hv hv'
      by_cases hvw : v = w
      · subst hvw; rw [Function.update_self]; omega
      · rw [Function.update_of_ne hvw]; exact h.sent hB1 v hv hv'
    · intro v
      by_cases hvw : v = w
      · subst hvw; rw [Function.update_self]
      · rw [Function.update_of_ne hvw]; exact h.uhigh v
  · rw [hu] at hj; simp [bAt, exec, hj] at he

/-- What main can do: the positions of the workers stay. -/
theorem PInv.main_exec (h : PInv P N ph B t u C Q s) (he : exec s 0 = some s') :
    ∃ ph' B' u' C' Q', protoLeft n K ph' B' t u' C' < protoLeft n K ph B t u C ∧ PInv P N ph' B' t u' C' Q' s' := by
  have hj := h.main
  have hBK := h.hB
  have hbb := bbase_le n B
  have hn := P.hn
  cases ph with
  | mk j =>
    obtain ⟨hB, hC, hjn, hu, hG, hNC, hW⟩ := h.phase
    obtain ⟨f, hf, hf1⟩ := P.mMk j hjn
    simp only [mainAt, hf] at hj
    simp only [exec, hj, Option.some.injEq] at he
    subst he
    rw [hNC, hf1]
    refine ⟨.go j, B, u, C, Q, ?_, h.alive, hBK, ⟨hB, hC, hjn, hu, hG, ?_, hW⟩, ?_, ?_, ?_, ?_, ?_, ?_, ?_, ?_, ?_, ?_, ?_, h.low,
      h.high, h.high', h.sent, h.uhigh, h.nodup, h.mem⟩
    · simp only [protoLeft, mainLeft]; omega
    · simp only [Conf.goOn, Conf.setChan]; omega
    · simp [Conf.goOn, mainAt]
    · intro w hw
      simp only [Conf.goOn, Conf.setChan]
      rw [Function.update_of_ne (by omega)]; exact h.work w hw
    · intro w hw
      simp only [Conf.goOn, Conf.setChan]
      rw [Function.update_of_ne (by omega)]; exact h.bc w hw
    · intro i hi hi'
      simp only [Conf.goOn, Conf.setChan]
      rw [Function.update_of_ne (by omega)]; exact h.other i hi hi'
    · intro w hw hm
      simp only [made] at hm
      simp only [Conf.goOn, Conf.setChan]
      by_cases hwj : w = j
      · subst hwj
        have ht : t w = 0 := h.fresh w hw (by simp [started])
        have hne : ¬ (2 ≤ u w ∧ t w + 1 ≤ 4 * B) := by rw [hu w]; omega
        rw [Function.update_self, if_neg hne, ht]
        simp
      · rw [Function.update_of_ne (by omega)]; exact h.rch w hw (by simp only [made]; omega)
    · simp only [Conf.goOn, Conf.setChan]; rw [Function.update_of_ne (by omega), h.ev]; simp
    · simp only [Conf.goOn, Conf.setChan]; rw [Function.update_of_ne (by omega), h.fi]; simp
    · simp only [Conf.goOn, Conf.setChan]; rw [Function.update_of_ne (by omega), h.semCap]
    · simp only [Conf.goOn, Conf.setChan]; rw [Function.update_of_ne (by omega), h.semOpen]
    · simp only [Conf.goOn, Conf.setChan]; rw [Function.update_of_ne (by omega), h.tokens]
    · intro w hw hs; exact h.fresh w hw (by simpa [started] using hs)
  | go j =>
    obtain ⟨hB, hC, hjn, hu, hG, hNC, hW⟩ := h.phase
    simp only [mainAt] at hj
    simp only [exec, hj, Option.some.injEq] at he
    subst he
    rw [hG]
    have ht : t j = 0 := h.fresh j hjn (by simp [started])
    have hgs : ∀ i, 1 ≤ i → i ≠ 1 + j → Function.update (Function.update s.gs 0 (if j + 1 < n then P.mkc (j + 1) else P.consume 0 [])) (1 + j)
        (P.worker j 0) i = s.gs i := by
      intro i hi hi'
      rw [Function.update_of_ne hi', Function.update_of_ne (by omega)]
    have key : ∀ ph', (∀ w, w < n → (started n w ph' ↔ (started n w (.go j) ∨ w = j))) → (∀ w, w < n → made n w ph' → w ≤ j) →
        mainAt P B C ph' = (if j + 1 < n then P.mkc (j + 1) else P.consume 0 []) → ph' ≠ .closeF → ph' ≠ .done →
        phaseOk n K B C u { s with gs := Function.update (Function.update s.gs 0 (if j + 1 < n then P.mkc (j + 1) else P.consume 0 [])) (1 + j) (P.worker j 0), nG := 1 + j + 1 } ph' →
        PInv P N ph' B t u C Q { s with gs := Function.update (Function.update s.gs 0 (if j + 1 < n then P.mkc (j + 1) else P.consume 0 [])) (1 + j) (P.worker j 0), nG := 1 + j + 1 } := by
      intro ph' hst hmd hmain hne1 hne2 hphase
      refine ⟨h.alive, hBK, hphase, ?_, ?_, ?_, ?_, ?_, ?_, ?_, h.semCap, h.semOpen, h.tokens, ?_, h.low, h.high, h.high', h.sent,
        h.uhigh, h.nodup, h.mem⟩
      · rw [hmain]
        change Function.update _ _ _ _ = _
        rw [Function.update_of_ne (by omega), Function.update_self]
      · intro w hw
        by_cases hwj : w = j
        · subst hwj
          change Function.update _ _ _ _ = _
          rw [Function.update_self, if_pos ((hst w hw).2 (.inr rfl)), ht]
        · change Function.update _ _ _ _ = _
          rw [hgs _ (by omega) (by omega), h.work w hw]
          have : started n w ph' ↔ started n w (.go j) := by rw [hst w hw]; simp [hwj]
          simp only [this]
      · intro w hw
        change Function.update _ _ _ _ = _
        rw [hgs _ (by omega) (by omega)]; exact h.bc w hw
      · intro i hi hi'
        change Function.update _ _ _ _ = _
        rw [hgs _ (by omega) (by omega)]; exact h.other i hi hi'
      · intro w hw hm
        exact h.rch w hw (hmd w hw hm)
      · have := h.ev; simp only [reduceCtorEq, or_self, decide_false] at this; simpa [hne1, hne2] using this
      · have := h.fi; simp only [reduceCtorEq, decide_false] at this; simpa [hne2] using this
      · intro w hw hs
        exact h.fresh w hw (fun hc => hs ((hst w hw).2 (.inl hc)))
    by_cases hj1 : j + 1 < n
    · refine ⟨.mk (j + 1), B, u, C, Q, ?_, key _ ?_ ?_ ?_ (by simp) (by simp) ?_⟩
      · simp only [protoLeft, mainLeft]; omega
      · intro w _; simp only [started]; omega
      · intro w _ hm; simp only [made] at hm; omega
      · simp [mainAt, hj1]
      · exact ⟨hB, hC, hj1, hu, rfl, by simp only []; omega, hW⟩
    · refine ⟨.consume, B, u, C, Q, ?_, key _ ?_ ?_ ?_ (by simp) (by simp) ?_⟩
      · simp only [protoLeft, mainLeft, hC, List.length_nil]; omega
      · intro w hw; simp only [started]; omega
      · intro w hw _; omega
      · simp [mainAt, hj1, hB, hC]
      · refine ⟨by rw [hC]; simpa using hn, fun _ => hu, by omega, ?_, by rw [hB]; exact hW⟩
        rw [hB, bbase_zero]
        simp only [if_true]
        omega
  | bnew =>
    obtain ⟨hB, hC, hu, hG, hW⟩ := h.phase
    obtain ⟨f, hf, hf1⟩ := P.mNew B hB hBK
    simp only [mainAt, hf] at hj
    simp only [exec, hj, Option.some.injEq] at he
    subst he
    rw [hW, hf1]
    refine ⟨.bcast 0, B, u, C, Q, ?_, h.alive, hBK, ⟨hB, hC, by omega, by omega, fun w _ => hu w, hG, ?_, ?_⟩, ?_, ?_, ?_, ?_, ?_, ?_, ?_,
      h.semCap, h.semOpen, h.tokens, h.fresh, h.low, h.high, h.high', h.sent, h.uhigh, h.nodup, h.mem⟩
    · simp only [protoLeft, mainLeft]; omega
    · simp only [Conf.goOn]; omega
    · simp only [Conf.goOn, Function.update_self]
      have : ∑ w ∈ range n, bFin (u w) = 0 := Finset.sum_eq_zero (fun w _ => by rw [hu w]; rfl)
      omega
    · simp [Conf.goOn, mainAt]
    · intro w hw
      simp only [Conf.goOn]
      rw [Function.update_of_ne (by omega)]; exact h.work w hw
    · intro w hw
      simp only [Conf.goOn]
      rw [Function.update_of_ne (by omega)]; exact h.bc w hw
    · intro i hi hi'
      simp only [Conf.goOn]
      rw [Function.update_of_ne (by omega)]; exact h.other i hi hi'
    · intro w hw hm
      exact h.rch w hw hm
    · have := h.ev; simpa [Conf.goOn] using this
    · have := h.fi; simpa [Conf.goOn] using this
  | bcast j =>
    obtain ⟨hB, hC, hjn, hge, hz, hG, hW, hwg⟩ := h.phase
    simp only [mainAt] at hj
    rcases Nat.lt_or_ge j n with hlt | hge'
    · rw [P.mGo B hB hBK j hlt] at hj
      simp only [exec, hj, Option.some.injEq] at he
      subst he
      rw [hG]
      have huj := hz j le_rfl
      refine ⟨.bcast (j + 1), B, Function.update u j 1, C, Q, ?_, h.alive, hBK, ⟨hB, hC, by omega, ?_, ?_, ?_, hW, ?_⟩, ?_, ?_, ?_, ?_, ?_, ?_, ?_,
        h.semCap, h.semOpen, h.tokens, h.fresh, h.low, h.high, h.high', ?_, ?_, h.nodup, h.mem⟩
      · simp only [protoLeft, mainLeft]
        have := sum_upd n j hlt (fun _ u => 3 - u) u 1
        omega
      · intro w hw
        by_cases hwj : w = j
        · subst hwj; rw [Function.update_self]
        · rw [Function.update_of_ne hwj]; exact hge w (by omega)
      · intro w hw
        rw [Function.update_of_ne (by omega)]; exact hz w (by omega)
      · rfl
      · have e := sum_upd n j hlt (fun _ u => bFin u) u 1
        have e1 : bFin 1 = 0 := rfl
        have e2 : bFin (u j) = 0 := by rw [huj]; rfl
        simp only []
        omega
      · change Function.update _ _ _ _ = _
        rw [Function.update_of_ne (by omega), Function.update_self]; rfl
      · intro w hw
        change Function.update _ _ _ _ = _
        rw [Function.update_of_ne (by omega), Function.update_of_ne (by omega)]; exact h.work w hw
      · intro w hw
        change Function.update _ _ _ _ = _
        by_cases hwj : w = j
        · subst hwj; rw [Function.update_self, Function.update_self]; rfl
        · rw [Function.update_of_ne (by omega), Function.update_of_ne (by omega), Function.update_of_ne hwj]; exact h.bc w hw
      · intro i hi hi'
        change Function.update _ _ _ _ = _
        rw [Function.update_of_ne (by omega), Function.update_of_ne (by omega)]; exact h.other i hi hi'
      · intro w hw hm
        rw [show ({ s with gs := _, nG := _ } : Conf Unit (Msg F)).chans = s.chans from rfl, h.rch w hw hm]
        by_cases hwj : w = j
        · subst hwj; rw [Function.update_self, if_neg (by omega), if_neg (by omega)]
        · rw [Function.update_of_ne hwj]
      · have := h.ev; simpa using this
      · have := h.fi; simpa using this
      · intro _ w hw hw'
        by_cases hwj : w = j
        · subst hwj; have := h.sent hB w hw hw'; omega
        · rw [Function.update_of_ne hwj]; exact h.sent hB w hw hw'
      · intro w
        by_cases hwj : w = j
        · subst hwj; rw [Function.update_self]; omega
        · rw [Function.update_of_ne hwj]; exact h.uhigh w
    · have hjn' : j = n := by omega
      subst hjn'
      rw [P.mWait B hB hBK] at hj
      simp only [exec, hj] at he
      by_cases hw0 : s.wgs (B - 1) = 0
      · rw [if_pos hw0] at he
        simp only [Option.some.injEq] at he
        subst he
        have hall : ∀ w < j, u w = 3 := by
          intro w hw
          by_contra hc
          have := sum_bFin_lt (u := u) hw hc
          omega
        refine ⟨.consume, B, u, C, Q, ?_, h.alive, hBK, ⟨by rw [hC]; simpa using hn, by omega, fun _ => hall, ?_, hW⟩, ?_, ?_, ?_, ?_, ?_, ?_, ?_,
          h.semCap, h.semOpen, h.tokens, h.fresh, h.low, h.high, h.high', h.sent, h.uhigh, h.nodup, h.mem⟩
        · simp only [protoLeft, mainLeft, hC, List.length_nil]; omega
        · rw [if_neg (by omega)]; exact hG
        · simp [Conf.goOn, mainAt, hC]
        · intro w hw
          simp only [Conf.goOn]
          rw [Function.update_of_ne (by omega)]; exact h.work w hw
        · intro w hw
          simp only [Conf.goOn]
          rw [Function.update_of_ne (by omega)]; exact h.bc w hw
        · intro i hi hi'
          simp only [Conf.goOn]
          rw [Function.update_of_ne (by omega)]; exact h.other i hi hi'
        · intro w hw hm
          exact h.rch w hw hm
        · have := h.ev; simpa [Conf.goOn] using this
        · have := h.fi; simpa [Conf.goOn] using this
      · rw [if_neg hw0] at he
        simp at he
  | consume =>
    obtain ⟨hCn, hu0, hu1, hG, hW⟩ := h.phase
    have hCnd : C.Nodup := (List.nodup_append.1 h.nodup).1
    have hCmem : ∀ w ∈ C, w < n := fun w hw => ((h.mem w).1 (by simp [hw])).1
    obtain ⟨f, hf, hf1⟩ := P.mConsume B hBK C hCnd hCmem hCn
    simp only [mainAt, hf] at hj
    -- what is received
    have hrecv : ∃ q Q', Q = q :: Q' ∧ s' = (s.setChan (roundChan K B) { s.chans (roundChan K B) with buf := Q'.map (P.msg B) }).goOn 0
        (f (some (P.msg B q))) := by
      by_cases hlt : B < K
      · have hch : roundChan K B = 0 := by simp [roundChan, hlt]
        rw [hch] at hj ⊢
        have hev := h.ev
        simp only [hlt, if_true, reduceCtorEq, or_self, decide_false] at hev
        cases Q with
        | nil => simp [exec, hj, hev] at he
        | cons q Q' =>
          simp only [exec, hj, hev, List.map_cons, Option.some.injEq] at he
          exact ⟨q, Q', rfl, by rw [← he, hev]⟩
      · have hch : roundChan K B = 1 := by simp [roundChan, hlt]
        rw [hch] at hj ⊢
        have hfi := h.fi
        simp only [hlt, if_false, reduceCtorEq, decide_false] at hfi
        cases Q with
        | nil => simp [exec, hj, hfi] at he
        | cons q Q' =>
          simp only [exec, hj, hfi, List.map_cons, Option.some.injEq] at he
          exact ⟨q, Q', rfl, by rw [← he, hfi]⟩
    obtain ⟨q, Q', rfl, rfl⟩ := hrecv
    have hqn : q < n := ((h.mem q).1 (by simp)).1
    have hqC : q ∉ C := by
      intro hc
      exact (List.nodup_append.1 h.nodup).2.2 q hc q (by simp) rfl
    rw [hf1 q hqn hqC]
    have hnd : ((C ++ [q]) ++ Q').Nodup := by simpa using h.nodup
    have hmem : ∀ w, w ∈ (C ++ [q]) ++ Q' ↔ w < n ∧ 4 * B + 2 ≤ t w := by
      intro w; rw [← h.mem w]; simp
    have hrc2 : roundChan K B ≠ 2 := by unfold roundChan; split_ifs <;> omega
    have hrc3 : ∀ w, 3 + w ≠ roundChan K B := by intro w; unfold roundChan; split_ifs <;> omega
    by_cases hmore : C.length + 1 < n
    · -- the round goes on
      rw [if_pos hmore]
      refine ⟨.consume, B, u, C ++ [q], Q', ?_, h.alive, hBK, ⟨by simpa using hmore, hu0, hu1, hG, hW⟩, ?_, ?_, ?_, ?_, ?_, ?_, ?_,
        ?_, ?_, ?_, h.fresh, h.low, h.high, h.high', h.sent, h.uhigh, hnd, hmem⟩
      · simp only [protoLeft, mainLeft, List.length_append, List.length_singleton]; omega
      · simp [Conf.goOn, mainAt]
      · intro w hw
        simp only [Conf.goOn]
        rw [Function.update_of_ne (by omega)]; exact h.work w hw
      · intro w hw
        simp only [Conf.goOn]
        rw [Function.update_of_ne (by omega)]; exact h.bc w hw
      · intro i hi hi'
        simp only [Conf.goOn]
        rw [Function.update_of_ne (by omega)]; exact h.other i hi hi'
      · intro w hw hm
        simp only [Conf.goOn, Conf.setChan]
        rw [Function.update_of_ne (hrc3 w)]
        exact h.rch w hw hm
      · have hev := h.ev
        by_cases hlt : B < K
        · simp [Conf.goOn, Conf.setChan, roundChan, hlt, hev]
        · simp [Conf.goOn, Conf.setChan, roundChan, hlt, hev]
      · have hfi := h.fi
        by_cases hlt : B < K
        · simp [Conf.goOn, Conf.setChan, roundChan, hlt, hfi]
        · simp [Conf.goOn, Conf.setChan, roundChan, hlt, hfi]
      · simp only [Conf.goOn, Conf.setChan]; rw [Function.update_of_ne hrc2.symm, h.semCap]
      · simp only [Conf.goOn, Conf.setChan]; rw [Function.update_of_ne hrc2.symm, h.semOpen]
      · simp only [Conf.goOn, Conf.setChan]; rw [Function.update_of_ne hrc2.symm, h.tokens]
    · rw [if_neg hmore]
      -- the round is complete
      have hlen := h.length
      simp only [List.length_cons] at hlen
      have hQ' : Q' = [] := List.length_eq_zero_iff.1 (by omega)
      subst hQ'
      have hall : ∀ w < n, 4 * B + 2 ≤ t w := by
        intro w hw
        have hp := nodup_perm_range (l := C ++ [q]) (n := n) (by simpa using hnd) (fun v hv => ((hmem v).1 (by simpa using hv)).1)
          (by simp; omega)
        exact ((hmem w).1 (by simpa using hp.mem_iff.2 (List.mem_range.2 hw))).2
      by_cases hlt : B < K
      · rw [if_pos hlt]
        have hbase : bbase n (B + 1) = bbase n B + (if B = 0 then 0 else n) := by
          rcases Nat.eq_zero_or_pos B with h0 | h0
          · rw [h0, bbase_zero, bbase_one]; simp
          · rw [bbase_succ n B h0, if_neg (by omega)]
        refine ⟨.bnew, B + 1, fun _ => 0, [], [], ?_, h.alive, by omega, ⟨by omega, rfl, fun _ => rfl, by rw [hbase]; exact hG, ?_⟩, ?_, ?_, ?_, ?_, ?_, ?_,
          ?_, ?_, ?_, ?_, h.fresh, ?_, h.high, ?_, ?_, ?_, ?_, ?_⟩
        · simp only [protoLeft, mainLeft]
          have e : (K - B) * (5 * n + 5) = (K - (B + 1)) * (5 * n + 5) + (5 * n + 5) := by
            rw [show K - B = (K - (B + 1)) + 1 by omega]; ring
          have e2 : ∑ w ∈ range n, (3 - 0) = 3 * n := by simp [mul_comm]
          omega
        · simp only [Conf.goOn, Conf.setChan]; omega
        · simp [Conf.goOn, mainAt]
        · intro w hw
          simp only [Conf.goOn]
          rw [Function.update_of_ne (by omega)]; exact h.work w hw
        · intro w hw
          have := bbase_le n (B + 1)
          simp only [Conf.goOn]
          rw [Function.update_of_ne (by omega)]
          change s.gs _ = _
          rcases Nat.eq_zero_or_pos B with h0 | h0
          · rw [hbase, if_pos h0, Nat.add_zero, h.bc w hw, hu0 h0 w]; rfl
          · rw [hbase, if_neg (by omega)]
            exact h.other _ (by omega) (.inr (by omega))
        · intro i hi hi'
          simp only [Conf.goOn]
          rw [Function.update_of_ne (by omega)]
          change s.gs i = _
          rcases Nat.eq_zero_or_pos B with h0 | h0
          · rw [hbase, if_pos h0, Nat.add_zero] at hi'
            exact h.other i hi hi'
          · rw [hbase, if_neg (by omega)] at hi'
            by_cases hin : bbase n B ≤ i ∧ i < bbase n B + n
            · obtain ⟨w, rfl⟩ : ∃ w, i = bbase n B + w := ⟨i - bbase n B, by omega⟩
              rw [h.bc w (by omega), hu1 h0 w (by omega)]
              rfl
            · exact h.other i hi (by omega)
        · intro w hw hm
          simp only [Conf.goOn, Conf.setChan]
          rw [Function.update_of_ne (hrc3 w), h.rch w hw (by simpa [made] using hw), if_neg (by have := hall w hw; omega), if_neg (by omega)]
        · have hev := h.ev
          simp [Conf.goOn, Conf.setChan, roundChan, hlt, hev]
        · have hfi := h.fi
          simp [Conf.goOn, Conf.setChan, roundChan, hlt, hfi]
        · simp only [Conf.goOn, Conf.setChan]; rw [Function.update_of_ne hrc2.symm, h.semCap]
        · simp only [Conf.goOn, Conf.setChan]; rw [Function.update_of_ne hrc2.symm, h.semOpen]
        · simp only [Conf.goOn, Conf.setChan]; rw [Function.update_of_ne hrc2.symm, h.tokens]
        · intro w hw
          have := hall w hw
          omega
        · intro _ w hw
          have := h.high' hlt w hw
          omega
        · intro _ w hw hc
          have := h.high' hlt w hw
          omega
        · intro w; omega
        · simp
        · intro w
          constructor
          · intro hc; simp at hc
          · rintro ⟨hw, hc⟩
            have := h.high' hlt w hw
            omega
      · rw [if_neg hlt]
        have hBeq : B = K := by omega
        refine ⟨.closeE, B, u, C ++ [q], [], ?_, h.alive, hBK, ⟨hBeq, by simp; omega, hu0, hu1, hG, hW⟩, ?_, ?_, ?_, ?_, ?_, ?_, ?_,
          ?_, ?_, ?_, h.fresh, h.low, h.high, h.high', h.sent, h.uhigh, hnd, hmem⟩
        · simp only [protoLeft, mainLeft]; omega
        · simp [Conf.goOn, mainAt]
        · intro w hw
          simp only [Conf.goOn]
          rw [Function.update_of_ne (by omega)]; exact h.work w hw
        · intro w hw
          simp only [Conf.goOn]
          rw [Function.update_of_ne (by omega)]; exact h.bc w hw
        · intro i hi hi'
          simp only [Conf.goOn]
          rw [Function.update_of_ne (by omega)]; exact h.other i hi hi'
        · intro w hw hm
          simp only [Conf.goOn, Conf.setChan]
          rw [Function.update_of_ne (hrc3 w)]
          exact h.rch w hw hm
        · have hev := h.ev
          simp [Conf.goOn, Conf.setChan, roundChan, hlt, hev]
        · have hfi := h.fi
          simp [Conf.goOn, Conf.setChan, roundChan, hlt, hfi]
        · simp only [Conf.goOn, Conf.setChan]; rw [Function.update_of_ne hrc2.symm, h.semCap]
        · simp only [Conf.goOn, Conf.setChan]; rw [Function.update_of_ne hrc2.symm, h.semOpen]
        · simp only [Conf.goOn, Conf.setChan]; rw [Function.update_of_ne hrc2.symm, h.tokens]
  | closeE =>
    obtain ⟨hBeq, hCn, hall⟩ := h.phase
    have hev := h.ev
    simp only [mainAt] at hj
    simp only [reduceCtorEq, or_self, decide_false] at hev
    simp only [exec, hj, hev, Bool.false_eq_true, if_false, Option.some.injEq] at he
    subst he
    refine ⟨.closeF, B, u, C, Q, ?_, h.alive, hBK, ⟨hBeq, hCn, hall⟩, ?_, ?_, ?_, ?_, ?_, ?_, ?_,
      h.semCap, h.semOpen, h.tokens, h.fresh, h.low, h.high, h.high', h.sent, h.uhigh, h.nodup, h.mem⟩
    · simp only [protoLeft, mainLeft]; omega
    · simp [Conf.goOn, mainAt]
    · intro w hw
      simp only [Conf.goOn]
      rw [Function.update_of_ne (by omega)]; exact h.work w hw
    · intro w hw
      simp only [Conf.goOn]
      rw [Function.update_of_ne (by omega)]; exact h.bc w hw
    · intro i hi hi'
      simp only [Conf.goOn]
      rw [Function.update_of_ne (by omega)]; exact h.other i hi hi'
    · intro w hw hm
      simp only [Conf.goOn, Conf.setChan]
      rw [Function.update_of_ne (by omega)]
      exact h.rch w hw hm
    · simp [Conf.goOn, Conf.setChan]
    · have hfi := h.fi
      simp [Conf.goOn, Conf.setChan, hfi]
  | closeF =>
    obtain ⟨hBeq, hCn, hall⟩ := h.phase
    have hfi := h.fi
    simp only [mainAt] at hj
    simp only [reduceCtorEq, decide_false] at hfi
    simp only [exec, hj, hfi, Bool.false_eq_true, if_false, Option.some.injEq] at he
    subst he
    refine ⟨.done, B, u, C, Q, ?_, h.alive, hBK, ⟨hBeq, hCn, hall⟩, ?_, ?_, ?_, ?_, ?_, ?_, ?_,
      h.semCap, h.semOpen, h.tokens, h.fresh, h.low, h.high, h.high', h.sent, h.uhigh, h.nodup, h.mem⟩
    · simp only [protoLeft, mainLeft]; omega
    · simp [Conf.goOn, mainAt]
    · intro w hw
      simp only [Conf.goOn]
      rw [Function.update_of_ne (by omega)]; exact h.work w hw
    · intro w hw
      simp only [Conf.goOn]
      rw [Function.update_of_ne (by omega)]; exact h.bc w hw
    · intro i hi hi'
      simp only [Conf.goOn]
      rw [Function.update_of_ne (by omega)]; exact h.other i hi hi'
    · intro w hw hm
      simp only [Conf.goOn, Conf.setChan]
      rw [Function.update_of_ne (by omega)]
      exact h.rch w hw hm
    · have hev := h.ev
      simp [Conf.goOn, Conf.setChan, hev]
    · simp [Conf.goOn, Conf.setChan]
  | done =>
    simp [exec, hj, mainAt] at he

/-- Main never sends, and has returned only at the end. -/
theorem PInv.main_form (h : PInv P N ph B t u C Q s) :
    (∀ c v k, s.gs 0 ≠ .send c v k) ∧ (∀ r, s.gs 0 = .ret r → ph = .done) := by
  have hm := h.main
  have hBK := h.hB
  cases ph with
  | mk j =>
    obtain ⟨f, hf, _⟩ := P.mMk j h.phase.2.2.1
    rw [hm]; simp [mainAt, hf]
  | go j => rw [hm]; simp [mainAt]
  | bnew =>
    obtain ⟨f, hf, _⟩ := P.mNew B h.phase.1 hBK
    rw [hm]; simp [mainAt, hf]
  | bcast j =>
    obtain ⟨hB, _, hjn, _⟩ := h.phase
    rw [hm]
    rcases Nat.lt_or_ge j n with hj | hj
    · simp [mainAt, P.mGo B hB hBK j hj]
    · obtain rfl : j = n := by omega
      simp [mainAt, P.mWait B hB hBK]
  | consume =>
    obtain ⟨f, hf, _⟩ := P.mConsume B hBK C (List.nodup_append.1 h.nodup).1
      (fun w hw => ((h.mem w).1 (by simp [hw])).1) h.phase.1
    rw [hm]; simp [mainAt, hf]
  | closeE => rw [hm]; simp [mainAt]
  | closeF => rw [hm]; simp [mainAt]
  | done => rw [hm]; simp [mainAt]

/-- The goroutines. -/
theorem PInv.who (_ : PInv P N ph B t u C Q s) (i : Nat) :
    i = 0 ∨ (∃ w < n, i = 1 + w) ∨ (∃ w < n, i = bbase n B + w) ∨ (1 + n ≤ i ∧ (i < bbase n B ∨ bbase n B + n ≤ i)) := by
  have := bbase_le n B
  by_cases h0 : i = 0
  · exact .inl h0
  · by_cases h1 : i < 1 + n
    · exact .inr (.inl ⟨i - 1, by omega, by omega⟩)
    · by_cases h2 : bbase n B ≤ i ∧ i < bbase n B + n
      · exact .inr (.inr (.inl ⟨i - bbase n B, by omega, by omega⟩))
      · exact .inr (.inr (.inr (by omega)))

/-- A send has room, on an open channel. -/
theorem PInv.send_room (h : PInv P N ph B t u C Q s) {i c : Nat} {v : Msg F} {k : Prog Unit (Msg F)} (hi : s.gs i = .send c v k) :
    (s.chans c).closed = false ∧ (s.chans c).buf.length < (s.chans c).cap := by
  have hBK := h.hB
  rcases h.who i with rfl | ⟨w, hw, rfl⟩ | ⟨w, hw, rfl⟩ | ⟨h1, h2⟩
  · exact absurd hi (h.main_form.1 c v k)
  · have hj := h.work w hw
    by_cases hst : started n w ph
    swap
    · rw [if_neg hst, hi] at hj; cases hj
    rw [if_pos hst, hi] at hj
    have htk := h.tokens
    rcases h.cases hw with ⟨hB, ht⟩ | ⟨hB, ht⟩ | ht | ht | ht | ht | ⟨hB, ht⟩
    · have hpos := wHold_pos (t := t) hw (by omega)
      rw [ht, P.wRel w hw _ (by omega)] at hj
      simp only [Prog.send.injEq] at hj
      rw [hj.1]
      exact ⟨h.semOpen, by rw [h.semCap]; omega⟩
    · obtain ⟨f, hf, _⟩ := P.wRecv w hw (B - 1) (by omega)
      rw [ht, hf] at hj; cases hj
    · rw [ht, P.wAcq w hw B hBK] at hj; cases hj
    · rw [ht, P.wSend w hw B hBK] at hj
      simp only [Prog.send.injEq] at hj
      have hroom := h.room hw ht
      obtain ⟨ho1, ho2⟩ := h.open_ev hw ht
      rw [hj.1]
      by_cases hlt : B < K
      · have hch : roundChan K B = 0 := by simp [roundChan, hlt]
        rw [hch, h.ev]
        simp only [hlt, if_true, ho1, ho2, or_self, decide_false, List.length_map, true_and]
        omega
      · have hch : roundChan K B = 1 := by simp [roundChan, hlt]
        rw [hch, h.fi]
        simp only [hlt, if_false, ho2, decide_false, List.length_map, true_and]
        omega
    · have hpos := wHold_pos (t := t) hw (by omega)
      rw [ht, P.wRel w hw _ hBK] at hj
      simp only [Prog.send.injEq] at hj
      rw [hj.1]
      exact ⟨h.semOpen, by rw [h.semCap]; omega⟩
    · by_cases hlt : B < K
      · obtain ⟨f, hf, _⟩ := P.wRecv w hw B hlt
        rw [ht, hf] at hj; cases hj
      · rw [ht, show B = K by omega, P.wClose w hw] at hj; cases hj
    · rw [ht, P.wRet w hw] at hj; cases hj
  · have hj := h.bc w hw
    rw [hi] at hj
    have huh := h.uhigh w
    rcases (show u w = 0 ∨ u w = 1 ∨ u w = 2 ∨ u w = 3 by omega) with hu | hu | hu | hu
    · rw [hu] at hj; cases hj
    · obtain ⟨j, rfl, hwj⟩ := h.active hw (.inl hu)
      have hB1 : 1 ≤ B := h.phase.1
      have htw : ¬ 4 * B ≤ t w := fun hc => by have := h.sent hB1 w hw hc; omega
      have hcl : decide (t w = 4 * K + 4) = false := by simp; omega
      have hrc := h.rch w hw (by simpa [made] using hw)
      rw [hcl, if_neg (by omega)] at hrc
      rw [hu] at hj
      simp only [bAt, Prog.send.injEq] at hj
      rw [hj.1, hrc]
      simp
    · rw [hu] at hj; cases hj
    · rw [hu] at hj; cases hj
  · rw [h.other i h1 h2] at hi; cases hi

theorem PInv.no_rendezvous (h : PInv P N ph B t u C Q s) : ¬ Rendezvous s s' := by
  rintro ⟨i, j, c, v, k, k', _, hi, _, hcap, _⟩
  have := (h.send_room hi).2
  omega

theorem PInv.step (h : PInv P N ph B t u C Q s) (hs : Step s s') :
    ∃ ph' B' t' u' C' Q', protoLeft n K ph' B' t' u' C' < protoLeft n K ph B t u C ∧ PInv P N ph' B' t' u' C' Q' s' := by
  obtain ⟨_, ⟨i, hi⟩ | hr⟩ := hs
  · rcases h.who i with rfl | ⟨w, hw, rfl⟩ | ⟨w, hw, rfl⟩ | ⟨h1, h2⟩
    · obtain ⟨ph', B', u', C', Q', h1, h2⟩ := h.main_exec hi
      exact ⟨ph', B', t, u', C', Q', h1, h2⟩
    · obtain ⟨Q', h1, h2⟩ := h.worker_exec hw hi
      exact ⟨_, _, _, _, _, _, h1, h2⟩
    · obtain ⟨y, h1, h2⟩ := h.bcast_exec hw hi
      exact ⟨_, _, _, _, _, _, h1, h2⟩
    · simp [exec, h.other i h1 h2] at hi
  · exact absurd hr h.no_rendezvous

theorem PInv.exec_send (h : PInv P N ph B t u C Q s) {i c : Nat} {v : Msg F} {k : Prog Unit (Msg F)} (hi : s.gs i = .send c v k) :
    ∃ s', exec s i = some s' ∧ s'.crashed = none :=
  send_exec h.alive hi (h.send_room hi).1 (h.send_room hi).2

/-- When main has returned, the others have sent their last messages on `finChan`. -/
theorem PInv.ended (h : PInv P N .done B t u C Q s) (i : Nat) (hi : i ≠ 0) : Ended 1 (s.gs i) := by
  obtain ⟨hBeq, hCn, hu0, hu1, _, _⟩ := h.phase
  rcases h.who i with rfl | ⟨w, hw, rfl⟩ | ⟨w, hw, rfl⟩ | ⟨h1, h2⟩
  · exact absurd rfl hi
  · have hj := h.work w hw
    rw [if_pos (by simpa [started] using hw)] at hj
    have hp := nodup_perm_range (l := C) (n := n) (List.nodup_append.1 h.nodup).1
      (fun v hv => ((h.mem v).1 (by simp [hv])).1) hCn
    have hwC : w ∈ C := hp.mem_iff.2 (List.mem_range.2 hw)
    have h1 := ((h.mem w).1 (by simp [hwC])).2
    have h2 := h.high w hw
    subst hBeq
    rcases (show t w = 4 * B + 2 ∨ t w = 4 * B + 3 ∨ t w = 4 * B + 4 by omega) with ht | ht | ht
    · rw [hj, ht, P.wRel w hw B le_rfl, P.wClose w hw, P.wRet w hw]
      exact .inr (.inr ⟨2, _, _, _, by decide, rfl⟩)
    · rw [hj, ht, P.wClose w hw, P.wRet w hw]
      exact .inr (.inl ⟨_, _, rfl⟩)
    · rw [hj, ht, P.wRet w hw]
      exact .inl ⟨_, rfl⟩
  · left
    rw [h.bc w hw]
    rcases Nat.eq_zero_or_pos B with hB | hB
    · rw [hu0 hB w]; exact ⟨_, rfl⟩
    · rw [hu1 hB w hw]; exact ⟨_, rfl⟩
  · exact .inl ⟨_, h.other i h1 h2⟩

theorem PInv.good (hN : 1 ≤ N) (h : PInv P N ph B t u C Q s) :
    GoodConf 2 N (fun s => s.gs 0 = .ret P.out ∧ ∀ i, i ≠ 0 → Ended 1 (s.gs i)) s where
  alive := h.alive
  live := by
    intro hst
    have hnone : ∀ i, exec s i = none := by
      intro i
      cases he : exec s i with
      | none => rfl
      | some s' => exact absurd ⟨h.alive, .inl ⟨i, he⟩⟩ (hst s')
    have hBK := h.hB
    have hnosend : ∀ i c v k, s.gs i ≠ .send c v k := by
      intro i c v k hi
      obtain ⟨s', h1, _⟩ := h.exec_send hi
      rw [hnone i] at h1; cases h1
    -- no worker holds a token
    have hout : ∀ w < n, t w % 4 ≠ 1 ∧ t w % 4 ≠ 2 := by
      intro w hw
      by_cases hs : started n w ph
      · have hj := h.work w hw
        rw [if_pos hs] at hj
        rcases h.cases hw with ⟨hB, ht⟩ | ⟨hB, ht⟩ | ht | ht | ht | ht | ⟨hB, ht⟩
        · rw [ht, P.wRel w hw _ (by omega)] at hj; exact absurd hj (hnosend _ _ _ _)
        · omega
        · omega
        · rw [ht, P.wSend w hw _ hBK] at hj; exact absurd hj (hnosend _ _ _ _)
        · rw [ht, P.wRel w hw _ hBK] at hj; exact absurd hj (hnosend _ _ _ _)
        · omega
        · omega
      · have := h.fresh w hw hs; omega
    have hheld : ∑ w ∈ range n, wHold (t w) = 0 := by
      apply Finset.sum_eq_zero
      intro w hw
      have := hout w (Finset.mem_range.1 hw)
      unfold wHold
      rw [if_neg (by omega)]
    have htk := h.tokens
    -- nobody waits for a token
    have hacq : ∀ w < n, started n w ph → t w ≠ 4 * B := by
      intro w hw hs ht
      have hj := h.work w hw
      rw [if_pos hs, ht, P.wAcq w hw B hBK] at hj
      have hn := hnone (1 + w)
      simp only [exec, hj] at hn
      cases hbuf : (s.chans 2).buf with
      | nil => rw [hbuf] at htk; simp at htk; omega
      | cons v rest => rw [hbuf] at hn; simp at hn
    -- no broadcaster is active
    have hub : ∀ w < n, u w = 0 ∨ u w = 3 := by
      intro w hw
      have huh := h.uhigh w
      have hj := h.bc w hw
      rcases (show u w = 0 ∨ u w = 1 ∨ u w = 2 ∨ u w = 3 by omega) with hu | hu | hu | hu
      · exact .inl hu
      · rw [hu] at hj; exact absurd hj (hnosend _ _ _ _)
      · exfalso
        rw [hu] at hj
        simp only [bAt] at hj
        have hn := hnone (bbase n B + w)
        simp only [exec, hj] at hn
        split_ifs at hn
      · exact .inr hu
    have hdone : ph = .done := by
      have hm := h.main
      have hmain := hnone 0
      cases ph with
      | mk j =>
        obtain ⟨f, hf, _⟩ := P.mMk j h.phase.2.2.1
        simp [exec, hm, mainAt, hf] at hmain
      | go j => simp [exec, hm, mainAt] at hmain
      | bnew =>
        obtain ⟨f, hf, _⟩ := P.mNew B h.phase.1 hBK
        simp [exec, hm, mainAt, hf] at hmain
      | bcast j =>
        exfalso
        obtain ⟨hB, _, hjn, hge, hz, hG, hW, hwg⟩ := h.phase
        rcases Nat.lt_or_ge j n with hj | hj
        · simp [exec, hm, mainAt, P.mGo B hB hBK j hj] at hmain
        · obtain rfl : j = n := by omega
          have hall : ∑ w ∈ range j, bFin (u w) = j := by
            have : ∑ w ∈ range j, bFin (u w) = ∑ w ∈ range j, 1 := by
              apply Finset.sum_congr rfl
              intro w hw
              have hw := Finset.mem_range.1 hw
              have h1 := hge w hw
              rcases hub w hw with h0 | h0
              · omega
              · rw [h0]; rfl
            rw [this]; simp
          have h0 : s.wgs (B - 1) = 0 := by omega
          simp [exec, hm, mainAt, P.mWait B hB hBK, h0] at hmain
      | consume =>
        exfalso
        obtain ⟨hCn, hu0, hu1, _, _⟩ := h.phase
        obtain ⟨f, hf, _⟩ := P.mConsume B hBK C (List.nodup_append.1 h.nodup).1
          (fun w hw => ((h.mem w).1 (by simp [hw])).1) hCn
        -- all the workers have sent
        have hall : ∀ w < n, 4 * B + 2 ≤ t w := by
          intro w hw
          have h1 := hacq w hw (by simpa [started] using hw)
          have h2 := hout w hw
          rcases h.cases hw with ⟨hB, ht⟩ | ⟨hB, ht⟩ | ht | ht | ht | ht | ⟨hB, ht⟩
          · omega
          · exfalso
            have hj := h.work w hw
            obtain ⟨g, hg, _⟩ := P.wRecv w hw (B - 1) (by omega)
            rw [if_pos (by simpa [started] using hw), ht, hg] at hj
            have hn := hnone (1 + w)
            have hrc := h.rch w hw (by simpa [made] using hw)
            rw [if_pos ⟨by rw [hu1 hB w hw]; omega, by omega⟩] at hrc
            simp [exec, hj, hrc] at hn
          all_goals omega
        have hQ : Q ≠ [] := by
          rintro rfl
          have hsub : (List.range n).length ≤ C.length := by
            apply List.Subperm.length_le
            apply List.subperm_of_subset List.nodup_range
            intro w hw
            have hw := List.mem_range.1 hw
            have := (h.mem w).2 ⟨hw, hall w hw⟩
            simpa using this
          simp at hsub
          omega
        obtain ⟨q, Q', rfl⟩ := List.exists_cons_of_ne_nil hQ
        by_cases hlt : B < K
        · have hch : roundChan K B = 0 := by simp [roundChan, hlt]
          simp [exec, hm, mainAt, hf, hch, h.ev, hlt] at hmain
        · have hch : roundChan K B = 1 := by simp [roundChan, hlt]
          simp [exec, hm, mainAt, hf, hch, h.fi, hlt] at hmain
      | closeE => simp [exec, hm, mainAt, h.ev] at hmain
      | closeF => simp [exec, hm, mainAt, h.fi] at hmain
      | done => rfl
    subst hdone
    obtain ⟨hBeq, hCn, hu0, hu1, _, _⟩ := h.phase
    have hCsub : ∀ w < n, 4 * B + 2 ≤ t w := by
      intro w hw
      have hp := nodup_perm_range (l := C) (n := n) (List.nodup_append.1 h.nodup).1
        (fun v hv => ((h.mem v).1 (by simp [hv])).1) hCn
      have hwC : w ∈ C := hp.mem_iff.2 (List.mem_range.2 hw)
      exact ((h.mem w).1 (by simp [hwC])).2
    intro i
    rcases h.who i with rfl | ⟨w, hw, rfl⟩ | ⟨w, hw, rfl⟩ | ⟨h1, h2⟩
    · exact ⟨_, h.main⟩
    · refine ⟨.tok, ?_⟩
      have hj := h.work w hw
      rw [if_pos (by simpa [started] using hw)] at hj
      have h1 := hCsub w hw
      have h2 := hout w hw
      rcases h.cases hw with ⟨hB, ht⟩ | ⟨hB, ht⟩ | ht | ht | ht | ht | ⟨hB, ht⟩
      · omega
      · omega
      · omega
      · omega
      · omega
      · exfalso
        rw [ht, hBeq, P.wClose w hw] at hj
        have hn := hnone (1 + w)
        simp only [exec, hj] at hn
        split_ifs at hn
      · rw [hj, ht, P.wRet w hw]
    · refine ⟨.tok, ?_⟩
      rw [h.bc w hw]
      rcases hub w hw with h0 | h0 <;> rw [h0] <;> rfl
    · exact ⟨_, h.other i h1 h2⟩
  result := by
    rintro ⟨r, hr⟩
    have hd := h.main_form.2 r hr
    subst hd
    exact ⟨h.main, h.ended⟩
  sends := fun i c v k hi => h.exec_send hi
  excl := by
    intro S hS
    have hBK := h.hB
    have hsub : S ⊆ ((range n).filter (fun w => wHold (t w) = 1)).image (1 + ·) := by
      intro i hi
      obtain ⟨h1, h2⟩ := hS i hi
      rcases h.who i with rfl | ⟨w, hw, rfl⟩ | ⟨w, hw, rfl⟩ | ⟨h3, h4⟩
      · omega
      · have hj := h.work w hw
        rw [Finset.mem_image]
        refine ⟨w, ?_, rfl⟩
        by_cases hs : started n w ph
        · rw [if_pos hs] at hj
          rw [Finset.mem_filter, Finset.mem_range]
          refine ⟨hw, ?_⟩
          have hin : t w % 4 = 1 ∨ t w % 4 = 2 := by
            have hrecv : ∀ k < K, t w ≠ 4 * k + 3 := by
              intro k hk ht
              obtain ⟨f, hf, _, hf2⟩ := P.wRecv w hw k hk
              rw [hj, ht, hf] at h2
              obtain ⟨_, v, hv⟩ := h2
              exact hf2 v hv
            have hacq : ∀ k ≤ K, t w ≠ 4 * k := by
              intro k hk ht
              rw [hj, ht, P.wAcq w hw k hk] at h2
              exact h2.1 rfl
            have hcl : t w ≠ 4 * K + 3 := by
              intro ht
              rw [hj, ht, P.wClose w hw, P.wRet w hw] at h2
              exact h2
            have hret : t w ≠ 4 * K + 4 := by
              intro ht
              rw [hj, ht, P.wRet w hw] at h2
              exact h2
            rcases h.cases hw with ⟨hB, ht⟩ | ⟨hB, ht⟩ | ht | ht | ht | ht | ⟨hB, ht⟩
            · omega
            · exact absurd ht (hrecv _ (by omega))
            · exact absurd ht (hacq _ hBK)
            · omega
            · omega
            · rcases Nat.lt_or_ge B K with hlt | hge
              · exact absurd ht (hrecv _ hlt)
              · exact absurd ht (by rw [show B = K by omega]; exact hcl)
            · exact absurd ht hret
          simp only [wHold, hin, if_true]
        · rw [if_neg hs] at hj
          rw [hj] at h2
          exact h2.elim
      · exfalso
        have huh := h.uhigh w
        have hj := h.bc w hw
        rcases (show u w = 0 ∨ u w = 1 ∨ u w = 2 ∨ u w = 3 by omega) with hu | hu | hu | hu
        · rw [hj, hu] at h2; exact h2
        · rw [hj, hu] at h2
          simp only [bAt, Holds, or_false] at h2
          omega
        · rw [hj, hu] at h2; exact h2
        · rw [hj, hu] at h2; exact h2
      · exfalso
        rw [h.other i h3 h4] at h2
        exact h2
    have hcard : ((range n).filter (fun w => wHold (t w) = 1)).card = ∑ w ∈ range n, wHold (t w) := by
      rw [Finset.card_filter]
      apply Finset.sum_congr rfl
      intro w _
      unfold wHold
      split_ifs <;> simp_all
    calc S.card ≤ _ := Finset.card_le_card hsub
      _ ≤ _ := Finset.card_image_le
      _ = _ := hcard
      _ ≤ N := by have := h.tokens; omega

end

/-- The start of the launch loop. -/
theorem proto_start (N : Nat) (chans : Nat → Chan (Msg F)) (h0 : chans 0 = ⟨[], n, false⟩) (h1 : chans 1 = ⟨[], n, false⟩)
    (h2 : chans 2 = ⟨List.replicate N .tok, N, false⟩) :
    PInv P N (.mk 0) 0 (fun _ => 0) (fun _ => 0) [] [] (soloConf .tok (P.mkc 0) chans 3 (fun _ => 0) 0 ()) where
  alive := rfl
  hB := Nat.zero_le _
  phase := ⟨rfl, rfl, P.hn, fun _ => rfl, rfl, rfl, rfl⟩
  main := by simp [soloConf, mainAt]
  work := by intro w hw; simp [soloConf, started]
  bc := by
    intro w hw
    rw [bbase_zero]
    simp only [soloConf]
    rw [Function.update_of_ne (by omega)]
    rfl
  other := by
    intro i hi _
    simp only [soloConf]
    rw [Function.update_of_ne (by omega)]
  rch := by intro w _ hm; simp [made] at hm
  ev := by simp [soloConf, h0]
  fi := by simp [soloConf, h1]
  semCap := by simp [soloConf, h2]
  semOpen := by simp [soloConf, h2]
  tokens := by simp [soloConf, h2, wHold]
  fresh := fun _ _ _ => rfl
  low := by intro w _; omega
  high := by intro w _; omega
  high' := by intro _ w _; omega
  sent := by omega
  uhigh := by intro w; omega
  nodup := by simp
  mem := by intro w; simp

theorem proto_good {N : Nat} (hN : 1 ≤ N) (chans : Nat → Chan (Msg F)) (h0 : chans 0 = ⟨[], n, false⟩)
    (h1 : chans 1 = ⟨[], n, false⟩) (h2 : chans 2 = ⟨List.replicate N .tok, N, false⟩) :
    ∃ bound, GoodRun 2 N (fun s => s.gs 0 = .ret P.out ∧ ∀ i, i ≠ 0 → Ended 1 (s.gs i)) bound (soloConf .tok (P.mkc 0) chans 3 (fun _ => 0) 0 ()) := by
  refine ⟨protoLeft n K (.mk 0) 0 (fun _ => 0) (fun _ => 0) [], goodRun_of_inv
    (fun μ s => ∃ ph B t u C Q, protoLeft n K ph B t u C = μ ∧ PInv P N ph B t u C Q s) ?_ ?_ ?_⟩
  · rintro μ s s' ⟨ph, B, t, u, C, Q, rfl, h⟩ hs
    obtain ⟨ph', B', t', u', C', Q', h1, h2⟩ := h.step hs
    exact ⟨_, h1, ph', B', t', u', C', Q', rfl, h2⟩
  · rintro μ s ⟨ph, B, t, u, C, Q, _, h⟩
    exact h.good hN
  · exact ⟨_, _, _, _, _, _, rfl, proto_start P N chans h0 h1 h2⟩

/-- Without tokens no worker moves, and main waits for ever. -/
theorem proto_deadlock (chans : Nat → Chan (Msg F)) (h0 : chans 0 = ⟨[], n, false⟩)
    (h1 : chans 1 = ⟨[], n, false⟩) (h2 : chans 2 = ⟨[], 0, false⟩) :
    ∃ bound, Deadlocks bound (soloConf .tok (P.mkc 0) chans 3 (fun _ => 0) 0 ()) := by
  refine ⟨protoLeft n K (.mk 0) 0 (fun _ => 0) (fun _ => 0) [], deadlocks_of_inv
    (fun μ s => ∃ ph B u C Q, protoLeft n K ph B (fun _ => 0) u C = μ ∧ PInv P 0 ph B (fun _ => 0) u C Q s) ?_ ?_ ?_⟩
  · rintro μ s s' ⟨ph, B, u, C, Q, rfl, h⟩ hs
    obtain ⟨_, ⟨i, hi⟩ | hr⟩ := hs
    · rcases h.who i with rfl | ⟨w, hw, rfl⟩ | ⟨w, hw, rfl⟩ | ⟨h1, h2⟩
      · obtain ⟨ph', B', u', C', Q', h1, h2⟩ := h.main_exec hi
        exact ⟨_, h1, ph', B', u', C', Q', rfl, h2⟩
      · exfalso
        have hj := h.work w hw
        by_cases hs : started n w ph
        · rw [if_pos hs] at hj
          have := P.wAcq w hw 0 (Nat.zero_le _)
          rw [Nat.mul_zero] at this
          rw [this] at hj
          have hb : (s.chans 2).buf = [] := by
            have := h.tokens
            exact List.length_eq_zero_iff.1 (by omega)
          simp [exec, hj, hb, h.semOpen] at hi
        · rw [if_neg hs] at hj
          simp [exec, hj] at hi
      · obtain ⟨y, h1, h2⟩ := h.bcast_exec hw hi
        exact ⟨_, h1, ph, B, _, C, Q, rfl, h2⟩
      · simp [exec, h.other i h1 h2] at hi
    · exact absurd hr h.no_rendezvous
  · rintro μ s ⟨ph, B, u, C, Q, _, h⟩
    refine ⟨h.alive, ?_⟩
    rintro ⟨r, hr⟩
    have hd := h.main_form.2 r hr
    subst hd
    have hC : C = [] := by
      cases C with
      | nil => rfl
      | cons c C => have := (h.mem c).1 (by simp); omega
    have hlen := h.phase.2.1
    have hpos := P.hn
    rw [hC, List.length_nil] at hlen
    omega
  · exact ⟨_, _, _, _, _, rfl, proto_start P 0 chans h0 h1 h2⟩

end GkrMimc
