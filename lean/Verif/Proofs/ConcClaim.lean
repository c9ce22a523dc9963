import Verif.Proofs.ConcPools

/-! All schedules of `MultiThreadedProver.GetClaim`. -/

set_option linter.unusedSectionVars false

namespace GkrMimc

open Spec Finset

variable {F : Type} [Field F] [DecidableEq F]

theorem nodup_length_le {l : List Nat} {n : Nat} (h : l.Nodup) (hl : ∀ w ∈ l, w < n) : l.length ≤ n := by
  have := List.toFinset_card_of_nodup h
  rw [← this]
  calc l.toFinset.card ≤ (range n).card := Finset.card_le_card (fun w hw => by
        rw [Finset.mem_range]; exact hl w (List.mem_toFinset.1 hw))
    _ = n := Finset.card_range n

theorem nodup_perm_range {l : List Nat} {n : Nat} (h : l.Nodup) (hl : ∀ w ∈ l, w < n) (hn : l.length = n) :
    l.Perm (List.range n) := by
  refine (List.subperm_of_subset h (fun w hw => List.mem_range.2 (hl w hw))).perm_of_length_le ?_
  simp [hn]

section
variable (n N : Nat) (x : Nat → F)

/-- The code of `GetClaimForChunk` after `t` steps. -/
def claimAt (w : Nat) : Nat → Prog Unit (Msg F)
  | 0 => .recv 1 fun _ => .send 0 (.elem (x w)) (.send 1 .tok (.ret .tok))
  | 1 => .send 0 (.elem (x w)) (.send 1 .tok (.ret .tok))
  | 2 => .send 1 .tok (.ret .tok)
  | _ => .ret .tok

/-- The second loop of `GetClaim`, after `i` turns. -/
def claimCollect (i : Nat) (res : F) : Prog Unit (Msg F) :=
  loopP (fun _ res next => recvElem 0 fun x => next (x + res)) (fun res => .ret (.elem res)) i (n - i) res

/-- The first loop of `GetClaim`, after `j` turns, and what follows. -/
def claimLaunch (j : Nat) : Prog Unit (Msg F) :=
  loopP (fun i _ next => .go (claimAt x i 0) (next ())) (fun _ => claimCollect n 0 (0 : F)) j (n - j) ()

/-- Does a worker hold a token? -/
def claimHold (t : Nat) : Nat := if 1 ≤ t ∧ t ≤ 2 then 1 else 0

/-- The invariant: `j` goroutines started, `t w` steps done by worker `w`, `C` the chunks consumed, `Q` the chunks queued. -/
structure ClaimInv (j : Nat) (t : Nat → Nat) (C Q : List Nat) (s : Conf Unit (Msg F)) : Prop where
  alive : s.crashed = none
  hj : j ≤ n
  main : s.gs 0 = if j < n then claimLaunch n x j else claimCollect n C.length (C.map x).sum
  job : ∀ w, s.gs (w + 1) = if w < j then claimAt x w (t w) else .ret .tok
  nG : s.nG = j + 1
  pos : ∀ w, t w ≤ 3
  fresh : ∀ w, j ≤ w → t w = 0
  evals : s.chans 0 = ⟨Q.map fun w => .elem (x w), n, false⟩
  semCap : (s.chans 1).cap = N
  semOpen : (s.chans 1).closed = false
  tokens : (s.chans 1).buf.length + ∑ w ∈ range n, claimHold (t w) = N
  nodup : (C ++ Q).Nodup
  mem : ∀ w, w ∈ C ++ Q ↔ 2 ≤ t w
  early : j < n → C = []

/-- Steps left. -/
def claimLeft (j : Nat) (t : Nat → Nat) (C : List Nat) : Nat :=
  ∑ w ∈ range n, (3 - t w) + (n - j) + (n - C.length)

end

section
variable {n N : Nat} {x : Nat → F} {j : Nat} {t : Nat → Nat} {C Q : List Nat} {s s' : Conf Unit (Msg F)}

theorem ClaimInv.lt (h : ClaimInv n N x j t C Q s) {w : Nat} (hw : w ∈ C ++ Q) : w < j := by
  by_contra hc
  have := h.fresh w (by omega)
  have := (h.mem w).1 hw
  omega

theorem ClaimInv.length (h : ClaimInv n N x j t C Q s) : C.length + Q.length ≤ n := by
  have := nodup_length_le (n := n) h.nodup (fun w hw => lt_of_lt_of_le (h.lt hw) h.hj)
  simpa using this

theorem claimCollect_lt {i : Nat} {res : F} (hi : i < n) : claimCollect n i res =
    recvElem 0 fun x => claimCollect n (i + 1) (x + res) := by
  unfold claimCollect
  rw [show n - i = (n - (i + 1)) + 1 by omega]
  rfl

theorem claimCollect_end {i : Nat} {res : F} (hi : n ≤ i) : claimCollect n i res = .ret (.elem res) := by
  unfold claimCollect
  rw [show n - i = 0 by omega]
  rfl

theorem claimLaunch_lt (hj : j < n) : claimLaunch n x j =
    .go (claimAt x j 0) (if j + 1 < n then claimLaunch n x (j + 1) else claimCollect n 0 0) := by
  split_ifs with h
  · unfold claimLaunch
    rw [show n - j = (n - (j + 1)) + 1 by omega]
    rfl
  · unfold claimLaunch
    rw [show n - j = 1 by omega]
    rfl

theorem claim_left_upd {w : Nat} (hw : w < n) {y : Nat} (h1 : t w < y) (h2 : y ≤ 3) :
    claimLeft n j (Function.update t w y) C < claimLeft n j t C := by
  unfold claimLeft
  have := sum_upd n w hw (fun _ t => 3 - t) t y
  omega

theorem ClaimInv.job_step (h : ClaimInv n N x j t C Q s) {w y : Nat} {Q' : List Nat} (hw : w < j) (hy : y ≤ 3)
    (h1 : s'.crashed = none) (h2 : s'.gs = Function.update s.gs (w + 1) (claimAt x w y)) (h3 : s'.nG = s.nG)
    (h4 : s'.chans 0 = ⟨Q'.map fun w => .elem (x w), n, false⟩)
    (h5 : (s'.chans 1).cap = N) (h6 : (s'.chans 1).closed = false)
    (h7 : (s'.chans 1).buf.length + claimHold y = (s.chans 1).buf.length + claimHold (t w))
    (h8 : (C ++ Q').Nodup) (h9 : ∀ v, v ∈ C ++ Q' ↔ 2 ≤ Function.update t w y v) :
    ClaimInv n N x j (Function.update t w y) C Q' s' where
  alive := h1
  hj := h.hj
  main := by rw [h2, Function.update_of_ne (by omega)]; exact h.main
  job := by
    intro i
    rw [h2]
    by_cases hi : i = w
    · subst hi; rw [Function.update_self, Function.update_self, if_pos hw]
    · rw [Function.update_of_ne (by omega), Function.update_of_ne hi]; exact h.job i
  nG := by rw [h3]; exact h.nG
  pos := by
    intro i
    by_cases hi : i = w
    · subst hi; rw [Function.update_self]; exact hy
    · rw [Function.update_of_ne hi]; exact h.pos i
  fresh := by
    intro i hi
    rw [Function.update_of_ne (by omega)]; exact h.fresh i hi
  evals := h4
  semCap := h5
  semOpen := h6
  tokens := by
    have := sum_upd n w (lt_of_lt_of_le hw h.hj) (fun _ t => claimHold t) t y
    have := h.tokens
    omega
  nodup := h8
  mem := h9
  early := h.early

theorem ClaimInv.mem_same (h : ClaimInv n N x j t C Q s) {w y : Nat} (hy : 2 ≤ t w ↔ 2 ≤ y) :
    ∀ v, v ∈ C ++ Q ↔ 2 ≤ Function.update t w y v := by
  intro v
  rw [h.mem v]
  by_cases hv : v = w
  · subst hv; rw [Function.update_self]; exact hy
  · rw [Function.update_of_ne hv]

theorem ClaimInv.room (h : ClaimInv n N x j t C Q s) {w : Nat} (hw : w < j) (ht : t w = 1) : Q.length < n := by
  have hnot : w ∉ C ++ Q := by rw [h.mem w]; omega
  have := nodup_length_le (l := w :: (C ++ Q)) (n := n) (List.nodup_cons.2 ⟨hnot, h.nodup⟩) (by
    intro v hv
    rcases List.mem_cons.1 hv with rfl | hv
    · exact lt_of_lt_of_le hw h.hj
    · exact lt_of_lt_of_le (h.lt hv) h.hj)
  simp at this
  omega

theorem claimHold_pos {w : Nat} (hw : w < n) (h : 1 ≤ t w ∧ t w ≤ 2) : 1 ≤ ∑ w ∈ range n, claimHold (t w) := by
  have := Finset.single_le_sum (f := fun w => claimHold (t w)) (fun _ _ => Nat.zero_le _) (Finset.mem_range.2 hw)
  simp only [claimHold, h, and_self, if_true] at this
  exact this

theorem ClaimInv.job_exec (h : ClaimInv n N x j t C Q s) {w : Nat} (he : exec s (w + 1) = some s') :
    ∃ y Q', claimLeft n j (Function.update t w y) C < claimLeft n j t C ∧
      ClaimInv n N x j (Function.update t w y) C Q' s' := by
  have hj := h.job w
  by_cases hw : w < j
  · rw [if_pos hw] at hj
    have hwn := lt_of_lt_of_le hw h.hj
    have hp := h.pos w
    rcases (show t w = 0 ∨ t w = 1 ∨ t w = 2 ∨ t w = 3 by omega) with ht | ht | ht | ht
    · rw [ht] at hj
      simp only [claimAt] at hj
      simp only [exec, hj, h.semOpen] at he
      cases hb : (s.chans 1).buf with
      | nil => rw [hb] at he; simp at he
      | cons v rest =>
        rw [hb] at he
        simp only [Option.some.injEq] at he
        subst he
        refine ⟨1, Q, claim_left_upd hwn (by omega) (by omega), h.job_step hw (by omega) h.alive rfl rfl ?_ ?_ ?_ ?_ h.nodup
          (h.mem_same (by omega))⟩
        · simp [Conf.goOn, Conf.setChan, h.evals]
        · simp [Conf.goOn, Conf.setChan, h.semCap]
        · simp [Conf.goOn, Conf.setChan, h.semOpen]
        · simp [Conf.goOn, Conf.setChan, hb, claimHold, ht]
    · rw [ht] at hj
      simp only [claimAt] at hj
      have hroom := h.room hw ht
      simp only [exec, hj, h.evals, Bool.false_eq_true, if_false, List.length_map, hroom, if_true, Option.some.injEq] at he
      subst he
      have hnot : w ∉ C ++ Q := by rw [h.mem w]; omega
      refine ⟨2, Q ++ [w], claim_left_upd hwn (by omega) (by omega), h.job_step hw (by omega) h.alive rfl rfl ?_ ?_ ?_ ?_ ?_ ?_⟩
      · simp [Conf.goOn, Conf.setChan]
      · simp [Conf.goOn, Conf.setChan, h.semCap]
      · simp [Conf.goOn, Conf.setChan, h.semOpen]
      · simp [Conf.goOn, Conf.setChan, claimHold, ht]
      · rw [← List.append_assoc]
        exact List.nodup_append.2 ⟨h.nodup, List.nodup_singleton _, by
          intro a ha b hb
          rw [List.mem_singleton.1 hb]
          rintro rfl
          exact hnot ha⟩
      · intro v
        rw [← List.append_assoc, List.mem_append, h.mem v, List.mem_singleton]
        by_cases hv : v = w
        · subst hv; simp
        · rw [Function.update_of_ne hv]; simp [hv]
    · rw [ht] at hj
      simp only [claimAt] at hj
      have hpos := claimHold_pos (t := t) hwn (by omega)
      have htk := h.tokens
      simp only [exec, hj, h.semOpen, Bool.false_eq_true, if_false] at he
      rw [if_pos (by rw [h.semCap]; omega)] at he
      simp only [Option.some.injEq] at he
      subst he
      refine ⟨3, Q, claim_left_upd hwn (by omega) (by omega), h.job_step hw (by omega) h.alive rfl rfl ?_ ?_ ?_ ?_ h.nodup
          (h.mem_same (by omega))⟩
      · simp [Conf.goOn, Conf.setChan, h.evals]
      · simp [Conf.goOn, Conf.setChan, h.semCap]
      · simp [Conf.goOn, Conf.setChan, h.semOpen]
      · simp [Conf.goOn, Conf.setChan, claimHold, ht]
    · rw [ht] at hj
      simp only [claimAt] at hj
      simp [exec, hj] at he
  · rw [if_neg hw] at hj
    simp [exec, hj] at he

theorem ClaimInv.main_exec (h : ClaimInv n N x j t C Q s) (he : exec s 0 = some s') :
    ∃ j' C' Q', claimLeft n j' t C' < claimLeft n j t C ∧ ClaimInv n N x j' t C' Q' s' := by
  have hm := h.main
  by_cases hj : j < n
  · rw [if_pos hj, claimLaunch_lt hj] at hm
    simp only [exec, hm, Option.some.injEq] at he
    subst he
    have hC := h.early hj
    subst hC
    refine ⟨j + 1, [], Q, ?_, h.alive, hj, ?_, ?_, ?_, h.pos, ?_, h.evals, h.semCap, h.semOpen, h.tokens, h.nodup, h.mem, fun _ => rfl⟩
    · unfold claimLeft; omega
    · change Function.update (Function.update s.gs 0 _) s.nG _ 0 = _
      rw [Function.update_of_ne (by rw [h.nG]; omega), Function.update_self]
      rfl
    · intro w
      change Function.update (Function.update s.gs 0 _) s.nG _ (w + 1) = _
      rw [h.nG]
      by_cases hw : w = j
      · subst hw
        rw [Function.update_self, if_pos (by omega), h.fresh w le_rfl]
      · rw [Function.update_of_ne (by omega), Function.update_of_ne (by omega), h.job w]
        by_cases hlt : w < j
        · rw [if_pos hlt, if_pos (by omega)]
        · rw [if_neg hlt, if_neg (by omega)]
    · change s.nG + 1 = _
      rw [h.nG]
    · intro w hw; exact h.fresh w (by omega)
  · rw [if_neg hj] at hm
    have hlen := h.length
    rcases Nat.lt_or_ge C.length n with hC | hC
    · rw [claimCollect_lt hC] at hm
      unfold recvElem at hm
      simp only [exec, hm, h.evals] at he
      cases Q with
      | nil => simp at he
      | cons q Q =>
        simp only [List.map_cons, Option.some.injEq] at he
        subst he
        refine ⟨j, C ++ [q], Q, ?_, h.alive, h.hj, ?_, ?_, h.nG, h.pos, h.fresh, ?_, ?_, ?_, ?_, ?_, ?_, fun hc => absurd hc hj⟩
        · unfold claimLeft
          simp only [List.length_append, List.length_singleton]
          omega
        · rw [if_neg hj]
          simp only [Conf.goOn, Conf.setChan, Function.update_self, List.length_append, List.length_singleton, List.map_append,
            List.map_cons, List.map_nil, List.sum_append, List.sum_cons, List.sum_nil, add_zero]
          rw [add_comm (x q)]
        · intro w
          simpa [Conf.goOn, Conf.setChan] using h.job w
        · simp [Conf.goOn, Conf.setChan]
        · simp [Conf.goOn, Conf.setChan, h.semCap]
        · simp [Conf.goOn, Conf.setChan, h.semOpen]
        · simpa [Conf.goOn, Conf.setChan] using h.tokens
        · simpa using h.nodup
        · intro v; rw [← h.mem v]; simp
    · rw [claimCollect_end hC] at hm
      simp [exec, hm] at he

theorem ClaimInv.send_ok (h : ClaimInv n N x j t C Q s) {i c : Nat} {v : Msg F} {k : Prog Unit (Msg F)}
    (hi : s.gs i = .send c v k) : (c = 0 ∧ 0 < n ∨ c = 1 ∧ 0 < N) ∧ ∃ s', exec s i = some s' ∧ s'.crashed = none := by
  cases i with
  | zero =>
    exfalso
    have hm := h.main
    rw [hi] at hm
    by_cases hj : j < n
    · rw [if_pos hj, claimLaunch_lt hj] at hm; cases hm
    · rw [if_neg hj] at hm
      rcases Nat.lt_or_ge C.length n with hC | hC
      · rw [claimCollect_lt hC] at hm; cases hm
      · rw [claimCollect_end hC] at hm; cases hm
  | succ w =>
    have hj := h.job w
    rw [hi] at hj
    by_cases hw : w < j
    · rw [if_pos hw] at hj
      have hwn := lt_of_lt_of_le hw h.hj
      have hp := h.pos w
      rcases (show t w = 0 ∨ t w = 1 ∨ t w = 2 ∨ t w = 3 by omega) with ht | ht | ht | ht <;> rw [ht] at hj <;>
        simp only [claimAt] at hj
      · cases hj
      · injection hj with h1 h2 h3
        subst h1
        have hroom := h.room hw ht
        exact ⟨.inl ⟨rfl, by omega⟩, send_exec h.alive hi (by rw [h.evals]) (by rw [h.evals]; simpa using hroom)⟩
      · injection hj with h1 h2 h3
        subst h1
        have hpos := claimHold_pos (t := t) hwn (by omega)
        have htk := h.tokens
        exact ⟨.inr ⟨rfl, by omega⟩, send_exec h.alive hi h.semOpen (by rw [h.semCap]; omega)⟩
      · cases hj
    · rw [if_neg hw] at hj; cases hj

theorem ClaimInv.step (h : ClaimInv n N x j t C Q s) (hs : Step s s') :
    ∃ j' t' C' Q', claimLeft n j' t' C' < claimLeft n j t C ∧ ClaimInv n N x j' t' C' Q' s' := by
  obtain ⟨_, ⟨i, hi⟩ | hr⟩ := hs
  · cases i with
    | zero =>
      obtain ⟨j', C', Q', h1, h2⟩ := h.main_exec hi
      exact ⟨j', t, C', Q', h1, h2⟩
    | succ w =>
      obtain ⟨y, Q', h1, h2⟩ := h.job_exec hi
      exact ⟨j, _, C, Q', h1, h2⟩
  · refine absurd hr (no_rendezvous ?_)
    intro i c v k hi
    rcases (h.send_ok hi).1 with ⟨rfl, h0⟩ | ⟨rfl, h0⟩
    · rw [h.evals]; exact h0
    · rw [h.semCap]; exact h0

theorem ClaimInv.good (hN : 1 ≤ N) (h : ClaimInv n N x j t C Q s) :
    GoodConf 1 N (fun s => s.gs 0 = .ret (.elem (∑ w ∈ range n, x w))) s where
  alive := h.alive
  live := by
    intro hst
    have hnone : ∀ i, exec s i = none := by
      intro i
      cases he : exec s i with
      | none => rfl
      | some s' => exact absurd ⟨h.alive, .inl ⟨i, he⟩⟩ (hst s')
    have hout : ∀ w < j, t w = 0 ∨ t w = 3 := by
      intro w hw
      have hj := h.job w
      rw [if_pos hw] at hj
      have hn := hnone (w + 1)
      have hp := h.pos w
      rcases (show t w = 0 ∨ t w = 1 ∨ t w = 2 ∨ t w = 3 by omega) with ht | ht | ht | ht
      · exact .inl ht
      · rw [ht] at hj
        obtain ⟨_, s', h1, _⟩ := h.send_ok hj
        rw [hn] at h1; cases h1
      · rw [ht] at hj
        obtain ⟨_, s', h1, _⟩ := h.send_ok hj
        rw [hn] at h1; cases h1
      · exact .inr ht
    have hheld : ∑ w ∈ range n, claimHold (t w) = 0 := by
      apply Finset.sum_eq_zero
      intro w _
      unfold claimHold
      rw [if_neg]
      rcases Nat.lt_or_ge w j with hl | hl
      · rcases hout w hl with h | h <;> omega
      · have := h.fresh w hl; omega
    have htk := h.tokens
    have hjobs : ∀ w < j, t w = 3 := by
      intro w hw
      rcases hout w hw with h0 | h0
      · exfalso
        have hj := h.job w
        rw [if_pos hw, h0] at hj
        simp only [claimAt] at hj
        have hn := hnone (w + 1)
        simp only [exec, hj] at hn
        cases hbuf : (s.chans 1).buf with
        | nil => rw [hbuf] at htk; simp at htk; omega
        | cons v rest => rw [hbuf] at hn; simp at hn
      · exact h0
    have hm := h.main
    have hmain := hnone 0
    have hjn : ¬ j < n := by
      intro hj
      rw [if_pos hj, claimLaunch_lt hj] at hm
      simp [exec, hm] at hmain
    rw [if_neg hjn] at hm
    have hC : n ≤ C.length := by
      by_contra hc
      rw [claimCollect_lt (by omega)] at hm
      unfold recvElem at hm
      simp only [exec, hm, h.evals] at hmain
      cases Q with
      | cons q Q => simp at hmain
      | nil =>
        have hsub : (List.range n).length ≤ C.length := by
          apply List.Subperm.length_le
          apply List.subperm_of_subset List.nodup_range
          intro w hw
          have := (h.mem w).2 (by rw [hjobs w (by have := List.mem_range.1 hw; omega)]; omega)
          simpa using this
        simp at hsub
        omega
    rw [claimCollect_end hC] at hm
    intro i
    cases i with
    | zero => exact ⟨_, hm⟩
    | succ w =>
      refine ⟨.tok, ?_⟩
      rw [h.job w]
      split_ifs with hw
      · rw [hjobs w hw]; rfl
      · rfl
  result := by
    rintro ⟨r, hr⟩
    have hm := h.main
    by_cases hj : j < n
    · rw [if_pos hj, claimLaunch_lt hj, hr] at hm; cases hm
    · rw [if_neg hj] at hm
      have hlen := h.length
      rcases Nat.lt_or_ge C.length n with hC | hC
      · rw [claimCollect_lt hC, hr] at hm; cases hm
      · rw [claimCollect_end hC] at hm
        rw [hm]
        have hp : C.Perm (List.range n) := nodup_perm_range (List.Nodup.of_append_left h.nodup)
          (fun w hw => lt_of_lt_of_le (h.lt (List.mem_append_left _ hw)) h.hj) (by omega)
        rw [(hp.map x).sum_eq]
        congr 2
  sends := fun i c v k hi => (h.send_ok hi).2
  excl := by
    intro S hS
    have hsub : S ⊆ ((range n).filter (fun w => claimHold (t w) = 1)).image (· + 1) := by
      intro i hi
      obtain ⟨h1, h2⟩ := hS i hi
      obtain ⟨w, rfl⟩ : ∃ w, i = w + 1 := ⟨i - 1, by omega⟩
      have hj := h.job w
      rw [Finset.mem_image]
      refine ⟨w, ?_, rfl⟩
      by_cases hw : w < j
      · rw [if_pos hw] at hj
        rw [Finset.mem_filter, Finset.mem_range]
        refine ⟨lt_of_lt_of_le hw h.hj, ?_⟩
        have hp := h.pos w
        rcases (show t w = 0 ∨ t w = 1 ∨ t w = 2 ∨ t w = 3 by omega) with ht | ht | ht | ht
        · rw [hj, ht] at h2
          exact absurd rfl h2.1
        · rw [ht]; rfl
        · rw [ht]; rfl
        · rw [hj, ht] at h2
          exact h2.elim
      · rw [if_neg hw] at hj
        rw [hj] at h2
        exact h2.elim
    have hcard : ((range n).filter (fun w => claimHold (t w) = 1)).card = ∑ w ∈ range n, claimHold (t w) := by
      rw [Finset.card_filter]
      apply Finset.sum_congr rfl
      intro w _
      unfold claimHold
      split_ifs <;> simp_all
    calc S.card ≤ _ := Finset.card_le_card hsub
      _ ≤ _ := Finset.card_image_le
      _ = _ := hcard
      _ ≤ N := by have := h.tokens; omega

theorem claim_start (n N : Nat) (x : Nat → F) (chans : Nat → Chan (Msg F)) (nC : Nat) (wgs : Nat → Nat) (nW : Nat)
    (h0 : chans 0 = ⟨[], n, false⟩) (h1 : chans 1 = ⟨List.replicate N .tok, N, false⟩) :
    ClaimInv n N x 0 (fun _ => 0) [] [] (soloConf .tok (claimLaunch n x 0) chans nC wgs nW ()) := by
  refine ⟨rfl, Nat.zero_le _, ?_, ?_, rfl, fun _ => Nat.zero_le _, fun _ _ => rfl, ?_, ?_, ?_, ?_, List.nodup_nil, ?_, fun _ => rfl⟩
  · by_cases hn : 0 < n
    · rw [if_pos hn]; simp [soloConf]
    · rw [if_neg hn]
      obtain rfl : n = 0 := by omega
      simp [soloConf, claimLaunch, loopP]
  · intro w; simp [soloConf]
  · simp [soloConf, h0]
  · simp [soloConf, h1]
  · simp [soloConf, h1]
  · simp [soloConf, h1, claimHold]
  · intro w; simp

end

/-- The code of `GetClaim`, when the chunks do not panic. -/
theorem getClaimP_eq {p : MProver F} {x : Nat → F}
    (h : ∀ i < p.eq.length, (p.subProver i >>= SProver.getClaim) = .ok (x i)) (c0 : Nat) (hc0 : c0 = 0) (c1 : Nat) (hc1 : c1 = 1) :
    loopP (fun i _ next => .go (p.getClaimForChunkP i c0 c1) (next ()))
    (fun _ => loopP (fun _ res next => recvElem c0 fun x => next (x + res)) (fun res => .ret (.elem res))
      0 p.eq.length (0 : F)) 0 p.eq.length () = claimLaunch p.eq.length x 0 := by
  subst hc0 hc1
  unfold claimLaunch claimCollect
  rw [Nat.sub_zero]
  apply loopP_congr
  intro i _ hi s next
  congr 1
  obtain ⟨sp, h1, h2⟩ := bind_eq_ok.1 (h i (by omega))
  unfold MProver.getClaimForChunkP
  rw [h1, liftGo_ok, h2]
  rfl

theorem getClaimP_good {p : MProver F} {x : Nat → F} {nCore : Int} (hn : 1 ≤ nCore)
    (h : ∀ i < p.eq.length, (p.subProver i >>= SProver.getClaim) = .ok (x i)) :
    ∃ bound, GoodRun 1 nCore.toNat (fun s => s.gs 0 = .ret (.elem (∑ i ∈ range p.eq.length, x i))) bound
      (startOf (p.getClaimP nCore) () .tok) := by
  rw [start_eq]
  obtain ⟨N, rfl⟩ := Int.eq_ofNat_of_zero_le (show 0 ≤ nCore by omega)
  unfold MProver.getClaimP
  refine goodRun_cons_ex (soloConf_solo _ _ _ _ _ _ _) (soloConf_make _ _ _ _ _ _ _ _) (goodRun_semaphore_ex _ _ _ _ _ _ _ _ ?_)
  rw [getClaimP_eq h _ rfl _ rfl]
  refine ⟨claimLeft p.eq.length 0 (fun _ => 0) [], goodRun_of_inv
    (fun μ s => ∃ j t C Q, claimLeft p.eq.length j t C = μ ∧ ClaimInv p.eq.length N x j t C Q s) ?_ ?_ ?_⟩
  · rintro μ s s' ⟨j, t, C, Q, rfl, h⟩ hs
    obtain ⟨j', t', C', Q', h1, h2⟩ := h.step hs
    exact ⟨_, h1, j', t', C', Q', rfl, h2⟩
  · rintro μ s ⟨j, t, C, Q, _, h⟩
    exact h.good (by omega)
  · exact ⟨0, _, [], [], rfl, claim_start _ _ _ _ _ _ _ (by simp) (by simp)⟩

theorem getClaimP_deadlock {p : MProver F} {x : Nat → F} (hne : p.eq ≠ [])
    (h : ∀ i < p.eq.length, (p.subProver i >>= SProver.getClaim) = .ok (x i)) :
    ∃ bound, Deadlocks bound (startOf (p.getClaimP 0) () .tok) := by
  rw [start_eq]
  unfold MProver.getClaimP newSemaphoreP
  simp only [if_neg (show ¬ ((0 : Int) < 0) by omega)]
  have hpos := List.length_pos_iff.2 hne
  refine ⟨_, deadlocks_cons (soloConf_solo _ _ _ _ _ _ _) (soloConf_make _ _ _ _ _ _ _ _)
    (deadlocks_cons (soloConf_solo _ _ _ _ _ _ _) (soloConf_make _ _ _ _ _ _ _ _) (B := claimLeft p.eq.length 0 (fun _ => 0) []) ?_)⟩
  rw [show Int.toNat 0 = 0 from rfl]
  change Deadlocks _ (soloConf _ (loopP _ _ 0 p.eq.length ()) _ _ _ _ _)
  rw [getClaimP_eq h _ rfl _ rfl]
  refine deadlocks_of_inv
    (fun μ s => ∃ j t C Q, claimLeft p.eq.length j t C = μ ∧ ClaimInv p.eq.length 0 x j t C Q s ∧ ∀ w, t w = 0) ?_ ?_ ?_
  · rintro μ s s' ⟨j, t, C, Q, rfl, h, ht⟩ hs
    obtain ⟨ha, ⟨i, hi⟩ | hr⟩ := hs
    · cases i with
      | zero =>
        obtain ⟨j', C', Q', h1, h2⟩ := h.main_exec hi
        exact ⟨_, h1, j', t, C', Q', rfl, h2, ht⟩
      | succ w =>
        exfalso
        have hj := h.job w
        by_cases hw : w < j
        · rw [if_pos hw, ht w] at hj
          simp only [claimAt] at hj
          have hb : (s.chans 1).buf = [] := by
            have := h.tokens
            exact List.length_eq_zero_iff.1 (by omega)
          simp [exec, hj, hb, h.semOpen] at hi
        · rw [if_neg hw] at hj
          simp [exec, hj] at hi
    · obtain ⟨i, i', c, v, k, k', _, hi, _⟩ := hr
      exfalso
      cases i with
      | zero =>
        have := (h.send_ok hi).2
        have hm := h.main
        rw [hi] at hm
        by_cases hj : j < p.eq.length
        · rw [if_pos hj, claimLaunch_lt hj] at hm; cases hm
        · rw [if_neg hj] at hm
          rcases Nat.lt_or_ge C.length p.eq.length with hC | hC
          · rw [claimCollect_lt hC] at hm; cases hm
          · rw [claimCollect_end hC] at hm; cases hm
      | succ w =>
        have hj := h.job w
        rw [hi, ht w] at hj
        split_ifs at hj <;> cases hj
  · rintro μ s ⟨j, t, C, Q, _, h, ht⟩
    refine ⟨h.alive, ?_⟩
    rintro ⟨r, hr⟩
    have hm := h.main
    rw [hr] at hm
    by_cases hj : j < p.eq.length
    · rw [if_pos hj, claimLaunch_lt hj] at hm; cases hm
    · rw [if_neg hj] at hm
      have hC : C = [] := by
        cases C with
        | nil => rfl
        | cons c C => have := (h.mem c).1 (by simp); have := ht c; omega
      subst hC
      rw [claimCollect_lt (by simpa using hpos)] at hm
      cases hm
  · exact ⟨0, _, [], [], rfl, claim_start _ 0 _ _ _ _ _ (by simp) (by simp), fun _ => rfl⟩

/-- What the sequential `GetClaim` computes, chunk by chunk. -/
theorem getClaim_chunks {p : MProver F} {nCore : Int} {c : F} (h : p.getClaim nCore = .ok c) :
    ∃ x : Nat → F, (∀ i < p.eq.length, (p.subProver i >>= SProver.getClaim) = .ok (x i)) ∧
      ∑ i ∈ range p.eq.length, x i = c := by
  unfold MProver.getClaim at h
  obtain ⟨_, _, h⟩ := bind_eq_ok.1 h
  have key : ∀ (n : Nat) (c : F), (forN n (0 : F) fun i res => do
      let sp ← p.subProver i
      let x ← sp.getClaim
      return x + res) = .ok c → ∃ x : Nat → F, (∀ i < n, (p.subProver i >>= SProver.getClaim) = .ok (x i)) ∧
      ∑ i ∈ range n, x i = c := by
    intro n
    induction n with
    | zero =>
      intro c h
      simp only [forN_zero, Except.ok.injEq] at h
      exact ⟨fun _ => 0, fun i hi => by omega, by simpa using h⟩
    | succ n ih =>
      intro c h
      rw [forN_succ] at h
      obtain ⟨c', h1, h2⟩ := bind_eq_ok.1 h
      obtain ⟨x, hx, hs⟩ := ih c' h1
      obtain ⟨sp, h3, h4⟩ := bind_eq_ok.1 h2
      obtain ⟨y, h5, h6⟩ := bind_eq_ok.1 h4
      simp only [go_pure, Except.ok.injEq] at h6
      refine ⟨Function.update x n y, ?_, ?_⟩
      · intro i hi
        by_cases hin : i = n
        · subst hin; rw [Function.update_self, h3, ok_bind, h5]
        · rw [Function.update_of_ne hin]; exact hx i (by omega)
      · rw [Finset.sum_range_succ, Function.update_self, ← h6, ← hs, add_comm]
        congr 1
        apply Finset.sum_congr rfl
        intro i hi
        rw [Function.update_of_ne (by have := Finset.mem_range.1 hi; omega)]
  exact key _ _ h

end GkrMimc
