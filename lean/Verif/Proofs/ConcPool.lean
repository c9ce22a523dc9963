import Verif.Proofs.Conc

/-! All schedules of a worker pool: jobs that acquire the semaphore themselves (`inside = true`: `Layer.Evaluate`,
`LayerAsBKTWithCopy`) or for which the caller acquires it (`Sub`, `Mul`). -/

namespace GkrMimc

open Spec Finset

variable {M V : Type}

/-- Accesses to shared memory, one after the other. -/
def actsP (l : List (M → M)) (k : Prog M V) : Prog M V := l.foldr .act k

/-- Running accesses. -/
def runActs (l : List (M → M)) (m : M) : M := l.foldl (fun m f => f m) m

/-- The jobs `0, …, n-1` one after the other. -/
def runJobs (acts : Nat → List (M → M)) : Nat → M → M
  | 0, m => m
  | n + 1, m => runActs (acts n) (runJobs acts n m)

theorem runActs_comm {l : List (M → M)} {f : M → M} (h : ∀ g ∈ l, ∀ m, f (g m) = g (f m)) (m : M) :
    runActs l (f m) = f (runActs l m) := by
  induction l generalizing m with
  | nil => rfl
  | cons g l ih =>
    change runActs l (g (f m)) = f (runActs l (g m))
    rw [← h g (by simp), ih (fun g hg => h g (by simp [hg]))]

/-- One more access of job `w` can be done last. -/
theorem runJobs_step {acts : Nat → List (M → M)}
    (hcomm : ∀ w w', w ≠ w' → ∀ f ∈ acts w, ∀ g ∈ acts w', ∀ m, f (g m) = g (f m))
    (n w a : Nat) (hw : w < n) (ha : a < (acts w).length) (t : Nat → Nat) (ht : t w = a) (m : M) :
    runJobs (fun i => (acts i).take (Function.update t w (a + 1) i)) n m =
      (acts w)[a] (runJobs (fun i => (acts i).take (t i)) n m) := by
  induction n with
  | zero => omega
  | succ n ih =>
    simp only [runJobs]
    by_cases h : w = n
    · subst h
      have e : runJobs (fun i => (acts i).take (Function.update t w (a + 1) i)) w m =
          runJobs (fun i => (acts i).take (t i)) w m := by
        have : ∀ k ≤ w, runJobs (fun i => (acts i).take (Function.update t w (a + 1) i)) k m =
            runJobs (fun i => (acts i).take (t i)) k m := by
          intro k
          induction k with
          | zero => intro _; rfl
          | succ k ihk =>
            intro hk
            simp only [runJobs]
            rw [ihk (by omega), Function.update_of_ne (by omega)]
        exact this w le_rfl
      rw [e, Function.update_self, ht, List.take_succ_eq_append_getElem ha]
      simp only [runActs, List.foldl_append, List.foldl_cons, List.foldl_nil]
    · rw [ih (by omega), Function.update_of_ne (fun e => h e.symm)]
      exact runActs_comm (fun g hg m => hcomm w n h _ (List.getElem_mem _) g (List.mem_of_mem_take hg) m) _

section
variable (tok : V) (inside : Bool) (sem wg N n : Nat) (acts : Nat → List (M → M)) (m0 : M)

/-- The end of a job. -/
def endP : Prog M V := releaseP sem tok (.wgDone wg (.ret tok))

/-- The code of job `w` after `t` steps: 0 is before `Acquire`. -/
def jobAt (w t : Nat) : Prog M V :=
  if t = 0 then acquireP sem (actsP (acts w) (endP tok sem wg))
  else if t ≤ (acts w).length + 1 then actsP ((acts w).drop (t - 1)) (endP tok sem wg)
  else if t = (acts w).length + 2 then .wgDone wg (.ret tok)
  else .ret tok

/-- Where the caller is. -/
inductive PoolPhase where
  | launch (j : Nat)
  | mid (j : Nat)
  | closing
  | done

/-- The end of the caller's code. -/
def poolEnd : Prog M V := if inside then closeSemP sem (.ret tok) else .ret tok

/-- One turn of the caller's loop. -/
def poolBody (i : Nat) (_ : Unit) (next : Unit → Prog M V) : Prog M V :=
  if inside then .go (acquireP sem (actsP (acts i) (endP tok sem wg))) (next ())
  else acquireP sem (.go (actsP (acts i) (endP tok sem wg)) (next ()))

/-- The caller's loop from job `j` on. -/
def poolLoop (j : Nat) : Prog M V :=
  loopP (poolBody tok inside sem wg acts) (fun _ => .wgWait wg (poolEnd tok inside sem)) j (n - j) ()

/-- The caller's code. -/
def poolMain : PoolPhase → Prog M V
  | .launch j => poolLoop tok inside sem wg n acts j
  | .mid j => .go (actsP (acts j) (endP tok sem wg)) (poolLoop tok inside sem wg n acts (j + 1))
  | .closing => closeSemP sem (.ret tok)
  | .done => .ret tok

/-- How many jobs have been started. -/
def launched : PoolPhase → Nat
  | .launch j => j
  | .mid j => j
  | _ => n

/-- 1 if the caller holds a token. -/
def midToken : PoolPhase → Nat
  | .mid _ => 1
  | _ => 0

/-- Does job `w` hold a token after `t` steps? -/
def holding (w t : Nat) : Nat := if 1 ≤ t ∧ t ≤ (acts w).length + 1 then 1 else 0

/-- Has job `w` returned after `t` steps? -/
def finished (w t : Nat) : Nat := if t = (acts w).length + 3 then 1 else 0

/-- Steps left of the caller. -/
def callerLeft : PoolPhase → Nat
  | .launch j => 2 * (n - j) + 3
  | .mid j => 2 * (n - j) + 2
  | .closing => 1
  | .done => 0

/-- Which phases exist. -/
def validPhase : PoolPhase → Prop
  | .launch j => j ≤ n
  | .mid j => j < n ∧ inside = false
  | .closing => inside = true
  | .done => True

/-- The invariant. -/
structure PoolInv (ph : PoolPhase) (t : Nat → Nat) (s : Conf M V) : Prop where
  alive : s.crashed = none
  valid : validPhase inside n ph
  main : s.gs 0 = poolMain tok inside sem wg n acts ph
  job : ∀ w, s.gs (w + 1) = if w < launched n ph then jobAt tok sem wg acts w (t w) else .ret tok
  nG : s.nG = launched n ph + 1
  pos : ∀ w, t w ≤ (acts w).length + 3
  fresh : ∀ w, launched n ph ≤ w → t w = 0
  started : inside = false → ∀ w < launched n ph, 1 ≤ t w
  cap : (s.chans sem).cap = N
  closed : (s.chans sem).closed = true → ph = .done
  tokens : (s.chans sem).buf.length + ∑ w ∈ range n, holding acts w (t w) + midToken ph = N
  count : s.wgs wg + ∑ w ∈ range n, finished acts w (t w) = n
  ended : ph = .closing ∨ ph = .done → ∀ w < n, t w = (acts w).length + 3
  mem : s.mem = runJobs (fun w => (acts w).take (t w - 1)) n m0

/-- Steps left. -/
def poolLeft (ph : PoolPhase) (t : Nat → Nat) : Nat :=
  ∑ w ∈ range n, ((acts w).length + 3 - t w) + callerLeft n ph

end

section
variable {tok : V} {inside : Bool} {sem wg N n : Nat} {acts : Nat → List (M → M)} {m0 : M}

theorem launched_le {ph : PoolPhase} (h : validPhase inside n ph) : launched n ph ≤ n := by
  cases ph <;> simp only [validPhase] at h <;> simp only [launched] <;> omega

theorem sum_holding_pos {t : Nat → Nat} {w : Nat} (hw : w < n) (h : 1 ≤ t w ∧ t w ≤ (acts w).length + 1) :
    1 ≤ ∑ w ∈ range n, holding acts w (t w) := by
  have := Finset.single_le_sum (f := fun w => holding acts w (t w)) (fun _ _ => Nat.zero_le _) (Finset.mem_range.2 hw)
  simp only [holding, h, and_self, if_true] at this
  exact this

theorem sum_finished_lt {t : Nat → Nat} {w : Nat} (hw : w < n) (h : t w ≠ (acts w).length + 3) :
    ∑ w ∈ range n, finished acts w (t w) < n := by
  have : ∑ w ∈ range n, finished acts w (t w) < ∑ w ∈ range n, 1 := by
    apply Finset.sum_lt_sum
    · intro i _; unfold finished; split_ifs <;> omega
    · exact ⟨w, Finset.mem_range.2 hw, by simp [finished, h]⟩
  simpa using this

theorem sum_finished_all {t : Nat → Nat} (h : ∑ w ∈ range n, finished acts w (t w) = n) :
    ∀ w < n, t w = (acts w).length + 3 := by
  intro w hw
  by_contra hne
  have := sum_finished_lt (t := t) hw hne
  omega

/-- Shape of the code of a job at each position. -/
theorem jobAt_acq (w : Nat) : jobAt tok sem wg acts w 0 = .recv sem fun _ => actsP (acts w) (endP tok sem wg) := rfl

theorem jobAt_one (w : Nat) : jobAt tok sem wg acts w 1 = actsP (acts w) (endP tok sem wg) := by
  simp [jobAt]

theorem jobAt_act {w a : Nat} (ha : a < (acts w).length) :
    jobAt tok sem wg acts w (a + 1) = .act (acts w)[a] (jobAt tok sem wg acts w (a + 2)) := by
  unfold jobAt
  rw [if_neg (by omega), if_pos (by omega), if_neg (by omega), if_pos (by omega), Nat.add_sub_cancel,
    show a + 2 - 1 = a + 1 by omega, List.drop_eq_getElem_cons ha]
  rfl

theorem jobAt_rel (w : Nat) : jobAt tok sem wg acts w ((acts w).length + 1) =
    .send sem tok (jobAt tok sem wg acts w ((acts w).length + 2)) := by
  unfold jobAt
  rw [if_neg (by omega), if_pos (by omega), if_neg (by omega), if_neg (by omega), if_pos rfl, Nat.add_sub_cancel,
    List.drop_length]
  rfl

theorem jobAt_done (w : Nat) : jobAt tok sem wg acts w ((acts w).length + 2) =
    .wgDone wg (jobAt tok sem wg acts w ((acts w).length + 3)) := by
  unfold jobAt
  rw [if_neg (by omega), if_neg (by omega), if_pos rfl, if_neg (by omega), if_neg (by omega), if_neg (by omega)]

theorem jobAt_ret (w : Nat) : jobAt tok sem wg acts w ((acts w).length + 3) = .ret tok := by
  unfold jobAt
  rw [if_neg (by omega), if_neg (by omega), if_neg (by omega)]

/-- The positions of a job. -/
theorem pos_cases {w t : Nat} (h : t ≤ (acts w).length + 3) : t = 0 ∨ (∃ a, a < (acts w).length ∧ t = a + 1) ∨
    t = (acts w).length + 1 ∨ t = (acts w).length + 2 ∨ t = (acts w).length + 3 := by
  rcases Nat.eq_zero_or_pos t with h0 | h0
  · exact .inl h0
  · rcases Nat.lt_or_ge (t - 1) (acts w).length with h1 | h1
    · exact .inr (.inl ⟨t - 1, h1, by omega⟩)
    · omega

theorem poolLoop_lt {j : Nat} (hj : j < n) : poolLoop tok inside sem wg n acts j =
    poolBody tok inside sem wg acts j () (fun _ => poolLoop tok inside sem wg n acts (j + 1)) := by
  unfold poolLoop
  rw [show n - j = (n - (j + 1)) + 1 by omega]
  rfl

theorem poolLoop_end : poolLoop tok inside sem wg n acts n = .wgWait wg (poolEnd tok inside sem) := by
  unfold poolLoop
  rw [Nat.sub_self]
  rfl

theorem left_upd {t : Nat → Nat} {w : Nat} (hw : w < n) {x : Nat} (h1 : t w < x) (h2 : x ≤ (acts w).length + 3) (ph : PoolPhase) :
    poolLeft n acts ph (Function.update t w x) < poolLeft n acts ph t := by
  unfold poolLeft
  have := sum_upd n w hw (fun w t => (acts w).length + 3 - t) t x
  omega

/-- A step of job `w`: the facts that do not depend on which step it is. -/
theorem PoolInv.job_step {ph : PoolPhase} {t : Nat → Nat} {s : Conf M V} (h : PoolInv tok inside sem wg N n acts m0 ph t s)
    {w x : Nat} (hw : w < launched n ph) (hx : x ≤ (acts w).length + 3) (hx1 : 1 ≤ x) {s' : Conf M V}
    (hne : t w ≠ (acts w).length + 3)
    (h1 : s'.crashed = none) (h2 : s'.gs = Function.update s.gs (w + 1) (jobAt tok sem wg acts w x)) (h3 : s'.nG = s.nG)
    (h4 : (s'.chans sem).cap = (s.chans sem).cap) (h5 : (s'.chans sem).closed = (s.chans sem).closed)
    (h6 : (s'.chans sem).buf.length + holding acts w x = (s.chans sem).buf.length + holding acts w (t w))
    (h7 : s'.wgs wg + finished acts w x = s.wgs wg + finished acts w (t w))
    (h8 : s'.mem = runJobs (fun i => (acts i).take (Function.update t w x i - 1)) n m0) :
    PoolInv tok inside sem wg N n acts m0 ph (Function.update t w x) s' where
  alive := h1
  valid := h.valid
  main := by rw [h2, Function.update_of_ne (by omega)]; exact h.main
  job := by
    intro i
    rw [h2]
    by_cases hi : i = w
    · subst hi; rw [Function.update_self, Function.update_self, if_pos hw]
    · rw [Function.update_of_ne (by omega), Function.update_of_ne hi]; exact h.job i
  nG := by rw [h3]; exact h.nG
  pos := by
    intro i
    by_cases hi : i = w
    · subst hi; rw [Function.update_self]; exact hx
    · rw [Function.update_of_ne hi]; exact h.pos i
  fresh := by
    intro i hi
    rw [Function.update_of_ne (by omega)]; exact h.fresh i hi
  started := by
    intro hi i hl
    by_cases hi' : i = w
    · subst hi'; rw [Function.update_self]; exact hx1
    · rw [Function.update_of_ne hi']; exact h.started hi i hl
  cap := by rw [h4]; exact h.cap
  closed := by rw [h5]; exact h.closed
  tokens := by
    have := sum_upd n w (lt_of_lt_of_le hw (launched_le h.valid)) (holding acts) t x
    have := h.tokens
    omega
  count := by
    have := sum_upd n w (lt_of_lt_of_le hw (launched_le h.valid)) (finished acts) t x
    have := h.count
    omega
  ended := by
    intro he
    exact absurd (h.ended he w (lt_of_lt_of_le hw (launched_le h.valid))) hne
  mem := h8

theorem PoolInv.not_closed {ph : PoolPhase} {t : Nat → Nat} {s : Conf M V} (h : PoolInv tok inside sem wg N n acts m0 ph t s)
    (hne : ph ≠ .done) : (s.chans sem).closed = false := by
  cases hc : (s.chans sem).closed
  · rfl
  · exact absurd (h.closed hc) hne

/-- What a job can do. -/
theorem PoolInv.job_exec {ph : PoolPhase} {t : Nat → Nat} {s : Conf M V}
    (hcomm : ∀ w w', w ≠ w' → ∀ f ∈ acts w, ∀ g ∈ acts w', ∀ m, f (g m) = g (f m))
    (h : PoolInv tok inside sem wg N n acts m0 ph t s) {w : Nat} {s' : Conf M V} (he : exec s (w + 1) = some s') :
    ∃ x, poolLeft n acts ph (Function.update t w x) < poolLeft n acts ph t ∧
      PoolInv tok inside sem wg N n acts m0 ph (Function.update t w x) s' := by
  have hj := h.job w
  by_cases hw : w < launched n ph
  · rw [if_pos hw] at hj
    have hwn := lt_of_lt_of_le hw (launched_le h.valid)
    rcases pos_cases (h.pos w) with ht | ⟨a, ha, ht⟩ | ht | ht | ht
    · -- Acquire
      rw [ht, jobAt_acq] at hj
      simp only [exec, hj] at he
      have hnc : (s.chans sem).closed = false := by
        apply h.not_closed
        intro hd
        have := h.ended (.inr hd) w hwn
        omega
      rw [hnc] at he
      cases hb : (s.chans sem).buf with
      | nil => rw [hb] at he; simp at he
      | cons v rest =>
        rw [hb] at he
        simp only [Option.some.injEq] at he
        subst he
        refine ⟨1, left_upd hwn (by omega) (by omega) ph, h.job_step hw (by omega) le_rfl (by omega) h.alive ?_ rfl ?_ ?_ ?_ ?_ ?_⟩
        · rw [jobAt_one]; rfl
        · simp [Conf.goOn, Conf.setChan]
        · simp [Conf.goOn, Conf.setChan, hnc]
        · simp [Conf.goOn, Conf.setChan, hb, holding, ht]
        · simp [Conf.goOn, Conf.setChan, finished, ht]
        · change s.mem = _
          rw [h.mem]
          congr 1
          funext i
          by_cases hi : i = w
          · subst hi; rw [Function.update_self, ht]
          · rw [Function.update_of_ne hi]
    · -- one access
      rw [ht, jobAt_act ha] at hj
      simp only [exec, hj, Option.some.injEq] at he
      subst he
      refine ⟨a + 2, left_upd hwn (by omega) (by omega) ph, h.job_step hw (by omega) (by omega) (by omega) h.alive rfl rfl rfl rfl ?_ ?_ ?_⟩
      · have h1 : holding acts w (a + 2) = 1 := by unfold holding; rw [if_pos (by omega)]
        have h2 : holding acts w (t w) = 1 := by unfold holding; rw [if_pos (by omega)]
        rw [h1, h2]
      · have h1 : finished acts w (a + 2) = 0 := by unfold finished; rw [if_neg (by omega)]
        have h2 : finished acts w (t w) = 0 := by unfold finished; rw [if_neg (by omega)]
        rw [h1, h2]
      · change (acts w)[a] s.mem = _
        rw [h.mem, ← runJobs_step hcomm n w a hwn ha (fun i => t i - 1) (by rw [ht, Nat.add_sub_cancel])]
        congr 1
        funext i
        by_cases hi : i = w
        · subst hi; rw [Function.update_self, Function.update_self]; rfl
        · rw [Function.update_of_ne hi, Function.update_of_ne hi]
    · -- Release
      have hpos := sum_holding_pos (acts := acts) (t := t) hwn (by omega)
      have htk := h.tokens
      rw [ht, jobAt_rel] at hj
      have hnc : (s.chans sem).closed = false := by
        apply h.not_closed
        intro hd
        have := h.ended (.inr hd) w hwn
        omega
      simp only [exec, hj, hnc, Bool.false_eq_true, if_false] at he
      rw [if_pos (by rw [h.cap]; omega)] at he
      simp only [Option.some.injEq] at he
      subst he
      refine ⟨(acts w).length + 2, left_upd hwn (by omega) (by omega) ph, h.job_step hw (by omega) (by omega) (by omega) h.alive rfl rfl ?_ ?_ ?_ ?_ ?_⟩
      · simp [Conf.goOn, Conf.setChan]
      · simp [Conf.goOn, Conf.setChan, hnc]
      · have h1 : holding acts w ((acts w).length + 2) = 0 := by unfold holding; rw [if_neg (by omega)]
        have h2 : holding acts w (t w) = 1 := by unfold holding; rw [if_pos (by omega)]
        rw [h1, h2]
        simp [Conf.goOn, Conf.setChan]
      · have h1 : finished acts w ((acts w).length + 2) = 0 := by unfold finished; rw [if_neg (by omega)]
        have h2 : finished acts w (t w) = 0 := by unfold finished; rw [if_neg (by omega)]
        rw [h1, h2]; rfl
      · change s.mem = _
        rw [h.mem]
        congr 1
        funext i
        by_cases hi : i = w
        · subst hi; rw [Function.update_self, ht, List.take_of_length_le (by omega), List.take_of_length_le (by omega)]
        · rw [Function.update_of_ne hi]
    · -- Done
      have hlt := sum_finished_lt (acts := acts) (t := t) hwn (by omega)
      have hct := h.count
      rw [ht, jobAt_done] at hj
      simp only [exec, hj] at he
      rw [if_neg (by omega)] at he
      simp only [Option.some.injEq] at he
      subst he
      refine ⟨(acts w).length + 3, left_upd hwn (by omega) (by omega) ph, h.job_step hw (by omega) (by omega) (by omega) h.alive rfl rfl rfl rfl ?_ ?_ ?_⟩
      · have h1 : holding acts w ((acts w).length + 3) = 0 := by unfold holding; rw [if_neg (by omega)]
        have h2 : holding acts w (t w) = 0 := by unfold holding; rw [if_neg (by omega)]
        rw [h1, h2]
      · have h1 : finished acts w ((acts w).length + 3) = 1 := by unfold finished; rw [if_pos rfl]
        have h2 : finished acts w (t w) = 0 := by unfold finished; rw [if_neg (by omega)]
        rw [h1, h2]
        simp only [Function.update_self]
        omega
      · change s.mem = _
        rw [h.mem]
        congr 1
        funext i
        by_cases hi : i = w
        · subst hi; rw [Function.update_self, ht, List.take_of_length_le (by omega), List.take_of_length_le (by omega)]
        · rw [Function.update_of_ne hi]
    · rw [ht, jobAt_ret] at hj
      simp [exec, hj] at he
  · rw [if_neg hw] at hj
    simp [exec, hj] at he

/-- A step of the caller that starts no job. -/
theorem PoolInv.main_step {ph ph' : PoolPhase} {t : Nat → Nat} {s : Conf M V} (h : PoolInv tok inside sem wg N n acts m0 ph t s)
    {s' : Conf M V} (hv : validPhase inside n ph') (hl : launched n ph' = launched n ph)
    (h1 : s'.crashed = none) (h2 : s'.gs = Function.update s.gs 0 (poolMain tok inside sem wg n acts ph')) (h3 : s'.nG = s.nG)
    (h4 : (s'.chans sem).cap = (s.chans sem).cap) (h5 : (s'.chans sem).closed = true → ph' = .done)
    (h6 : (s'.chans sem).buf.length + midToken ph' = (s.chans sem).buf.length + midToken ph)
    (h7 : s'.wgs wg = s.wgs wg) (h8 : s'.mem = s.mem)
    (h9 : ph' = .closing ∨ ph' = .done → ∀ w < n, t w = (acts w).length + 3) :
    PoolInv tok inside sem wg N n acts m0 ph' t s' where
  alive := h1
  valid := hv
  main := by rw [h2, Function.update_self]
  job := by intro w; rw [h2, Function.update_of_ne (by omega), hl]; exact h.job w
  nG := by rw [h3, hl]; exact h.nG
  pos := h.pos
  fresh := by rw [hl]; exact h.fresh
  started := by rw [hl]; exact h.started
  cap := by rw [h4]; exact h.cap
  closed := h5
  tokens := by have := h.tokens; omega
  count := by rw [h7]; exact h.count
  ended := h9
  mem := by rw [h8]; exact h.mem

/-- A step of the caller that starts a job. -/
theorem PoolInv.main_go {ph : PoolPhase} {t : Nat → Nat} {s : Conf M V} (h : PoolInv tok inside sem wg N n acts m0 ph t s)
    {j x : Nat} (hj : j < n) (hph : ph = .launch j ∧ inside = true ∧ x = 0 ∨ ph = .mid j ∧ inside = false ∧ x = 1)
    {s' : Conf M V} (h1 : s'.crashed = none)
    (h2 : s'.gs = Function.update (Function.update s.gs 0 (poolLoop tok inside sem wg n acts (j + 1))) s.nG
      (jobAt tok sem wg acts j x)) (h3 : s'.nG = s.nG + 1)
    (h4 : s'.chans = s.chans) (h7 : s'.wgs = s.wgs) (h8 : s'.mem = s.mem) :
    PoolInv tok inside sem wg N n acts m0 (.launch (j + 1)) (Function.update t j x) s' := by
  have hl : launched n ph = j := by rcases hph with ⟨rfl, _⟩ | ⟨rfl, _⟩ <;> rfl
  have ht : t j = 0 := h.fresh j (by omega)
  have hnG := h.nG
  rw [hl] at hnG
  refine ⟨h1, ?_, ?_, ?_, ?_, ?_, ?_, ?_, ?_, ?_, ?_, ?_, ?_, ?_⟩
  · simp only [validPhase]; omega
  · rw [h2, Function.update_of_ne (by omega), Function.update_self]; rfl
  · intro w
    rw [h2, hnG]
    by_cases hw : w = j
    · subst hw; rw [Function.update_self, Function.update_self, if_pos (by simp [launched])]
    · rw [Function.update_of_ne (by omega), Function.update_of_ne (by omega), Function.update_of_ne hw, h.job w, hl]
      change _ = if w < j + 1 then _ else _
      by_cases hlt : w < j
      · rw [if_pos hlt, if_pos (by omega)]
      · rw [if_neg hlt, if_neg (by omega)]
  · rw [h3, hnG]; rfl
  · intro w
    by_cases hw : w = j
    · subst hw; rw [Function.update_self]; rcases hph with ⟨_, _, rfl⟩ | ⟨_, _, rfl⟩ <;> omega
    · rw [Function.update_of_ne hw]; exact h.pos w
  · intro w hw
    simp only [launched] at hw
    rw [Function.update_of_ne (by omega)]; exact h.fresh w (by omega)
  · intro hi w hw
    simp only [launched] at hw
    by_cases hw' : w = j
    · subst hw'
      rw [Function.update_self]
      rcases hph with ⟨_, h, _⟩ | ⟨_, _, rfl⟩
      · rw [hi] at h; cases h
      · exact le_rfl
    · rw [Function.update_of_ne hw']; exact h.started hi w (by omega)
  · rw [h4]; exact h.cap
  · rw [h4]; intro hc
    have := h.closed hc
    rcases hph with ⟨rfl, _⟩ | ⟨rfl, _⟩ <;> cases this
  · have h5 := sum_upd n j hj (holding acts) t x
    have h6 := h.tokens
    have h9 : holding acts j (t j) = 0 := by unfold holding; rw [if_neg (by omega)]
    rw [h4]
    rcases hph with ⟨rfl, _, rfl⟩ | ⟨rfl, _, rfl⟩
    · rw [← ht] at h5
      simp only [midToken] at h6 ⊢
      rw [← ht]
      omega
    · have h10 : holding acts j 1 = 1 := by unfold holding; rw [if_pos (by omega)]
      simp only [midToken] at h6 ⊢
      omega
  · have h5 := sum_upd n j hj (finished acts) t x
    have h6 := h.count
    have h9 : finished acts j (t j) = 0 := by unfold finished; rw [if_neg (by omega)]
    have h10 : finished acts j x = 0 := by unfold finished; rw [if_neg (by rcases hph with ⟨_, _, rfl⟩ | ⟨_, _, rfl⟩ <;> omega)]
    rw [h7]
    omega
  · rintro (h | h) <;> cases h
  · rw [h8, h.mem]
    congr 1
    funext i
    by_cases hi : i = j
    · subst hi; rw [Function.update_self, ht]; rcases hph with ⟨_, _, rfl⟩ | ⟨_, _, rfl⟩ <;> rfl
    · rw [Function.update_of_ne hi]

/-- What the caller can do. -/
theorem PoolInv.main_exec {ph : PoolPhase} {t : Nat → Nat} {s : Conf M V}
    (h : PoolInv tok inside sem wg N n acts m0 ph t s) {s' : Conf M V} (he : exec s 0 = some s') :
    ∃ ph' t', poolLeft n acts ph' t' < poolLeft n acts ph t ∧ PoolInv tok inside sem wg N n acts m0 ph' t' s' := by
  have hm := h.main
  cases ph with
  | launch j =>
    have hv : j ≤ n := h.valid
    simp only [poolMain] at hm
    rcases Nat.lt_or_ge j n with hj | hj
    · rw [poolLoop_lt hj] at hm
      unfold poolBody at hm
      cases hi : inside with
      | true =>
        rw [hi] at hm
        simp only [if_true] at hm
        simp only [exec, hm, Option.some.injEq] at he
        subst he
        have ht : t j = 0 := h.fresh j le_rfl
        refine ⟨.launch (j + 1), Function.update t j 0, ?_, hi ▸ h.main_go (x := 0) hj (.inl ⟨rfl, hi, rfl⟩) h.alive ?_ rfl rfl rfl rfl⟩
        · have : Function.update t j 0 = t := by rw [← ht, Function.update_eq_self]
          rw [this]
          unfold poolLeft
          simp only [callerLeft]
          omega
        · rw [jobAt_acq, hi]; rfl
      | false =>
        rw [hi] at hm
        simp only [Bool.false_eq_true, if_false, acquireP] at hm
        simp only [exec, hm] at he
        rw [h.not_closed (by simp)] at he
        cases hb : (s.chans sem).buf with
        | nil => rw [hb] at he; simp at he
        | cons v rest =>
          rw [hb] at he
          simp only [Option.some.injEq] at he
          subst he
          refine ⟨.mid j, t, ?_, hi ▸ h.main_step (ph' := .mid j) ⟨hj, hi⟩ rfl h.alive ?_ rfl ?_ ?_ ?_ rfl rfl ?_⟩
          · unfold poolLeft; simp only [callerLeft]; omega
          · rw [hi]; rfl
          · simp [Conf.goOn, Conf.setChan]
          · simp [Conf.goOn, Conf.setChan, hi]
          · simp [Conf.goOn, Conf.setChan, hb, midToken]
          · rintro (h | h) <;> cases h
    · obtain rfl : j = n := by omega
      rw [poolLoop_end] at hm
      simp only [exec, hm] at he
      split_ifs at he with hz
      simp only [Option.some.injEq] at he
      subst he
      have hall : ∀ w < j, t w = (acts w).length + 3 := sum_finished_all (by have := h.count; omega)
      cases hi : inside with
      | true =>
        refine ⟨.closing, t, ?_, hi ▸ h.main_step (ph' := .closing) hi rfl h.alive ?_ rfl rfl ?_ rfl rfl rfl (fun _ => hall)⟩
        · unfold poolLeft; simp only [callerLeft]; omega
        · simp only [poolEnd, hi, if_true]; rfl
        · intro hc; rw [show ((s.goOn 0 (poolEnd tok inside sem)).chans sem).closed = (s.chans sem).closed from rfl,
            h.not_closed (by simp)] at hc; cases hc
      | false =>
        refine ⟨.done, t, ?_, hi ▸ h.main_step (ph' := .done) trivial rfl h.alive ?_ rfl rfl ?_ rfl rfl rfl (fun _ => hall)⟩
        · unfold poolLeft; simp only [callerLeft]; omega
        · simp only [poolEnd, hi]; rfl
        · intro _; rfl
  | mid j =>
    obtain ⟨hj, hi⟩ : j < n ∧ inside = false := h.valid
    simp only [poolMain] at hm
    simp only [exec, hm, Option.some.injEq] at he
    subst he
    have ht : t j = 0 := h.fresh j le_rfl
    refine ⟨.launch (j + 1), Function.update t j 1, ?_, h.main_go (x := 1) hj (.inr ⟨rfl, hi, rfl⟩) h.alive ?_ rfl rfl rfl rfl⟩
    · have := left_upd (acts := acts) (t := t) hj (x := 1) (by omega) (by omega) (.launch (j + 1))
      unfold poolLeft at this ⊢
      simp only [callerLeft] at this ⊢
      omega
    · rw [jobAt_one]
  | closing =>
    have hi : inside = true := h.valid
    simp only [poolMain, closeSemP] at hm
    simp only [exec, hm] at he
    rw [h.not_closed (by simp)] at he
    simp only [Bool.false_eq_true, if_false, Option.some.injEq] at he
    subst he
    refine ⟨.done, t, ?_, h.main_step (ph' := .done) trivial rfl h.alive rfl rfl ?_ (fun _ => rfl) ?_ rfl rfl
      (fun _ => h.ended (.inl rfl))⟩
    · unfold poolLeft; simp only [callerLeft]; omega
    · simp [Conf.goOn, Conf.setChan]
    · simp [Conf.goOn, Conf.setChan, midToken]
  | done =>
    simp only [poolMain] at hm
    simp [exec, hm] at he

theorem PoolInv.no_send_main {ph : PoolPhase} {t : Nat → Nat} {s : Conf M V}
    (h : PoolInv tok inside sem wg N n acts m0 ph t s) {c : Nat} {v : V} {k : Prog M V} : s.gs 0 ≠ .send c v k := by
  rw [h.main]
  intro he
  cases ph with
  | launch j =>
    have hv : j ≤ n := h.valid
    simp only [poolMain] at he
    rcases Nat.lt_or_ge j n with hj | hj
    · rw [poolLoop_lt hj] at he
      unfold poolBody at he
      cases inside <;> cases he
    · obtain rfl : j = n := by omega
      rw [poolLoop_end] at he
      cases he
  | mid j => cases he
  | closing => cases he
  | done => cases he

/-- A job about to send is about to release. -/
theorem PoolInv.job_send {ph : PoolPhase} {t : Nat → Nat} {s : Conf M V}
    (h : PoolInv tok inside sem wg N n acts m0 ph t s) {w c : Nat} {v : V} {k : Prog M V} (he : s.gs (w + 1) = .send c v k) :
    w < launched n ph ∧ t w = (acts w).length + 1 := by
  have hj := h.job w
  by_cases hw : w < launched n ph
  · rw [if_pos hw, he] at hj
    refine ⟨hw, ?_⟩
    rcases pos_cases (h.pos w) with ht | ⟨a, ha, ht⟩ | ht | ht | ht
    · rw [ht, jobAt_acq] at hj; cases hj
    · rw [ht, jobAt_act ha] at hj; cases hj
    · exact ht
    · rw [ht, jobAt_done] at hj; cases hj
    · rw [ht, jobAt_ret] at hj; cases hj
  · rw [if_neg hw, he] at hj; cases hj

theorem PoolInv.release_ok {ph : PoolPhase} {t : Nat → Nat} {s : Conf M V}
    (h : PoolInv tok inside sem wg N n acts m0 ph t s) {w : Nat} (hw : w < launched n ph) (ht : t w = (acts w).length + 1) :
    ∃ s', exec s (w + 1) = some s' ∧ s'.crashed = none := by
  have hwn := lt_of_lt_of_le hw (launched_le h.valid)
  have hj := h.job w
  rw [if_pos hw, ht, jobAt_rel] at hj
  have hpos := sum_holding_pos (acts := acts) (t := t) hwn (by omega)
  have htk := h.tokens
  have hnc : (s.chans sem).closed = false := by
    apply h.not_closed
    intro hd
    have := h.ended (.inr hd) w hwn
    omega
  refine ⟨(s.setChan sem { s.chans sem with buf := (s.chans sem).buf ++ [tok] }).goOn (w + 1)
      (jobAt tok sem wg acts w ((acts w).length + 2)), ?_, ?_⟩
  · simp only [exec, hj, hnc, Bool.false_eq_true, if_false]
    rw [if_pos (by rw [h.cap]; omega)]
  · exact h.alive

theorem holds_actsP (l : List (M → M)) (k : Prog M V) (c : Nat) : Holds c (actsP l k) ↔ Holds c k := by
  induction l with
  | nil => rfl
  | cons f l ih => exact ih

/-- Rendezvous happens only on channels of capacity 0. -/
theorem no_rendezvous {s s' : Conf M V} (h : ∀ i c v k, s.gs i = .send c v k → 0 < (s.chans c).cap) : ¬ Rendezvous s s' := by
  rintro ⟨i, j, c, v, k, k', _, hi, _, hc, _⟩
  have := h i c v k hi
  omega

theorem PoolInv.step {ph : PoolPhase} {t : Nat → Nat} {s s' : Conf M V}
    (hcomm : ∀ w w', w ≠ w' → ∀ f ∈ acts w, ∀ g ∈ acts w', ∀ m, f (g m) = g (f m)) (hN : 1 ≤ N)
    (h : PoolInv tok inside sem wg N n acts m0 ph t s) (hs : Step s s') :
    ∃ ph' t', poolLeft n acts ph' t' < poolLeft n acts ph t ∧ PoolInv tok inside sem wg N n acts m0 ph' t' s' := by
  obtain ⟨_, ⟨i, hi⟩ | hr⟩ := hs
  · cases i with
    | zero => exact h.main_exec hi
    | succ w =>
      obtain ⟨x, h1, h2⟩ := h.job_exec hcomm hi
      exact ⟨ph, _, h1, h2⟩
  · refine absurd hr (no_rendezvous ?_)
    intro i c v k hi
    cases i with
    | zero => exact absurd hi h.no_send_main
    | succ w =>
      obtain ⟨hw, ht⟩ := h.job_send hi
      have hj := h.job w
      rw [if_pos hw, ht, jobAt_rel, hi] at hj
      injection hj with h1 _ _
      rw [h1, h.cap]
      exact hN

theorem PoolInv.good {ph : PoolPhase} {t : Nat → Nat} {s : Conf M V} (hN : 1 ≤ N)
    (h : PoolInv tok inside sem wg N n acts m0 ph t s) :
    GoodConf sem N (fun s => s.gs 0 = .ret tok ∧ s.mem = runJobs acts n m0) s where
  alive := h.alive
  live := by
    intro hst
    have hnone : ∀ i, exec s i = none := by
      intro i
      cases he : exec s i with
      | none => rfl
      | some s' => exact absurd ⟨h.alive, .inl ⟨i, he⟩⟩ (hst s')
    -- no job is inside its critical section or at Done
    have hout : ∀ w < launched n ph, t w = 0 ∨ t w = (acts w).length + 3 := by
      intro w hw
      have hwn := lt_of_lt_of_le hw (launched_le h.valid)
      have hj := h.job w
      rw [if_pos hw] at hj
      have hn := hnone (w + 1)
      rcases pos_cases (h.pos w) with ht | ⟨a, ha, ht⟩ | ht | ht | ht
      · exact .inl ht
      · rw [ht, jobAt_act ha] at hj
        simp [exec, hj] at hn
      · obtain ⟨s', h1, _⟩ := h.release_ok hw ht
        rw [hn] at h1; cases h1
      · have hlt := sum_finished_lt (acts := acts) (t := t) hwn (by omega)
        have hct := h.count
        rw [ht, jobAt_done] at hj
        simp only [exec, hj] at hn
        rw [if_neg (by omega)] at hn
        cases hn
      · exact .inr ht
    have hheld : ∑ w ∈ range n, holding acts w (t w) = 0 := by
      apply Finset.sum_eq_zero
      intro w hw
      have hwn := Finset.mem_range.1 hw
      unfold holding
      rw [if_neg]
      rcases Nat.lt_or_ge w (launched n ph) with hl | hl
      · rcases hout w hl with h | h <;> omega
      · have := h.fresh w hl; omega
    have htk := h.tokens
    have hmain := hnone 0
    have hm := h.main
    -- every started job has returned
    have hjobs : (s.chans sem).buf ≠ [] → ∀ w < launched n ph, t w = (acts w).length + 3 := by
      intro hb w hw
      rcases hout w hw with h0 | h0
      · exfalso
        have hj := h.job w
        rw [if_pos hw, h0, jobAt_acq] at hj
        have hn := hnone (w + 1)
        simp only [exec, hj] at hn
        cases hbuf : (s.chans sem).buf with
        | nil => exact hb hbuf
        | cons v rest => rw [hbuf] at hn; simp at hn
      · exact h0
    have hdone : ph = .done := by
      cases ph with
      | mid j => simp [poolMain, exec, hm] at hmain
      | closing =>
        simp only [poolMain, closeSemP] at hm
        simp only [exec, hm] at hmain
        rw [h.not_closed (by simp)] at hmain
        simp at hmain
      | done => rfl
      | launch j =>
        exfalso
        have hv : j ≤ n := h.valid
        have hb : (s.chans sem).buf ≠ [] := by
          intro hb
          rw [hb, hheld] at htk
          simp [midToken] at htk
          omega
        simp only [poolMain] at hm
        rcases Nat.lt_or_ge j n with hj | hj
        · rw [poolLoop_lt hj] at hm
          unfold poolBody at hm
          cases hi : inside with
          | true => rw [hi] at hm; simp [exec, hm] at hmain
          | false =>
            rw [hi] at hm
            simp only [Bool.false_eq_true, if_false, acquireP] at hm
            simp only [exec, hm] at hmain
            cases hbuf : (s.chans sem).buf with
            | nil => exact hb hbuf
            | cons v rest => rw [hbuf] at hmain; simp at hmain
        · obtain rfl : j = n := by omega
          rw [poolLoop_end] at hm
          have hall := hjobs hb
          have hfin : ∑ w ∈ range j, finished acts w (t w) = j := by
            have : ∑ w ∈ range j, finished acts w (t w) = ∑ w ∈ range j, 1 := by
              apply Finset.sum_congr rfl
              intro w hw
              unfold finished
              rw [if_pos (hall w (Finset.mem_range.1 hw))]
            simpa using this
          have hct := h.count
          simp only [exec, hm] at hmain
          rw [if_pos (by omega)] at hmain
          cases hmain
    intro i
    cases i with
    | zero => exact ⟨tok, by rw [hm, hdone]; rfl⟩
    | succ w =>
      refine ⟨tok, ?_⟩
      rw [h.job w]
      split_ifs with hw
      · subst hdone
        rw [h.ended (.inr rfl) w hw, jobAt_ret]
      · rfl
  result := by
    rintro ⟨r, hr⟩
    have hm := h.main
    have hdone : ph = .done := by
      cases ph with
      | mid j => rw [hr] at hm; cases hm
      | closing => rw [hr] at hm; cases hm
      | done => rfl
      | launch j =>
        have hv : j ≤ n := h.valid
        exfalso
        simp only [poolMain] at hm
        rcases Nat.lt_or_ge j n with hj | hj
        · rw [poolLoop_lt hj] at hm
          unfold poolBody at hm
          rw [hr] at hm
          cases inside <;> cases hm
        · obtain rfl : j = n := by omega
          rw [poolLoop_end, hr] at hm
          cases hm
    subst hdone
    refine ⟨hm, ?_⟩
    rw [h.mem]
    have hend := h.ended (.inr rfl)
    have : ∀ k ≤ n, runJobs (fun w => (acts w).take (t w - 1)) k m0 = runJobs acts k m0 := by
      intro k
      induction k with
      | zero => intro _; rfl
      | succ k ih =>
        intro hk
        simp only [runJobs]
        rw [ih (by omega), hend k (by omega), List.take_of_length_le (by omega)]
    exact this n le_rfl
  sends := by
    intro i c v k hi
    cases i with
    | zero => exact absurd hi h.no_send_main
    | succ w =>
      obtain ⟨hw, ht⟩ := h.job_send hi
      exact h.release_ok hw ht
  excl := by
    intro S hS
    have hsub : S ⊆ ((range n).filter (fun w => holding acts w (t w) = 1)).image (· + 1) := by
      intro i hi
      obtain ⟨h1, h2⟩ := hS i hi
      obtain ⟨w, rfl⟩ : ∃ w, i = w + 1 := ⟨i - 1, by omega⟩
      have hj := h.job w
      rw [Finset.mem_image]
      refine ⟨w, ?_, rfl⟩
      by_cases hw : w < launched n ph
      · rw [if_pos hw] at hj
        rw [Finset.mem_filter, Finset.mem_range]
        refine ⟨lt_of_lt_of_le hw (launched_le h.valid), ?_⟩
        rcases pos_cases (h.pos w) with ht | ⟨a, ha, ht⟩ | ht | ht | ht
        · rw [hj, ht, jobAt_acq] at h2
          exact absurd rfl h2.1
        · unfold holding; rw [if_pos (by omega)]
        · unfold holding; rw [if_pos (by omega)]
        · rw [hj, ht, jobAt_done, jobAt_ret] at h2
          exact h2.elim
        · rw [hj, ht, jobAt_ret] at h2
          exact h2.elim
      · rw [if_neg hw] at hj
        rw [hj] at h2
        exact h2.elim
    have hcard : ((range n).filter (fun w => holding acts w (t w) = 1)).card = ∑ w ∈ range n, holding acts w (t w) := by
      rw [Finset.card_filter]
      apply Finset.sum_congr rfl
      intro w _
      unfold holding
      split_ifs <;> simp_all
    calc S.card ≤ _ := Finset.card_le_card hsub
      _ ≤ _ := Finset.card_image_le
      _ = _ := hcard
      _ ≤ N := by have := h.tokens; omega

/-- All schedules of a pool, from the configuration in which the caller enters its loop. -/
theorem pool_good (hcomm : ∀ w w', w ≠ w' → ∀ f ∈ acts w, ∀ g ∈ acts w', ∀ m, f (g m) = g (f m)) (hN : 1 ≤ N)
    (chans : Nat → Chan V) (nC : Nat) (wgs : Nat → Nat) (nW : Nat)
    (hsem : chans sem = ⟨List.replicate N tok, N, false⟩) (hwg : wgs wg = n) :
    GoodRun sem N (fun s => s.gs 0 = .ret tok ∧ s.mem = runJobs acts n m0)
      (poolLeft n acts (.launch 0) (fun _ => 0)) (soloConf tok (poolLoop tok inside sem wg n acts 0) chans nC wgs nW m0) := by
  apply goodRun_of_inv (fun μ s => ∃ ph t, poolLeft n acts ph t = μ ∧ PoolInv tok inside sem wg N n acts m0 ph t s)
  · rintro μ s s' ⟨ph, t, rfl, h⟩ hs
    obtain ⟨ph', t', h1, h2⟩ := h.step hcomm hN hs
    exact ⟨_, h1, ph', t', rfl, h2⟩
  · rintro μ s ⟨ph, t, _, h⟩
    exact h.good hN
  · refine ⟨.launch 0, fun _ => 0, rfl, rfl, Nat.zero_le _, ?_, ?_, rfl, ?_, fun _ _ => rfl, ?_, ?_, ?_, ?_, ?_, ?_, ?_⟩
    · simp [soloConf, poolMain]
    · intro w; simp [soloConf, launched]
    · intro w; simp
    · intro _ w hw; simp [launched] at hw
    · simp [soloConf, hsem]
    · simp [soloConf, hsem]
    · simp [soloConf, hsem, midToken, holding]
    · simp [soloConf, hwg, finished]
    · rintro (h | h) <;> cases h
    · simp only [Nat.zero_sub, List.take_zero, soloConf]
      have : ∀ k, runJobs (fun _ : Nat => ([] : List (M → M))) k m0 = m0 := by
        intro k
        induction k with
        | zero => rfl
        | succ k ih => simp only [runJobs]; rw [ih]; rfl
      exact (this n).symm

end

end GkrMimc
