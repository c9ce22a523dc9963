import Verif.Spec.Race
import Verif.Proofs.Conc
import Mathlib.Data.Set.Disjoint

/-!
All schedules of a worker pool over shared memory, with single accesses as steps. Every job owns a set of cells, which grows by
the arrays it allocates; `ro` are cells that nobody writes while the pool runs.
-/

namespace GkrMimc

open Spec Finset

variable {C V : Type}

/-! ### Composition -/

theorem reachIn_first {s s' : Conf (Heap C) V} {n : Nat} (hr : ReachIn s n s') :
    (n = 0 ∧ s' = s) ∨ ∃ m s1, n = m + 1 ∧ Step s s1 ∧ ReachIn s1 m s' := by
  induction hr with
  | zero => exact .inl ⟨rfl, rfl⟩
  | step hr hs ih =>
    rcases ih with ⟨rfl, rfl⟩ | ⟨m, s1, rfl, h1, hm⟩
    · exact .inr ⟨0, _, rfl, hs, .zero⟩
    · exact .inr ⟨m + 1, s1, rfl, h1, hm.step hs⟩

section
variable {W : Set (Nat × Nat)} {h0 : Heap C} {post : Conf (Heap C) V → Prop}

/-- Only the cells of `W` have changed. -/
def CellFrame (W : Set (Nat × Nat)) (h0 h : Heap C) : Prop :=
  h0.next ≤ h.next ∧ ∀ c : Nat × Nat, c.1 < h0.next → c ∉ W → h.cells c.1 c.2 = h0.cells c.1 c.2

theorem Spec.GoodCellRun.mono {B B' : Nat} {s : Conf (Heap C) V} (h : GoodCellRun W h0 post B s) (hB : B ≤ B') :
    GoodCellRun W h0 post B' s := fun n s' hr => ⟨(h n s' hr).1.trans hB, (h n s' hr).2⟩

theorem goodCell_step {B : Nat} {s : Conf (Heap C) V} (hg : GoodMem Set.univ h0 post s) (hf : CellFrame W h0 s.mem)
    (hs : ∀ s', Step s s' → GoodCellRun W h0 post B s') : GoodCellRun W h0 post (B + 1) s := by
  intro n s' hr
  rcases reachIn_first hr with ⟨rfl, rfl⟩ | ⟨m, s1, rfl, h1, hm⟩
  · exact ⟨by omega, hg, hf.2⟩
  · obtain ⟨h2, h3⟩ := hs s1 h1 m s' hm
    exact ⟨by omega, h3⟩

/-- A step of the caller alone. -/
theorem goodCell_cons {B : Nat} {s s1 : Conf (Heap C) V} (h : Solo s) (hf : CellFrame W h0 s.mem) (h1 : exec s 0 = some s1)
    (hB : GoodCellRun W h0 post B s1) : GoodCellRun W h0 post (B + 1) s := by
  refine goodCell_step ⟨?_, h.1, ?_, ?_, ?_, ?_⟩ hf ?_
  · rintro ⟨i, j, a, f, k, b, g, l, hij, hi, hj, _⟩
    rcases Nat.eq_zero_or_pos i with h0 | h0
    · obtain ⟨r, hr⟩ := h.2 j (by omega)
      rw [hr] at hj; cases hj
    · obtain ⟨r, hr⟩ := h.2 i (by omega)
      rw [hr] at hi; cases hi
  · intro hst
    exact absurd ⟨h.1, .inl ⟨0, h1⟩⟩ (hst s1)
  · rintro ⟨r, hr⟩
    simp [exec, hr] at h1
  · intro i c v k hi
    by_cases h0 : i = 0
    · subst h0
      exact ⟨s1, h1, (hB 0 s1 .zero).2.1.alive⟩
    · obtain ⟨r, hr⟩ := h.2 i h0
      rw [hr] at hi; cases hi
  · exact ⟨hf.1, fun a _ hn => absurd (Set.mem_univ a) hn⟩
  · intro s' hs
    rw [solo_step h h1 hs]
    exact hB

/-- The caller returns. -/
theorem goodCell_ret {s : Conf (Heap C) V} (h : Solo s) (hf : CellFrame W h0 s.mem) {r : V} (h1 : s.gs 0 = .ret r)
    (hp : post s) : GoodCellRun W h0 post 0 s := by
  have hall : ∀ i, Returned s i := fun i => if h0 : i = 0 then ⟨r, h0 ▸ h1⟩ else h.2 i h0
  have hno : ∀ s', ¬ Step s s' := by
    rintro s' ⟨_, ⟨i, hi⟩ | ⟨i, j, c, v, k, k', _, hi, _⟩⟩
    · obtain ⟨r, hr⟩ := hall i
      simp [exec, hr] at hi
    · obtain ⟨r, hr⟩ := hall i
      rw [hr] at hi; cases hi
  intro n s' hr
  rcases reachIn_first hr with ⟨rfl, rfl⟩ | ⟨m, s1, rfl, h1, hm⟩
  · refine ⟨le_rfl, ⟨?_, h.1, fun _ => hall, fun _ => hp, ?_, hf.1, fun a _ hn => absurd (Set.mem_univ a) hn⟩, hf.2⟩
    · rintro ⟨i, j, a, f, k, b, g, l, hij, hi, hj, _⟩
      obtain ⟨r, hr⟩ := hall i
      rw [hr] at hi; cases hi
    · intro i c v k hi
      obtain ⟨r, hr⟩ := hall i
      rw [hr] at hi; cases hi
  · exact absurd h1 (hno s1)

end

/-! ### Jobs -/

/-- The cells of `A` are the same in `h'` and are allocated there. -/
def AgreeC (A : Set (Nat × Nat)) (h h' : Heap C) : Prop := ∀ c ∈ A, h'.cells c.1 c.2 = h.cells c.1 c.2 ∧ c.1 < h'.next

theorem AgreeC.trans {A : Set (Nat × Nat)} {h1 h2 h3 : Heap C} (a : AgreeC A h1 h2) (b : AgreeC A h2 h3) : AgreeC A h1 h3 :=
  fun x hx => ⟨(b x hx).1.trans (a x hx).1, (b x hx).2⟩

theorem AgreeC.mono {A B : Set (Nat × Nat)} {h1 h2 : Heap C} (a : AgreeC A h1 h2) (s : B ⊆ A) : AgreeC B h1 h2 :=
  fun x hx => a x (s hx)

/-- A goroutine that owns the cells of `own` may make this access. -/
def AllowedC (ro own : Set (Nat × Nat)) : Access → Prop
  | .read a i => (a, i) ∈ own ∪ ro
  | .write a i => (a, i) ∈ own
  | .alloc => True

/-- `P`, which owns `own`, makes exactly `n` allowed memory accesses, whatever the others do, and goes on with `fin`; then `Q`
holds. -/
def JobR (ro : Set (Nat × Nat)) (fin : Prog (Heap C) V) (Q : Set (Nat × Nat) → Heap C → Prop) :
    Nat → Prog (Heap C) V → Set (Nat × Nat) → Heap C → Prop
  | 0, P, own, h => P = fin ∧ ∀ h', AgreeC (own ∪ ro) h h' → Q own h'
  | n + 1, P, own, h => ∃ a f K, P = .mem a f K ∧ ∀ h', AgreeC (own ∪ ro) h h' →
      AllowedC ro own a ∧ h'.next ≤ (f h').next ∧
      (∀ c : Nat × Nat, c ∉ own → c.1 < h'.next → (f h').cells c.1 c.2 = h'.cells c.1 c.2) ∧
      ∃ own', own ⊆ own' ∧ (∀ c ∈ own', c ∈ own ∨ h'.next ≤ c.1) ∧ (∀ c ∈ own', c.1 < (f h').next) ∧
        JobR ro fin Q n (K h') own' (f h')

section
variable {ro : Set (Nat × Nat)} {fin : Prog (Heap C) V} {Q : Set (Nat × Nat) → Heap C → Prop}

theorem JobR.agree {n : Nat} {P : Prog (Heap C) V} {own : Set (Nat × Nat)} {h h' : Heap C} (j : JobR ro fin Q n P own h)
    (a : AgreeC (own ∪ ro) h h') : JobR ro fin Q n P own h' := by
  cases n with
  | zero => exact ⟨j.1, fun x hx => j.2 x (a.trans hx)⟩
  | succ n =>
    obtain ⟨b, f, K, e, j⟩ := j
    exact ⟨b, f, K, e, fun x hx => j x (a.trans hx)⟩

end

/-! ### The pool -/

/-- Where a job is: before `Acquire`; with `m` accesses to go before `Release`; before `Done`; returned. -/
inductive JobPos where
  | pre
  | run (m : Nat)
  | rel
  | fin

/-- Where the caller is: about to read what it needs for job `j`, about to acquire a token for job `j`, about to start job `j`,
at `Wait`, at `Close`. -/
inductive CallerPos where
  | read (j : Nat)
  | acq (j : Nat)
  | go (j : Nat)
  | wait
  | close

/-- A pool: `inside` says who acquires the token (the job or the caller); `rd j` is the cell that the caller reads before it
starts job `j`, `code j h` is the code of job `j` if memory is `h` then. -/
structure Pool (C V : Type) where
  tok : V
  inside : Bool
  sem : Nat
  wg : Nat
  N : Nat
  n : Nat
  g0 : Nat
  rd : Nat → Option (Nat × Nat)
  code : Nat → Heap C → Prog (Heap C) V
  K : Prog (Heap C) V
  ro : Set (Nat × Nat)
  own0 : Nat → Set (Nat × Nat)
  len : Nat → Nat
  Q : Nat → Set (Nat × Nat) → Heap C → Prop
  h1 : Heap C

namespace Pool

variable (p : Pool C V)

/-- The end of a job. -/
def endP : Prog (Heap C) V := releaseP p.sem p.tok (.wgDone p.wg (.ret p.tok))

/-- The code of job `j`. -/
def job (j : Nat) : Prog (Heap C) V := p.code j p.h1

/-- The code with which the goroutine of a job starts. -/
def start (c : Prog (Heap C) V) : Prog (Heap C) V := if p.inside then acquireP p.sem c else c

/-- The caller acquires a token, unless the job does. -/
def acqP (k : Prog (Heap C) V) : Prog (Heap C) V := if p.inside then k else acquireP p.sem k

/-- One turn of the caller's loop. -/
def body (j : Nat) (_ : Unit) (next : Unit → Prog (Heap C) V) : Prog (Heap C) V :=
  match p.rd j with
  | some c => .mem (.read c.1 c.2) id fun h => p.acqP (.go (p.start (p.code j h)) (next ()))
  | none => p.acqP (.go (p.start (p.job j)) (next ()))

/-- The end of the caller's code. -/
def tail : Prog (Heap C) V := if p.inside then closeSemP p.sem p.K else p.K

/-- The caller's loop, from job `j` on. -/
def loop (j : Nat) : Prog (Heap C) V := loopP p.body (fun _ => .wgWait p.wg p.tail) j (p.n - j) ()

/-- The caller's code. -/
def main : CallerPos → Prog (Heap C) V
  | .read j => p.loop j
  | .acq j => acquireP p.sem (.go (p.start (p.job j)) (p.loop (j + 1)))
  | .go j => .go (p.start (p.job j)) (p.loop (j + 1))
  | .wait => .wgWait p.wg p.tail
  | .close => closeSemP p.sem p.K

/-- Where the caller is when it has started `j` jobs. -/
def enter (j : Nat) : CallerPos :=
  if j < p.n then (if (p.rd j).isSome then .read j else if p.inside then .go j else .acq j) else .wait

/-- Which positions of the caller exist. -/
def Valid : CallerPos → Prop
  | .read j => j < p.n ∧ (p.rd j).isSome
  | .acq j => j < p.n ∧ p.inside = false
  | .go j => j < p.n
  | .wait => True
  | .close => p.inside = true

/-- How many jobs have been started. -/
def launched : CallerPos → Nat
  | .read j => j
  | .acq j => j
  | .go j => j
  | _ => p.n

/-- 1 if the caller holds a token. -/
def callerTok : CallerPos → Nat
  | .go _ => if p.inside then 0 else 1
  | _ => 0

/-- 1 if the job holds a token. -/
def holding : JobPos → Nat
  | .run _ => 1
  | _ => 0

/-- 1 if the job has returned. -/
def finished : JobPos → Nat
  | .fin => 1
  | _ => 0

/-- Steps left of a job. -/
def jobLeft (w : Nat) : JobPos → Nat
  | .pre => p.len w + 3
  | .run m => m + 2
  | .rel => 1
  | .fin => 0

/-- Steps left of the caller. -/
def callerLeft : CallerPos → Nat
  | .read j => 3 * (p.n - j) + 2
  | .acq j => 3 * (p.n - j) + 1
  | .go j => 3 * (p.n - j)
  | .wait => 2
  | .close => 1

/-- Steps left. -/
def left (cp : CallerPos) (js : Nat → JobPos) : Nat := ∑ w ∈ range p.n, p.jobLeft w (js w) + p.callerLeft cp

/-- Job `w` at its position, with code `P`. -/
def JobAt (w : Nat) (P : Prog (Heap C) V) (own : Set (Nat × Nat)) (h : Heap C) : JobPos → Prop
  | .pre => P = acquireP p.sem (p.job w) ∧ p.inside = true ∧ JobR p.ro p.endP (p.Q w) (p.len w) (p.job w) own h
  | .run m => JobR p.ro p.endP (p.Q w) m P own h
  | .rel => P = .wgDone p.wg (.ret p.tok) ∧ ∀ h', AgreeC (own ∪ p.ro) h h' → p.Q w own h'
  | .fin => P = .ret p.tok ∧ ∀ h', AgreeC (own ∪ p.ro) h h' → p.Q w own h'

/-- Who owns what. -/
structure Owns (ow : Nat → Set (Nat × Nat)) (h : Heap C) : Prop where
  disj : ∀ w < p.n, ∀ w' < p.n, w ≠ w' → Disjoint (ow w) (ow w')
  ro : ∀ w < p.n, Disjoint (ow w) p.ro
  alloc : ∀ w < p.n, ∀ c ∈ ow w, c.1 < h.next
  allocRo : ∀ c ∈ p.ro, c.1 < h.next
  grow : ∀ w < p.n, ∀ c ∈ ow w, c ∈ p.own0 w ∨ p.h1.next ≤ c.1
  keep : ∀ w < p.n, p.own0 w ⊆ ow w
  next : p.h1.next ≤ h.next
  cells : ∀ c : Nat × Nat, c.1 < p.h1.next → (∀ w < p.n, c ∉ p.own0 w) → h.cells c.1 c.2 = p.h1.cells c.1 c.2

/-- The invariant. -/
structure Inv (cp : CallerPos) (js : Nat → JobPos) (ow : Nat → Set (Nat × Nat)) (s : Conf (Heap C) V) : Prop where
  alive : s.crashed = none
  valid : p.Valid cp
  main : s.gs 0 = p.main cp
  nG : s.nG = p.launched cp + p.g0
  pos : 1 ≤ p.g0
  others : ∀ i, i ≠ 0 → (i < p.g0 ∨ p.launched cp + p.g0 ≤ i) → Returned s i
  jobs : ∀ w < p.launched cp, p.JobAt w (s.gs (w + p.g0)) (ow w) s.mem (js w)
  fresh : ∀ w, p.launched cp ≤ w → js w = .pre
  ready : ∀ w < p.n, p.launched cp ≤ w → JobR p.ro p.endP (p.Q w) (p.len w) (p.job w) (ow w) s.mem
  cap : (s.chans p.sem).cap = p.N
  closed : (s.chans p.sem).closed = false
  tokens : (s.chans p.sem).buf.length + ∑ w ∈ range p.n, holding (js w) + p.callerTok cp = p.N
  count : s.wgs p.wg + ∑ w ∈ range p.n, finished (js w) = p.n
  ended : cp = .close → ∀ w < p.n, js w = .fin
  owns : p.Owns ow s.mem

variable {p} {cp : CallerPos} {js : Nat → JobPos} {ow : Nat → Set (Nat × Nat)} {s s' : Conf (Heap C) V}

theorem sum_upd' (n w : Nat) (hw : w < n) (g : Nat → JobPos → Nat) (t : Nat → JobPos) (x : JobPos) :
    ∑ i ∈ range n, g i (Function.update t w x i) + g w (t w) = ∑ i ∈ range n, g i (t i) + g w x := by
  have hm : w ∈ range n := Finset.mem_range.2 hw
  rw [← Finset.sum_erase_add _ _ hm, ← Finset.sum_erase_add (range n) (fun i => g i (t i)) hm]
  rw [Function.update_self]
  rw [Finset.sum_congr rfl (g := fun i => g i (t i))]
  · ring
  · intro i hi
    rw [Function.update_of_ne (Finset.ne_of_mem_erase hi)]

theorem launched_le (h : p.Valid cp) : p.launched cp ≤ p.n := by
  cases cp <;> simp only [Valid] at h <;> simp only [launched] <;> omega

theorem sum_holding_pos {w m : Nat} (hw : w < p.n) (h : js w = .run m) : 1 ≤ ∑ w ∈ range p.n, holding (js w) := by
  have := Finset.single_le_sum (f := fun w => holding (js w)) (fun _ _ => Nat.zero_le _) (Finset.mem_range.2 hw)
  simp only [h, holding] at this
  exact this

theorem sum_finished_lt {w : Nat} (hw : w < p.n) (h : js w ≠ .fin) : ∑ w ∈ range p.n, finished (js w) < p.n := by
  have : ∑ w ∈ range p.n, finished (js w) < ∑ w ∈ range p.n, 1 := by
    apply Finset.sum_lt_sum
    · intro i _; cases js i <;> simp [finished]
    · refine ⟨w, Finset.mem_range.2 hw, ?_⟩
      cases hj : js w <;> simp_all [finished]
  simpa using this

theorem sum_finished_all (h : ∑ w ∈ range p.n, finished (js w) = p.n) : ∀ w < p.n, js w = .fin := by
  intro w hw
  by_contra hne
  have := sum_finished_lt hw hne
  omega

theorem loop_lt {j : Nat} (hj : j < p.n) : p.loop j = p.body j () (fun _ => p.loop (j + 1)) := by
  unfold loop
  rw [show p.n - j = (p.n - (j + 1)) + 1 by omega]
  rfl

theorem loop_end : p.loop p.n = .wgWait p.wg p.tail := by
  unfold loop
  rw [Nat.sub_self]
  rfl

theorem main_enter {j : Nat} (hj : j ≤ p.n) : p.main (p.enter j) = p.loop j := by
  unfold enter
  split_ifs with h1 h2 h3
  · rfl
  · rw [loop_lt h1]
    simp only [body, main]
    cases h : p.rd j with
    | some c => rw [h] at h2; exact absurd rfl h2
    | none => simp [acqP, h3]
  · rw [loop_lt h1]
    simp only [body, main]
    cases h : p.rd j with
    | some c => rw [h] at h2; exact absurd rfl h2
    | none => simp [acqP, h3]
  · obtain rfl : j = p.n := by omega
    exact loop_end.symm

theorem launched_enter {j : Nat} (hj : j ≤ p.n) : p.launched (p.enter j) = j := by
  unfold enter
  split_ifs <;> simp only [launched]
  omega

theorem valid_enter (j : Nat) : p.Valid (p.enter j) := by
  unfold enter
  split_ifs with h1 h2 h3 <;> simp only [Valid]
  · exact ⟨h1, h2⟩
  · exact h1
  · exact ⟨h1, by simpa using h3⟩

theorem callerTok_enter (j : Nat) : p.callerTok (p.enter j) = 0 := by
  unfold enter
  split_ifs with h1 h2 h3 <;> simp [callerTok, *]

theorem enter_ne_close (j : Nat) : p.enter j ≠ .close := by
  unfold enter
  split_ifs <;> simp

theorem callerLeft_enter {j : Nat} (hj : j < p.n) : p.callerLeft (p.enter (j + 1)) < p.callerLeft (.go j) := by
  unfold enter
  split_ifs <;> simp only [callerLeft] <;> omega

/-- The memory step of job `w`. -/
theorem Owns.step {h h' : Heap C} (o : p.Owns ow h) {w : Nat} (hw : w < p.n) {own' : Set (Nat × Nat)} (hn : h.next ≤ h'.next)
    (hc : ∀ c : Nat × Nat, c ∉ ow w → c.1 < h.next → h'.cells c.1 c.2 = h.cells c.1 c.2) (h1 : ow w ⊆ own')
    (h2 : ∀ c ∈ own', c ∈ ow w ∨ h.next ≤ c.1) (h3 : ∀ c ∈ own', c.1 < h'.next) :
    p.Owns (Function.update ow w own') h' where
  disj := by
    have key : ∀ v < p.n, v ≠ w → Disjoint own' (ow v) := by
      intro v hv hne
      rw [Set.disjoint_left]
      intro c hc1 hc2
      rcases h2 c hc1 with h | h
      · exact Set.disjoint_left.1 (o.disj w hw v hv hne.symm) h hc2
      · have := o.alloc v hv c hc2; omega
    intro u hu v hv huv
    by_cases e1 : u = w
    · subst e1
      rw [Function.update_self, Function.update_of_ne huv.symm]
      exact key v hv huv.symm
    · by_cases e2 : v = w
      · subst e2
        rw [Function.update_self, Function.update_of_ne e1]
        exact (key u hu e1).symm
      · rw [Function.update_of_ne e1, Function.update_of_ne e2]
        exact o.disj u hu v hv huv
  ro := by
    intro u hu
    by_cases e1 : u = w
    · subst e1
      rw [Function.update_self, Set.disjoint_left]
      intro c hc1 hc2
      rcases h2 c hc1 with h | h
      · exact Set.disjoint_left.1 (o.ro u hw) h hc2
      · have := o.allocRo c hc2; omega
    · rw [Function.update_of_ne e1]; exact o.ro u hu
  alloc := by
    intro u hu c hcu
    by_cases e1 : u = w
    · subst e1; rw [Function.update_self] at hcu; exact h3 c hcu
    · rw [Function.update_of_ne e1] at hcu; exact (o.alloc u hu c hcu).trans_le hn
  allocRo := fun c hc => (o.allocRo c hc).trans_le hn
  grow := by
    intro u hu c hcu
    by_cases e1 : u = w
    · subst e1
      rw [Function.update_self] at hcu
      rcases h2 c hcu with h | h
      · exact o.grow u hu c h
      · exact .inr (o.next.trans h)
    · rw [Function.update_of_ne e1] at hcu; exact o.grow u hu c hcu
  keep := by
    intro u hu
    by_cases e1 : u = w
    · subst e1; rw [Function.update_self]; exact (o.keep u hu).trans h1
    · rw [Function.update_of_ne e1]; exact o.keep u hu
  next := o.next.trans hn
  cells := by
    intro c hc1 hc2
    rw [hc c ?_ (hc1.trans_le o.next), o.cells c hc1 hc2]
    intro hcw
    rcases o.grow w hw c hcw with h | h
    · exact hc2 w hw h
    · omega

theorem Owns.others {h h' : Heap C} (o : p.Owns ow h) {w : Nat} (hw : w < p.n) (hn : h.next ≤ h'.next)
    (hc : ∀ c : Nat × Nat, c ∉ ow w → c.1 < h.next → h'.cells c.1 c.2 = h.cells c.1 c.2) {v : Nat} (hv : v < p.n) (hne : v ≠ w) :
    AgreeC (ow v ∪ p.ro) h h' := by
  rintro c (hc1 | hc1)
  · exact ⟨hc c (fun h => Set.disjoint_left.1 (o.disj w hw v hv hne.symm) h hc1) (o.alloc v hv c hc1),
      (o.alloc v hv c hc1).trans_le hn⟩
  · exact ⟨hc c (fun h => Set.disjoint_left.1 (o.ro w hw) h hc1) (o.allocRo c hc1), (o.allocRo c hc1).trans_le hn⟩

theorem Owns.refl {h : Heap C} (o : p.Owns ow h) {v : Nat} (hv : v < p.n) : AgreeC (ow v ∪ p.ro) h h := by
  rintro c (hc1 | hc1)
  · exact ⟨rfl, o.alloc v hv c hc1⟩
  · exact ⟨rfl, o.allocRo c hc1⟩

theorem Owns.agreeRo {h : Heap C} (o : p.Owns ow h) (hro : ∀ c ∈ p.ro, c.1 < p.h1.next) : AgreeC p.ro p.h1 h := by
  intro c hc
  refine ⟨o.cells c (hro c hc) ?_, o.allocRo c hc⟩
  intro w hw hcw
  exact Set.disjoint_left.1 (o.ro w hw) (o.keep w hw hcw) hc

theorem JobAt.agree {w : Nat} {P : Prog (Heap C) V} {own : Set (Nat × Nat)} {h h' : Heap C} {x : JobPos}
    (j : p.JobAt w P own h x) (a : AgreeC (own ∪ p.ro) h h') : p.JobAt w P own h' x := by
  cases x with
  | pre => exact ⟨j.1, j.2.1, j.2.2.agree a⟩
  | run m => exact JobR.agree j a
  | rel => exact ⟨j.1, fun x hx => j.2 x (a.trans hx)⟩
  | fin => exact ⟨j.1, fun x hx => j.2 x (a.trans hx)⟩

/-- A step of job `w`. -/
theorem Inv.job_step (i : p.Inv cp js ow s) {w : Nat} (hw : w < p.launched cp) {x : JobPos} {P : Prog (Heap C) V}
    {own' : Set (Nat × Nat)} (hne : js w ≠ .fin) (h1 : s'.crashed = none)
    (h2 : s'.gs = Function.update s.gs (w + p.g0) P) (h3 : s'.nG = s.nG)
    (h4 : (s'.chans p.sem).cap = (s.chans p.sem).cap) (h5 : (s'.chans p.sem).closed = (s.chans p.sem).closed)
    (h6 : (s'.chans p.sem).buf.length + holding x = (s.chans p.sem).buf.length + holding (js w))
    (h7 : s'.wgs p.wg + finished x = s.wgs p.wg + finished (js w))
    (hn : s.mem.next ≤ s'.mem.next)
    (hc : ∀ c : Nat × Nat, c ∉ ow w → c.1 < s.mem.next → s'.mem.cells c.1 c.2 = s.mem.cells c.1 c.2) (hs1 : ow w ⊆ own')
    (hs2 : ∀ c ∈ own', c ∈ ow w ∨ s.mem.next ≤ c.1) (hs3 : ∀ c ∈ own', c.1 < s'.mem.next)
    (hj : p.JobAt w P own' s'.mem x) :
    p.Inv cp (Function.update js w x) (Function.update ow w own') s' := by
  have hwn : w < p.n := hw.trans_le (launched_le i.valid)
  have hpos := i.pos
  refine ⟨h1, i.valid, ?_, by rw [h3]; exact i.nG, i.pos, ?_, ?_, ?_, ?_, by rw [h4]; exact i.cap, by rw [h5]; exact i.closed,
    ?_, ?_, ?_, i.owns.step hwn hn hc hs1 hs2 hs3⟩
  · rw [h2, Function.update_of_ne (by omega)]; exact i.main
  · intro k hk hk2
    obtain ⟨r, hr⟩ := i.others k hk hk2
    exact ⟨r, by rw [h2, Function.update_of_ne (by omega)]; exact hr⟩
  · intro v hv
    by_cases e : v = w
    · subst e; simpa [h2] using hj
    · rw [h2, Function.update_of_ne (by omega), Function.update_of_ne e, Function.update_of_ne e]
      exact (i.jobs v hv).agree (i.owns.others hwn hn hc (hv.trans_le (launched_le i.valid)) e)
  · intro v hv
    rw [Function.update_of_ne (by omega)]; exact i.fresh v hv
  · intro v hv hl
    have e : v ≠ w := by omega
    rw [Function.update_of_ne e]
    exact (i.ready v hv hl).agree (i.owns.others hwn hn hc hv e)
  · have := sum_upd' p.n w hwn (fun _ => holding) js x
    have := i.tokens
    omega
  · have := sum_upd' p.n w hwn (fun _ => finished) js x
    have := i.count
    omega
  · intro he
    exact absurd (i.ended he w hwn) hne

theorem left_upd {w : Nat} (hw : w < p.n) {x : JobPos} (h : p.jobLeft w x < p.jobLeft w (js w)) :
    p.left cp (Function.update js w x) < p.left cp js := by
  unfold left
  have := sum_upd' p.n w hw p.jobLeft js x
  omega

/-- What a job can do. -/
theorem Inv.job_exec (i : p.Inv cp js ow s) {w : Nat} (hw : w < p.launched cp) (he : exec s (w + p.g0) = some s') :
    ∃ js' ow', p.left cp js' < p.left cp js ∧ p.Inv cp js' ow' s' := by
  have hwn : w < p.n := hw.trans_le (launched_le i.valid)
  have hj := i.jobs w hw
  have hsame : ∀ c : Nat × Nat, c ∉ ow w → c.1 < s.mem.next → s.mem.cells c.1 c.2 = s.mem.cells c.1 c.2 := fun _ _ _ => rfl
  cases hx : js w with
  | pre =>
    rw [hx] at hj
    obtain ⟨hP, _, hR⟩ := hj
    simp only [exec, hP, acquireP, i.closed, Bool.false_eq_true, if_false] at he
    cases hb : (s.chans p.sem).buf with
    | nil => rw [hb] at he; cases he
    | cons v rest =>
      rw [hb] at he
      simp only [Option.some.injEq] at he
      subst he
      refine ⟨_, _, left_upd hwn (x := .run (p.len w)) (by rw [hx]; simp [jobLeft]),
        i.job_step hw (own' := ow w) (P := p.job w) (by rw [hx]; simp) i.alive rfl rfl ?_ ?_ ?_ ?_ le_rfl hsame subset_rfl
          (fun c hc => .inl hc) (i.owns.alloc w hwn) hR⟩
      · simp [Conf.goOn, Conf.setChan]
      · simp [Conf.goOn, Conf.setChan, i.closed]
      · simp [Conf.goOn, Conf.setChan, hb, hx, holding]
      · simp [Conf.goOn, Conf.setChan, hx, finished]
  | run m =>
    rw [hx] at hj
    cases m with
    | zero =>
      obtain ⟨hP, hQ⟩ := hj
      have hpos := sum_holding_pos hwn hx
      have htk := i.tokens
      simp only [exec, hP, endP, releaseP, i.closed, Bool.false_eq_true, if_false] at he
      rw [if_pos (by rw [i.cap]; omega)] at he
      simp only [Option.some.injEq] at he
      subst he
      refine ⟨_, _, left_upd hwn (x := .rel) (by rw [hx]; simp [jobLeft]),
        i.job_step hw (own' := ow w) (P := .wgDone p.wg (.ret p.tok)) (by rw [hx]; simp) i.alive rfl rfl ?_ ?_ ?_ ?_ le_rfl hsame
          subset_rfl (fun c hc => .inl hc) (i.owns.alloc w hwn) ⟨rfl, hQ⟩⟩
      · simp [Conf.goOn, Conf.setChan]
      · simp [Conf.goOn, Conf.setChan, i.closed]
      · simp [Conf.goOn, Conf.setChan, hx, holding]
      · simp [Conf.goOn, Conf.setChan, hx, finished]
    | succ m =>
      obtain ⟨a, f, K, hP, hR⟩ := hj
      obtain ⟨_, hn, hc, own', hs1, hs2, hs3, hR⟩ := hR s.mem (i.owns.refl hwn)
      simp only [exec, hP, Option.some.injEq] at he
      subst he
      exact ⟨_, _, left_upd hwn (x := .run m) (by rw [hx]; simp [jobLeft]),
        i.job_step hw (own' := own') (P := K s.mem) (by rw [hx]; simp) i.alive rfl rfl rfl rfl (by simp [hx, holding])
          (by simp [hx, finished]) hn hc hs1 hs2 hs3 hR⟩
  | rel =>
    rw [hx] at hj
    obtain ⟨hP, hQ⟩ := hj
    have hlt := sum_finished_lt (js := js) hwn (by rw [hx]; simp)
    have hct := i.count
    simp only [exec, hP] at he
    rw [if_neg (by omega)] at he
    simp only [Option.some.injEq] at he
    subst he
    refine ⟨_, _, left_upd hwn (x := .fin) (by rw [hx]; simp [jobLeft]),
      i.job_step hw (own' := ow w) (P := .ret p.tok) (by rw [hx]; simp) i.alive rfl rfl rfl rfl (by simp [hx, holding])
        ?_ le_rfl hsame subset_rfl (fun c hc => .inl hc) (i.owns.alloc w hwn) ⟨rfl, hQ⟩⟩
    simp [hx, finished]
    omega
  | fin =>
    rw [hx] at hj
    simp [exec, hj.1] at he

/-- A step of the caller that starts no job. -/
theorem Inv.main_step (i : p.Inv cp js ow s) {cp' : CallerPos} (hv : p.Valid cp') (hl : p.launched cp' = p.launched cp)
    (h1 : s'.crashed = none) (h2 : s'.gs = Function.update s.gs 0 (p.main cp')) (h3 : s'.nG = s.nG)
    (h4 : (s'.chans p.sem).cap = (s.chans p.sem).cap) (h5 : (s'.chans p.sem).closed = (s.chans p.sem).closed)
    (h6 : (s'.chans p.sem).buf.length + p.callerTok cp' = (s.chans p.sem).buf.length + p.callerTok cp)
    (h7 : s'.wgs = s.wgs) (h8 : s'.mem = s.mem) (h9 : cp' = .close → ∀ w < p.n, js w = .fin) :
    p.Inv cp' js ow s' := by
  have hpos := i.pos
  refine ⟨h1, hv, by rw [h2, Function.update_self], by rw [h3, hl]; exact i.nG, i.pos, ?_, ?_, by rw [hl]; exact i.fresh,
    by rw [hl, h8]; exact i.ready, by rw [h4]; exact i.cap, by rw [h5]; exact i.closed, ?_, by rw [h7]; exact i.count, h9,
    by rw [h8]; exact i.owns⟩
  · intro k hk hk2
    rw [hl] at hk2
    obtain ⟨r, hr⟩ := i.others k hk hk2
    exact ⟨r, by rw [h2, Function.update_of_ne hk]; exact hr⟩
  · intro w hw
    rw [hl] at hw
    rw [h2, Function.update_of_ne (by omega), h8]
    exact i.jobs w hw
  · have := i.tokens; omega

/-- A step of the caller that starts job `j`. -/
theorem Inv.main_go {j : Nat} (i : p.Inv (.go j) js ow s) (h1 : s'.crashed = none)
    (h2 : s'.gs = Function.update (Function.update s.gs 0 (p.loop (j + 1))) s.nG (p.start (p.job j))) (h3 : s'.nG = s.nG + 1)
    (h4 : s'.chans = s.chans) (h7 : s'.wgs = s.wgs) (h8 : s'.mem = s.mem) :
    p.Inv (p.enter (j + 1)) (Function.update js j (if p.inside then .pre else .run (p.len j))) ow s' := by
  have hj : j < p.n := i.valid
  have hpos := i.pos
  have hnG : s.nG = j + p.g0 := i.nG
  have hle := launched_enter (p := p) (j := j + 1) (by omega)
  have hjs : js j = .pre := i.fresh j le_rfl
  refine ⟨h1, valid_enter _, ?_, by rw [h3, hnG, hle]; omega, i.pos, ?_, ?_, ?_, ?_, by rw [h4]; exact i.cap,
    by rw [h4]; exact i.closed, ?_, ?_, fun h => absurd h (enter_ne_close _), by rw [h8]; exact i.owns⟩
  · rw [h2, Function.update_of_ne (by omega), Function.update_self, main_enter (by omega)]
  · intro k hk hk2
    rw [hle] at hk2
    obtain ⟨r, hr⟩ := i.others k hk (by simp only [launched]; omega)
    exact ⟨r, by rw [h2, Function.update_of_ne (by omega), Function.update_of_ne hk]; exact hr⟩
  · intro w hw
    rw [hle] at hw
    rw [h8]
    by_cases e : w = j
    · subst e
      rw [h2, ← hnG, Function.update_self, Function.update_self]
      have := i.ready w hj le_rfl
      cases hi : p.inside with
      | true => simp only [start, hi, if_true]; exact ⟨rfl, hi, this⟩
      | false => simp only [start, hi]; exact this
    · rw [h2, Function.update_of_ne (by omega), Function.update_of_ne (by omega), Function.update_of_ne e]
      exact i.jobs w (by simp only [launched]; omega)
  · intro w hw
    rw [hle] at hw
    rw [Function.update_of_ne (by omega)]
    exact i.fresh w (by simp only [launched]; omega)
  · intro w hw hl
    rw [hle] at hl
    rw [h8]
    exact i.ready w hw (by simp only [launched]; omega)
  · have h5 := sum_upd' p.n j hj (fun _ => holding) js (if p.inside then .pre else .run (p.len j))
    have h6 := i.tokens
    rw [h4, callerTok_enter]
    rw [hjs] at h5
    cases hi : p.inside <;> simp [hi, callerTok, holding] at h5 h6 ⊢ <;> omega
  · have h5 := sum_upd' p.n j hj (fun _ => finished) js (if p.inside then .pre else .run (p.len j))
    have h6 := i.count
    have h9 : finished (if p.inside then .pre else .run (p.len j)) = 0 := by cases p.inside <;> rfl
    rw [h7]
    rw [hjs, h9, show finished .pre = 0 from rfl] at h5
    omega

/-- The pool is over: the caller is about to run `K`, all the jobs have returned. -/
structure Over (ow : Nat → Set (Nat × Nat)) (s : Conf (Heap C) V) : Prop where
  solo : Solo s
  nG : 1 ≤ s.nG
  rest : s.gs 0 = p.K
  owns : p.Owns ow s.mem
  results : ∀ w < p.n, p.Q w (ow w) s.mem

theorem Inv.over (i : p.Inv cp js ow s) (hall : ∀ w < p.n, js w = .fin) (hl : p.launched cp = p.n) (h1 : s'.crashed = none)
    (h2 : s'.gs = Function.update s.gs 0 p.K) (h3 : s'.nG = s.nG) (h4 : s'.mem = s.mem) : p.Over ow s' := by
  have hpos := i.pos
  have hnG := i.nG
  refine ⟨⟨h1, ?_⟩, by omega, by rw [h2, Function.update_self], by rw [h4]; exact i.owns, ?_⟩
  · intro k hk
    by_cases hk2 : k < p.g0 ∨ p.launched cp + p.g0 ≤ k
    · obtain ⟨r, hr⟩ := i.others k hk hk2
      exact ⟨r, by rw [h2, Function.update_of_ne hk]; exact hr⟩
    · obtain ⟨w, rfl⟩ : ∃ w, k = w + p.g0 := ⟨k - p.g0, by omega⟩
      have := i.jobs w (by omega)
      rw [hall w (by omega)] at this
      exact ⟨p.tok, by rw [h2, Function.update_of_ne hk]; exact this.1⟩
  · intro w hw
    have := i.jobs w (by omega)
    rw [hall w hw] at this
    rw [h4]
    exact this.2 s.mem (i.owns.refl hw)

/-- What makes a pool. -/
structure Ok (p : Pool C V) : Prop where
  cores : 1 ≤ p.N
  rd : ∀ j c, p.rd j = some c → c ∈ p.ro
  code : ∀ j < p.n, ∀ h, AgreeC p.ro p.h1 h → p.code j h = p.job j
  ro : ∀ c ∈ p.ro, c.1 < p.h1.next

/-- What the caller can do. -/
theorem Inv.main_exec (o : p.Ok) (i : p.Inv cp js ow s) (he : exec s 0 = some s') :
    (∃ cp' js' ow', p.left cp' js' < p.left cp js ∧ p.Inv cp' js' ow' s') ∨ p.Over ow s' := by
  have hm := i.main
  cases cp with
  | read j =>
    obtain ⟨hj, hr⟩ : j < p.n ∧ (p.rd j).isSome := i.valid
    obtain ⟨c, hc⟩ := Option.isSome_iff_exists.1 hr
    simp only [Pool.main, loop_lt hj, body, hc] at hm
    simp only [exec, hm, Option.some.injEq] at he
    subst he
    rw [o.code j hj s.mem (i.owns.agreeRo o.ro)]
    refine .inl ?_
    cases hi : p.inside with
    | true =>
      refine ⟨.go j, js, ow, ?_, i.main_step (cp' := .go j) hj rfl i.alive ?_ rfl rfl rfl ?_ rfl rfl (by intro h; cases h)⟩
      · unfold left; simp only [callerLeft]; omega
      · simp only [acqP, hi, if_true]; rfl
      · simp [callerTok, hi]
    | false =>
      refine ⟨.acq j, js, ow, ?_, i.main_step (cp' := .acq j) ⟨hj, hi⟩ rfl i.alive ?_ rfl rfl rfl ?_ rfl rfl (by intro h; cases h)⟩
      · unfold left; simp only [callerLeft]; omega
      · simp only [acqP, hi]; rfl
      · simp [callerTok]
  | acq j =>
    obtain ⟨hj, hi⟩ : j < p.n ∧ p.inside = false := i.valid
    simp only [Pool.main, acquireP] at hm
    simp only [exec, hm, i.closed, Bool.false_eq_true, if_false] at he
    cases hb : (s.chans p.sem).buf with
    | nil => rw [hb] at he; cases he
    | cons v rest =>
      rw [hb] at he
      simp only [Option.some.injEq] at he
      subst he
      refine .inl ⟨.go j, js, ow, ?_, i.main_step (cp' := .go j) hj rfl i.alive rfl rfl ?_ ?_ ?_ rfl rfl (by intro h; cases h)⟩
      · unfold left; simp only [callerLeft]; omega
      · simp [Conf.goOn, Conf.setChan]
      · simp [Conf.goOn, Conf.setChan, i.closed]
      · simp [Conf.goOn, Conf.setChan, hb, callerTok, hi]
  | go j =>
    have hj : j < p.n := i.valid
    simp only [Pool.main] at hm
    simp only [exec, hm, Option.some.injEq] at he
    subst he
    refine .inl ⟨_, _, _, ?_, i.main_go i.alive rfl rfl rfl rfl rfl⟩
    have hjs : js j = .pre := i.fresh j le_rfl
    have h1 := callerLeft_enter hj
    have h2 := sum_upd' p.n j hj p.jobLeft js (if p.inside then .pre else .run (p.len j))
    rw [hjs] at h2
    unfold left
    cases hi : p.inside <;> simp [hi, jobLeft] at h2 ⊢ <;> omega
  | wait =>
    simp only [Pool.main] at hm
    simp only [exec, hm] at he
    split_ifs at he with hz
    simp only [Option.some.injEq] at he
    subst he
    have hall := sum_finished_all (p := p) (js := js) (by have := i.count; omega)
    cases hi : p.inside with
    | true =>
      refine .inl ⟨.close, js, ow, ?_, i.main_step (cp' := .close) hi rfl i.alive ?_ rfl rfl rfl rfl rfl rfl (fun _ => hall)⟩
      · unfold left; simp only [callerLeft]; omega
      · simp only [tail, hi, if_true]; rfl
    | false =>
      refine .inr (i.over hall rfl i.alive ?_ rfl rfl)
      simp only [tail, hi]; rfl
  | close =>
    simp only [Pool.main, closeSemP] at hm
    simp only [exec, hm, i.closed, Bool.false_eq_true, if_false, Option.some.injEq] at he
    subst he
    exact .inr (i.over (i.ended rfl) rfl i.alive rfl rfl rfl)

/-- Who can send: a job at its end. -/
theorem Inv.send_job (i : p.Inv cp js ow s) {k c : Nat} {v : V} {P : Prog (Heap C) V} (hk : s.gs k = .send c v P) :
    ∃ w < p.launched cp, k = w + p.g0 ∧ js w = .run 0 := by
  have hpos := i.pos
  by_cases h0 : k = 0
  · subst h0
    rw [i.main] at hk
    have hv := i.valid
    cases cp with
    | read j =>
      obtain ⟨hj, hr⟩ : j < p.n ∧ (p.rd j).isSome := hv
      obtain ⟨c, hc⟩ := Option.isSome_iff_exists.1 hr
      simp only [Pool.main, loop_lt hj, body, hc] at hk
      cases hk
    | _ => cases hk
  · by_cases hk2 : k < p.g0 ∨ p.launched cp + p.g0 ≤ k
    · obtain ⟨r, hr⟩ := i.others k h0 hk2
      rw [hr] at hk; cases hk
    · obtain ⟨w, rfl⟩ : ∃ w, k = w + p.g0 := ⟨k - p.g0, by omega⟩
      refine ⟨w, by omega, rfl, ?_⟩
      have hj := i.jobs w (by omega)
      cases hx : js w with
      | pre => rw [hx] at hj; rw [hj.1] at hk; cases hk
      | run m =>
        cases m with
        | zero => rfl
        | succ m =>
          rw [hx] at hj
          obtain ⟨a, f, K, hP, _⟩ := hj
          rw [hP] at hk; cases hk
      | rel => rw [hx] at hj; rw [hj.1] at hk; cases hk
      | fin => rw [hx] at hj; rw [hj.1] at hk; cases hk

theorem Inv.send_ok (i : p.Inv cp js ow s) {w : Nat} (hw : w < p.launched cp) (hx : js w = .run 0) :
    ∃ s', exec s (w + p.g0) = some s' ∧ s'.crashed = none := by
  have hwn : w < p.n := hw.trans_le (launched_le i.valid)
  have hj := i.jobs w hw
  rw [hx] at hj
  have hpos := sum_holding_pos hwn hx
  have htk := i.tokens
  refine ⟨(s.setChan p.sem { s.chans p.sem with buf := (s.chans p.sem).buf ++ [p.tok] }).goOn (w + p.g0)
      (.wgDone p.wg (.ret p.tok)), ?_, i.alive⟩
  simp only [exec, hj.1, endP, releaseP, i.closed, Bool.false_eq_true, if_false]
  rw [if_pos (by rw [i.cap]; omega)]

/-- What a goroutine about to access memory may do. -/
theorem Inv.mem_cases (o : p.Ok) (i : p.Inv cp js ow s) {k : Nat} {a : Access} {f : Heap C → Heap C} {K : Heap C → Prog (Heap C) V}
    (hk : s.gs k = .mem a f K) :
    (k = 0 ∧ ∃ c ∈ p.ro, a = .read c.1 c.2) ∨ ∃ w < p.n, k = w + p.g0 ∧ AllowedC p.ro (ow w) a := by
  have hpos := i.pos
  by_cases h0 : k = 0
  · subst h0
    rw [i.main] at hk
    have hv := i.valid
    cases cp with
    | read j =>
      obtain ⟨hj, hr⟩ : j < p.n ∧ (p.rd j).isSome := hv
      obtain ⟨c, hc⟩ := Option.isSome_iff_exists.1 hr
      simp only [Pool.main, loop_lt hj, body, hc] at hk
      injection hk with h1 h2 h3
      exact .inl ⟨rfl, c, o.rd j c hc, h1.symm⟩
    | _ => cases hk
  · by_cases hk2 : k < p.g0 ∨ p.launched cp + p.g0 ≤ k
    · obtain ⟨r, hr⟩ := i.others k h0 hk2
      rw [hr] at hk; cases hk
    · obtain ⟨w, rfl⟩ : ∃ w, k = w + p.g0 := ⟨k - p.g0, by omega⟩
      have hwl : w < p.launched cp := by omega
      have hwn : w < p.n := hwl.trans_le (launched_le i.valid)
      refine .inr ⟨w, hwn, rfl, ?_⟩
      have hj := i.jobs w hwl
      cases hx : js w with
      | pre => rw [hx] at hj; rw [hj.1] at hk; cases hk
      | run m =>
        rw [hx] at hj
        cases m with
        | zero => rw [hj.1] at hk; cases hk
        | succ m =>
          obtain ⟨a', f', K', hP, hR⟩ := hj
          rw [hP] at hk
          injection hk with h1 h2 h3
          rw [← h1]
          exact (hR s.mem (i.owns.refl hwn)).1
      | rel => rw [hx] at hj; rw [hj.1] at hk; cases hk
      | fin => rw [hx] at hj; rw [hj.1] at hk; cases hk

theorem allowed_no_conflict {ro o1 o2 : Set (Nat × Nat)} {a b : Access} (h1 : AllowedC ro o1 a) (h2 : AllowedC ro o2 b)
    (d : Disjoint o1 o2) (d1 : Disjoint o1 ro) (d2 : Disjoint o2 ro) : ¬ Conflict a b := by
  intro hc
  rw [Set.disjoint_left] at d d1 d2
  cases a <;> cases b <;> simp only [Conflict] at hc <;> obtain ⟨rfl, rfl⟩ := hc <;> simp only [AllowedC] at h1 h2
  · rcases h1 with h | h
    · exact d h h2
    · exact d2 h2 h
  · rcases h2 with h | h
    · exact d h1 h
    · exact d1 h1 h
  · exact d h1 h2

theorem Inv.norace (o : p.Ok) (i : p.Inv cp js ow s) : ¬ Race s := by
  rintro ⟨k, l, a, f, K, b, g, L, hkl, hk, hl, hc⟩
  have hpos := i.pos
  rcases i.mem_cases o hk with ⟨rfl, c, hc1, rfl⟩ | ⟨w, hw, rfl, ha⟩
  · rcases i.mem_cases o hl with ⟨rfl, _⟩ | ⟨w, hw, rfl, hb⟩
    · exact hkl rfl
    · exact allowed_no_conflict (ro := p.ro) (o1 := ∅) (Set.mem_union_right _ hc1) hb (Set.empty_disjoint _) (Set.empty_disjoint _) (i.owns.ro w hw) hc
  · rcases i.mem_cases o hl with ⟨rfl, c, hc1, rfl⟩ | ⟨w', hw', rfl, hb⟩
    · exact allowed_no_conflict (ro := p.ro) (o2 := ∅) ha (Set.mem_union_right _ hc1) (Set.disjoint_empty _) (i.owns.ro w hw) (Set.empty_disjoint _) hc
    · exact allowed_no_conflict ha hb (i.owns.disj w hw w' hw' (by rintro rfl; exact hkl rfl)) (i.owns.ro w hw) (i.owns.ro w' hw') hc

/-- Somebody can go on. -/
theorem Inv.progress (o : p.Ok) (i : p.Inv cp js ow s) : ∃ k s', exec s k = some s' := by
  by_contra hno
  have hnone : ∀ k, exec s k = none := by
    intro k
    cases he : exec s k with
    | none => rfl
    | some s' => exact absurd ⟨k, s', he⟩ hno
  have hN := o.cores
  have hout : ∀ w < p.launched cp, js w = .pre ∨ js w = .fin := by
    intro w hw
    have hwn := hw.trans_le (launched_le i.valid)
    have hj := i.jobs w hw
    have hn := hnone (w + p.g0)
    cases hx : js w with
    | pre => exact .inl rfl
    | fin => exact .inr rfl
    | run m =>
      exfalso
      cases m with
      | zero =>
        obtain ⟨s', h1, _⟩ := i.send_ok hw hx
        rw [hn] at h1; cases h1
      | succ m =>
        rw [hx] at hj
        obtain ⟨a, f, K, hP, _⟩ := hj
        simp [exec, hP] at hn
    | rel =>
      exfalso
      have hlt := sum_finished_lt (js := js) hwn (by rw [hx]; simp)
      have hct := i.count
      rw [hx] at hj
      simp only [exec, hj.1] at hn
      rw [if_neg (by omega)] at hn
      cases hn
  have hheld : ∑ w ∈ range p.n, holding (js w) = 0 := by
    apply Finset.sum_eq_zero
    intro w hw
    rcases Nat.lt_or_ge w (p.launched cp) with hl | hl
    · rcases hout w hl with h | h <;> rw [h] <;> rfl
    · rw [i.fresh w hl]; rfl
  have htk := i.tokens
  have hmain := hnone 0
  have hm := i.main
  have hv := i.valid
  have hb : p.callerTok cp = 0 → (s.chans p.sem).buf ≠ [] := by
    intro hc hb
    rw [hb, hheld, hc] at htk
    simp at htk
    omega
  cases cp with
  | read j =>
    obtain ⟨hj, hr⟩ : j < p.n ∧ (p.rd j).isSome := hv
    obtain ⟨c, hc⟩ := Option.isSome_iff_exists.1 hr
    simp only [Pool.main, loop_lt hj, body, hc] at hm
    simp [exec, hm] at hmain
  | acq j =>
    simp only [Pool.main, acquireP] at hm
    simp only [exec, hm] at hmain
    cases hbuf : (s.chans p.sem).buf with
    | nil => exact hb rfl hbuf
    | cons v rest => rw [hbuf] at hmain; simp at hmain
  | go j => simp [Pool.main, exec, hm] at hmain
  | close => simp [Pool.main, closeSemP, exec, hm, i.closed] at hmain
  | wait =>
    have hall : ∀ w < p.n, js w = .fin := by
      intro w hw
      rcases hout w hw with h0 | h0
      · exfalso
        have hj := i.jobs w hw
        rw [h0] at hj
        have hn := hnone (w + p.g0)
        simp only [exec, hj.1, acquireP] at hn
        cases hbuf : (s.chans p.sem).buf with
        | nil => exact hb rfl hbuf
        | cons v rest => rw [hbuf] at hn; simp at hn
      · exact h0
    have hfin : ∑ w ∈ range p.n, finished (js w) = p.n := by
      have : ∑ w ∈ range p.n, finished (js w) = ∑ w ∈ range p.n, 1 := by
        apply Finset.sum_congr rfl
        intro w hw
        rw [hall w (Finset.mem_range.1 hw)]
        rfl
      simpa using this
    have hct := i.count
    simp only [Pool.main] at hm
    simp only [exec, hm] at hmain
    rw [if_pos (by omega)] at hmain
    cases hmain

theorem Inv.main_not_ret (i : p.Inv cp js ow s) : ¬ Returned s 0 := by
  rintro ⟨r, hr⟩
  rw [i.main] at hr
  have hv := i.valid
  cases cp with
  | read j =>
    obtain ⟨hj, hrd⟩ : j < p.n ∧ (p.rd j).isSome := hv
    obtain ⟨c, hc⟩ := Option.isSome_iff_exists.1 hrd
    simp only [Pool.main, loop_lt hj, body, hc] at hr
    cases hr
  | _ => cases hr

/-- All schedules of a pool, followed by `K`. -/
theorem Inv.good (o : p.Ok) {W : Set (Nat × Nat)} {h0 : Heap C} {post : Conf (Heap C) V → Prop} {B : Nat}
    (hf : CellFrame W h0 p.h1) (hW : ∀ w < p.n, ∀ c ∈ p.own0 w, c.1 < h0.next → c ∈ W)
    (hK : ∀ ow s, p.Over ow s → GoodCellRun W h0 post B s) (i : p.Inv cp js ow s) :
    GoodCellRun W h0 post (p.left cp js + B) s := by
  generalize hμ : p.left cp js = μ
  induction μ using Nat.strong_induction_on generalizing cp js ow s with
  | _ μ ih =>
    subst hμ
    have hframe : CellFrame W h0 s.mem := by
      refine ⟨hf.1.trans i.owns.next, fun c hc hcW => ?_⟩
      rw [i.owns.cells c (hc.trans_le hf.1) (fun w hw h => hcW (hW w hw c h hc)), hf.2 c hc hcW]
    have hpos : 1 ≤ p.left cp js := by
      have hv := i.valid
      unfold left
      have : 1 ≤ p.callerLeft cp := by
        cases cp <;> simp only [Valid] at hv <;> simp only [callerLeft] <;> omega
      omega
    rw [show p.left cp js + B = (p.left cp js - 1 + B) + 1 by omega]
    refine goodCell_step ⟨i.norace o, i.alive, ?_, fun h => absurd h i.main_not_ret, ?_, hframe.1,
      fun a _ hn => absurd (Set.mem_univ a) hn⟩ hframe ?_
    · intro hst
      obtain ⟨k, s', hk⟩ := i.progress o
      exact absurd ⟨i.alive, .inl ⟨k, hk⟩⟩ (hst s')
    · intro k c v P hk
      obtain ⟨w, hw, rfl, hx⟩ := i.send_job hk
      exact i.send_ok hw hx
    · rintro s' ⟨_, ⟨k, hk⟩ | ⟨k, l, c, v, P, P', _, hk, _, hcap, _⟩⟩
      · have hp := i.pos
        by_cases h0 : k = 0
        · subst h0
          rcases i.main_exec o hk with ⟨cp', js', ow', hlt, i'⟩ | hov
          · exact (ih _ hlt i' rfl).mono (by omega)
          · exact (hK ow s' hov).mono (by omega)
        · by_cases hk2 : k < p.g0 ∨ p.launched cp + p.g0 ≤ k
          · obtain ⟨r, hr⟩ := i.others k h0 hk2
            simp [exec, hr] at hk
          · obtain ⟨w, rfl⟩ : ∃ w, k = w + p.g0 := ⟨k - p.g0, by omega⟩
            obtain ⟨js', ow', hlt, i'⟩ := i.job_exec (by omega) hk
            exact (ih _ hlt i' rfl).mono (by omega)
      · obtain ⟨w, hw, rfl, hx⟩ := i.send_job hk
        have hj := i.jobs w hw
        rw [hx] at hj
        rw [hj.1] at hk
        injection hk with h1 _ _
        rw [← h1, i.cap] at hcap
        have := o.cores
        omega

/-- A pool whose caller is about to enter its loop. -/
theorem start_good (o : p.Ok) {W : Set (Nat × Nat)} {h0 : Heap C} {post : Conf (Heap C) V → Prop} {B : Nat}
    (hf : CellFrame W h0 p.h1) (hW : ∀ w < p.n, ∀ c ∈ p.own0 w, c.1 < h0.next → c ∈ W)
    (hK : ∀ ow s, p.Over ow s → GoodCellRun W h0 post B s)
    (hs : Solo s) (hg : s.nG = p.g0) (hp : 1 ≤ p.g0) (hm : s.gs 0 = p.loop 0) (hmem : s.mem = p.h1)
    (hsem : s.chans p.sem = ⟨List.replicate p.N p.tok, p.N, false⟩) (hwg : s.wgs p.wg = p.n)
    (hd : ∀ w < p.n, ∀ w' < p.n, w ≠ w' → Disjoint (p.own0 w) (p.own0 w')) (hro : ∀ w < p.n, Disjoint (p.own0 w) p.ro)
    (ha : ∀ w < p.n, ∀ c ∈ p.own0 w, c.1 < p.h1.next)
    (hj : ∀ w < p.n, JobR p.ro p.endP (p.Q w) (p.len w) (p.job w) (p.own0 w) p.h1) :
    GoodCellRun W h0 post (∑ w ∈ range p.n, (p.len w + 3) + (3 * p.n + 2) + B) s := by
  have hl := launched_enter (p := p) (j := 0) (Nat.zero_le _)
  have i : p.Inv (p.enter 0) (fun _ => .pre) p.own0 s := by
    refine ⟨hs.1, valid_enter _, by rw [hm, main_enter (Nat.zero_le _)], by rw [hg, hl]; omega, hp, fun k hk _ => hs.2 k hk,
      fun w hw => absurd hw (by omega), fun _ _ => rfl, fun w hw _ => by rw [hmem]; exact hj w hw, by rw [hsem], by rw [hsem], ?_, ?_,
      fun h => absurd h (enter_ne_close _), ?_⟩
    · simp [hsem, callerTok_enter, holding]
    · simp [hwg, finished]
    · rw [hmem]
      exact ⟨hd, hro, ha, o.ro, fun w hw c hc => .inl hc, fun w _ => subset_rfl, le_rfl, fun _ _ _ => rfl⟩
  refine (i.good o hf hW hK).mono ?_
  unfold left
  simp only [jobLeft]
  have : p.callerLeft (p.enter 0) ≤ 3 * p.n + 2 := by
    unfold enter
    split_ifs <;> simp only [callerLeft] <;> omega
  omega

end Pool

end GkrMimc
