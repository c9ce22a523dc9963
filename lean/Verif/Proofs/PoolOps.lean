import Verif.Proofs.PoolCell
import Verif.Spec.Cell

/-! Rules for the caller alone, for the set-up of a pool, and for the jobs. -/

set_option linter.unusedSectionVars false

namespace GkrMimc

open Spec Finset

variable {C V : Type}

/-! ### The caller -/

/-- Whatever the channels and wait groups (as long as `X` holds of them) and the goroutines that have returned: if the caller is
about to run `P` in memory `h` then all is well. -/
def GA (W : Set (Nat × Nat)) (h0 : Heap C) (post : Conf (Heap C) V → Prop) (B : Nat) (P : Prog (Heap C) V) (h : Heap C)
    (X : (Nat → Chan V) → Nat → (Nat → Nat) → Nat → Prop) : Prop :=
  ∀ s, Solo s → 1 ≤ s.nG → s.gs 0 = P → s.mem = h → X s.chans s.nC s.wgs s.nW → GoodCellRun W h0 post B s

/-- Nothing is known about channels and wait groups. -/
def AnyX : (Nat → Chan V) → Nat → (Nat → Nat) → Nat → Prop := fun _ _ _ _ => True

section
variable {W : Set (Nat × Nat)} {h0 : Heap C} {post : Conf (Heap C) V → Prop} {B : Nat} {h : Heap C}
  {X Y : (Nat → Chan V) → Nat → (Nat → Nat) → Nat → Prop}

theorem GA.weaken {P : Prog (Heap C) V} (g : GA W h0 post B P h X) (hX : ∀ a b c d, Y a b c d → X a b c d) : GA W h0 post B P h Y :=
  fun s h1 h2 h3 h4 h5 => g s h1 h2 h3 h4 (hX _ _ _ _ h5)

theorem GA.any {P : Prog (Heap C) V} (g : GA W h0 post B P h AnyX) : GA W h0 post B P h Y := g.weaken fun _ _ _ _ _ => trivial

theorem GA.mono {B' : Nat} {P : Prog (Heap C) V} (g : GA W h0 post B P h X) (hB : B ≤ B') : GA W h0 post B' P h X :=
  fun s h1 h2 h3 h4 h5 => (g s h1 h2 h3 h4 h5).mono hB

theorem Solo.upd {s : Conf (Heap C) V} (h : Solo s) {s' : Conf (Heap C) V} {P : Prog (Heap C) V} (h1 : s'.crashed = s.crashed)
    (h2 : s'.gs = Function.update s.gs 0 P) : Solo s' :=
  ⟨by rw [h1]; exact h.1, fun i hi => by
    obtain ⟨r, hr⟩ := h.2 i hi
    exact ⟨r, by rw [h2, Function.update_of_ne hi]; exact hr⟩⟩

theorem GA.mem {a : Access} {f : Heap C → Heap C} {k : Heap C → Prog (Heap C) V} (hf : CellFrame W h0 h)
    (g : GA W h0 post B (k h) (f h) X) : GA W h0 post (B + 1) (.mem a f k) h X := by
  intro s h1 h2 h3 h4 h5
  subst h4
  refine goodCell_cons h1 hf (s1 := { s with gs := Function.update s.gs 0 (k s.mem), mem := f s.mem }) (by simp [exec, h3]) ?_
  exact g _ (h1.upd rfl rfl) h2 (by simp) rfl h5

theorem GA.wgNew {n : Nat} {k : Nat → Prog (Heap C) V} (hf : CellFrame W h0 h)
    (g : ∀ w, GA W h0 post B (k w) h fun chans nC wgs nW => ∃ wgs0, X chans nC wgs0 w ∧ wgs = Function.update wgs0 w n ∧ nW = w + 1) :
    GA W h0 post (B + 1) (.wgNew n k) h X := by
  intro s h1 h2 h3 h4 h5
  subst h4
  refine goodCell_cons h1 hf (s1 := { s with
    gs := Function.update s.gs 0 (k s.nW), wgs := Function.update s.wgs s.nW n, nW := s.nW + 1 }) (by simp [exec, h3]) ?_
  exact g s.nW _ (h1.upd rfl rfl) h2 (by simp) rfl ⟨s.wgs, h5, rfl, rfl⟩

theorem GA.makeChan {n : Nat} {k : Nat → Prog (Heap C) V} (hf : CellFrame W h0 h)
    (g : ∀ c, GA W h0 post B (k c) h fun chans nC wgs nW =>
      ∃ chans0, X chans0 c wgs nW ∧ chans = Function.update chans0 c ⟨[], n, false⟩ ∧ nC = c + 1) :
    GA W h0 post (B + 1) (.make n k) h X := by
  intro s h1 h2 h3 h4 h5
  subst h4
  refine goodCell_cons h1 hf (s1 := { s.setChan s.nC ⟨[], n, false⟩ with
    gs := Function.update s.gs 0 (k s.nC), nC := s.nC + 1 }) (by simp [exec, h3]) ?_
  exact g s.nC _ (h1.upd rfl rfl) h2 (by simp) rfl ⟨s.chans, h5, rfl, rfl⟩

theorem GA.fill {tok : V} {c N : Nat} {k : Unit → Prog (Heap C) V} (hf : CellFrame W h0 h)
    (g : GA W h0 post B (k ()) h fun chans nC wgs nW =>
      ∃ chans0, X chans0 c wgs nW ∧ chans = Function.update chans0 c ⟨List.replicate N tok, N, false⟩ ∧ nC = c + 1) (m : Nat) :
    ∀ j, j + m = N → GA W h0 post (B + m) (loopP (fun _ _ next => .send c tok (next ())) k j m ()) h fun chans nC wgs nW =>
      ∃ chans0, X chans0 c wgs nW ∧ chans = Function.update chans0 c ⟨List.replicate j tok, N, false⟩ ∧ nC = c + 1 := by
  induction m with
  | zero =>
    intro j e
    obtain rfl : j = N := by omega
    exact g
  | succ m ih =>
    intro j e s h1 h2 h3 h4 h5
    subst h4
    obtain ⟨chans0, hX, hc, hnC⟩ := h5
    have hcc : s.chans c = ⟨List.replicate j tok, N, false⟩ := by rw [hc]; simp
    refine goodCell_cons (B := B + m) h1 hf (s1 := (s.setChan c ⟨List.replicate j tok ++ [tok], N, false⟩).goOn 0
      (loopP (fun _ _ next => .send c tok (next ())) k (j + 1) m ())) ?_ ?_
    · simp only [exec, h3, loopP, hcc, List.length_replicate, Bool.false_eq_true, if_false]
      rw [if_pos (by omega)]
    · refine ih (j + 1) (by omega) _ (h1.upd rfl rfl) h2 ?_ rfl ⟨chans0, hX, ?_, hnC⟩
      · simp [Conf.goOn]
      · simp only [Conf.goOn, Conf.setChan, hc, Function.update_idem]
        rw [List.replicate_succ']

theorem GA.semaphore {tok : V} {nCore : Int} (hn : 0 ≤ nCore) {k : Nat → Prog (Heap C) V} (hf : CellFrame W h0 h)
    (g : ∀ c, GA W h0 post B (k c) h fun chans nC wgs nW =>
      ∃ chans0, X chans0 c wgs nW ∧ chans = Function.update chans0 c ⟨List.replicate nCore.toNat tok, nCore.toNat, false⟩ ∧ nC = c + 1) :
    GA W h0 post (B + nCore.toNat + 1) (newSemaphoreP tok nCore k) h X := by
  unfold newSemaphoreP
  rw [if_neg (by omega)]
  refine GA.makeChan hf fun c => ?_
  refine (GA.fill (N := nCore.toNat) (tok := tok) (X := X) hf (g c) nCore.toNat 0 (by omega)).weaken ?_
  rintro a b d e ⟨chans0, hX, hc, hnC⟩
  exact ⟨chans0, hX, hc, hnC⟩

/-- A pool. -/
theorem GA.pool {p : Pool C V} (o : p.Ok) (hh : p.h1 = h) (hf : CellFrame W h0 h)
    (hW : ∀ w < p.n, ∀ c ∈ p.own0 w, c.1 < h0.next → c ∈ W)
    (hd : ∀ w < p.n, ∀ w' < p.n, w ≠ w' → Disjoint (p.own0 w) (p.own0 w')) (hro : ∀ w < p.n, Disjoint (p.own0 w) p.ro)
    (ha : ∀ w < p.n, ∀ c ∈ p.own0 w, c.1 < h.next)
    (hj : ∀ w < p.n, JobR p.ro p.endP (p.Q w) (p.len w) (p.job w) (p.own0 w) h)
    (hK : ∀ ow h', p.Owns ow h' → (∀ w < p.n, p.Q w (ow w) h') → GA W h0 post B p.K h' AnyX) :
    GA W h0 post (∑ w ∈ range p.n, (p.len w + 3) + (3 * p.n + 2) + B) (p.loop 0) h fun chans _ wgs _ =>
      chans p.sem = ⟨List.replicate p.N p.tok, p.N, false⟩ ∧ wgs p.wg = p.n := by
  intro s h1 h2 h3 h4 h5
  subst hh
  let q : Pool C V := { p with g0 := s.nG }
  refine Pool.start_good (p := q) ⟨o.cores, o.rd, o.code, o.ro⟩ hf hW ?_ h1 rfl h2 h3 h4 h5.1 h5.2 hd hro ha hj
  intro ow s' hov
  have ow' := hov.owns
  exact hK ow s'.mem ⟨ow'.disj, ow'.ro, ow'.alloc, ow'.allocRo, ow'.grow, ow'.keep, ow'.next, ow'.cells⟩ hov.results s' hov.solo hov.nG
    hov.rest rfl trivial

end

/-! ### Accesses of the caller -/

section
variable {F : Type} [Field F] [DecidableEq F] {W : Set (Nat × Nat)} {h0 : Heap (Cell F)} {post : Conf (Heap (Cell F)) (MsgH F) → Prop}
  {B : Nat} {h : Heap (Cell F)} {X : (Nat → Chan (MsgH F)) → Nat → (Nat → Nat) → Nat → Prop}

theorem GA.load {s : Slice} {i : Nat} {k : Cell F → CProg F} (hi : i < s.len) (hf : CellFrame W h0 h)
    (g : GA W h0 post B (k (h.get s i)) h X) : GA W h0 post (B + 1) (loadC s i k) h X := by
  unfold loadC
  rw [if_pos hi]
  exact GA.mem hf g

theorem GA.store {s : Slice} {i : Nat} {v : Cell F} {k : CProg F} (hi : i < s.len) (hf : CellFrame W h0 h)
    (g : GA W h0 post B k (h.put s i v) X) : GA W h0 post (B + 1) (storeC s i v k) h X := by
  unfold storeC
  rw [if_pos hi]
  exact GA.mem hf g

theorem GA.make {z : Cell F} {n : Nat} {k : Slice → CProg F} (hf : CellFrame W h0 h)
    (g : GA W h0 post B (k ⟨h.next, 0, n, n⟩) (h.alloc fun _ => z) X) : GA W h0 post (B + 1) (makeC z n k) h X :=
  GA.mem hf g

theorem CellFrame.alloc (hf : CellFrame W h0 h) (x : Nat → Cell F) : CellFrame W h0 (h.alloc x) := by
  refine ⟨hf.1.trans (Nat.le_succ _), fun c hc hw => ?_⟩
  rw [← hf.2 c hc hw]
  simp only [Heap.alloc]
  rw [Function.update_of_ne (by have := hf.1; omega)]

theorem CellFrame.put (hf : CellFrame W h0 h) {s : Slice} {i : Nat} (hs : s.arr < h0.next → (s.arr, s.off + i) ∈ W) (v : Cell F) :
    CellFrame W h0 (h.put s i v) := by
  refine ⟨hf.1, fun c hc hw => ?_⟩
  rw [← hf.2 c hc hw]
  simp only [Heap.put]
  by_cases e : c.1 = s.arr
  · rw [e, Function.update_self]
    rw [Function.update_of_ne]
    intro e2
    apply hw
    rw [← e] at hs
    rw [← e2] at hs
    exact hs hc
  · rw [Function.update_of_ne e]

end

/-! ### Accesses of the jobs -/

section
variable {F : Type} [Field F] [DecidableEq F] {ro own : Set (Nat × Nat)} {fin : CProg F} {Q : Set (Nat × Nat) → Heap (Cell F) → Prop}
  {h : Heap (Cell F)} {n : Nat}

theorem JobR.load {s : Slice} {i : Nat} {k : Cell F → CProg F} (hi : i < s.len) (hc : (s.arr, s.off + i) ∈ own ∪ ro)
    (g : JobR ro fin Q n (k (h.get s i)) own h) : JobR ro fin Q (n + 1) (loadC s i k) own h := by
  unfold loadC
  rw [if_pos hi]
  refine ⟨_, _, _, rfl, fun h' a => ⟨hc, le_rfl, fun _ _ _ => rfl, own, subset_rfl, fun c hc => .inl hc, fun c hc => (a c (.inl hc)).2, ?_⟩⟩
  have e : h'.get s i = h.get s i := (a _ hc).1
  simp only [e]
  exact g.agree a

theorem get_put_same (h : Heap (Cell F)) (s : Slice) (i : Nat) (v : Cell F) : (h.put s i v).cells s.arr (s.off + i) = v := by
  simp [Heap.put]

theorem get_put_ne (h : Heap (Cell F)) (s : Slice) (i : Nat) (v : Cell F) {a j : Nat} (hne : ¬ (a = s.arr ∧ j = s.off + i)) :
    (h.put s i v).cells a j = h.cells a j := by
  simp only [Heap.put]
  by_cases e : a = s.arr
  · subst e
    rw [Function.update_self, Function.update_of_ne (fun e => hne ⟨rfl, e⟩)]
  · rw [Function.update_of_ne e]

theorem AgreeC.put {A : Set (Nat × Nat)} {h h' : Heap (Cell F)} (a : AgreeC A h h') (s : Slice) (i : Nat) (v : Cell F) :
    AgreeC A (h.put s i v) (h'.put s i v) := by
  intro c hc
  refine ⟨?_, (a c hc).2⟩
  by_cases e : c.1 = s.arr ∧ c.2 = s.off + i
  · rw [e.1, e.2, get_put_same, get_put_same]
  · rw [get_put_ne _ _ _ _ e, get_put_ne _ _ _ _ e]; exact (a c hc).1

theorem JobR.store {s : Slice} {i : Nat} {v : Cell F} {k : CProg F} (hi : i < s.len) (hc : (s.arr, s.off + i) ∈ own)
    (g : JobR ro fin Q n k own (h.put s i v)) : JobR ro fin Q (n + 1) (storeC s i v k) own h := by
  unfold storeC
  rw [if_pos hi]
  refine ⟨_, _, _, rfl, fun h' a => ⟨hc, le_rfl, ?_, own, subset_rfl, fun c hc => .inl hc, fun c hc => (a c (.inl hc)).2,
    g.agree (a.put s i v)⟩⟩
  intro c hno _
  apply get_put_ne
  rintro ⟨e1, e2⟩
  apply hno
  rw [← e1, ← e2] at hc
  exact hc

theorem JobR.make {z : Cell F} {m : Nat} {k : Slice → CProg F}
    (g : ∀ h', AgreeC (own ∪ ro) h h' → JobR ro fin Q n (k ⟨h'.next, 0, m, m⟩) (own ∪ {c | c.1 = h'.next}) (h'.alloc fun _ => z)) :
    JobR ro fin Q (n + 1) (makeC z m k) own h := by
  refine ⟨_, _, _, rfl, fun h' a => ⟨trivial, Nat.le_succ _, ?_, own ∪ {c | c.1 = h'.next}, Set.subset_union_left, ?_, ?_, g h' a⟩⟩
  · intro c _ hlt
    simp only [Heap.alloc]
    rw [Function.update_of_ne (by omega)]
  · rintro c (hc | hc)
    · exact .inl hc
    · exact .inr (le_of_eq hc.symm)
  · rintro c (hc | hc)
    · exact (a c (.inl hc)).2.trans (Nat.lt_succ_self _)
    · rw [show c.1 = h'.next from hc]; exact Nat.lt_succ_self _

end

end GkrMimc
