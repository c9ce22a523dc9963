import Verif.Proofs.ConcAttain
import Verif.Proofs.CrashProveEnd
import Verif.Model.ConcGkrProve

/-! Properties C70, C71 for the whole pipeline `Assign`, `NewProver`, `Prove` over shared memory: with a negative number of cores it
panics, with zero cores it blocks for ever. -/

set_option linter.unusedSectionVars false

namespace GkrMimc

open Spec

section
variable {M V : Type}

/-- Main is launching workers that wait for a token of an empty semaphore, or waits for them. -/
structure IdlePool (n c w : Nat) (mains : Nat → Prog M V) (j : Nat) (s : Conf M V) : Prop where
  alive : s.crashed = none
  count : s.nG = j + 1
  le : j ≤ n
  main : s.gs 0 = mains j
  workers : ∀ i, 1 ≤ i → i ≤ j → ∃ k, s.gs i = .recv c k
  others : ∀ i, j < i → ∃ r, s.gs i = .ret r
  chan : s.chans c = ⟨[], 0, false⟩
  wg : s.wgs w = n

/-- Workers that wait for a token of a semaphore without tokens never get one. -/
theorem idlePool_deadlocks {n c w : Nat} (hn : 0 < n) {mains : Nat → Prog M V}
    (h1 : ∀ j < n, ∃ K, mains j = .go (.recv c K) (mains (j + 1))) (h2 : ∃ k, mains n = .wgWait w k) {s : Conf M V}
    (h : IdlePool n c w mains 0 s) : Deadlocks n s := by
  have step : ∀ j s s', IdlePool n c w mains j s → Step s s' → IdlePool n c w mains (j + 1) s' := by
    intro j s s' h hs
    obtain ⟨_, ⟨i, hi⟩ | ⟨i, i', c', v, k, k', _, hi, _⟩⟩ := hs
    · rcases Nat.eq_zero_or_pos i with rfl | hpos
      · rcases Nat.lt_or_ge j n with hj | hj
        · obtain ⟨K, hK⟩ := h1 j hj
          unfold exec at hi
          rw [h.main, hK] at hi
          dsimp only at hi
          obtain rfl := Option.some.inj hi
          have hc := h.count
          refine ⟨h.alive, by simp [hc], hj, ?_, ?_, ?_, h.chan, h.wg⟩
          · simp [Function.update_apply, hc]
          · intro i a b
            by_cases e : i = j + 1
            · exact ⟨K, by simp [hc, e]⟩
            · obtain ⟨k, hk⟩ := h.workers i a (by omega)
              exact ⟨k, by simpa [Function.update_apply, hc, e, show i ≠ 0 by omega] using hk⟩
          · intro i a
            obtain ⟨r, hr⟩ := h.others i (by omega)
            exact ⟨r, by simpa [Function.update_apply, hc, show i ≠ j + 1 by omega, show i ≠ 0 by omega] using hr⟩
        · obtain rfl : j = n := Nat.le_antisymm h.le hj
          obtain ⟨k, hk⟩ := h2
          simp [exec, h.main, hk, h.wg, show j ≠ 0 by omega] at hi
      · rcases Nat.lt_or_ge j i with hj | hj
        · obtain ⟨r, hr⟩ := h.others i hj
          simp [exec, hr] at hi
        · obtain ⟨k, hk⟩ := h.workers i hpos hj
          simp [exec, hk, h.chan] at hi
    · exfalso
      rcases Nat.eq_zero_or_pos i with rfl | hpos
      · rw [h.main] at hi
        rcases Nat.lt_or_ge j n with hj | hj
        · obtain ⟨K, hK⟩ := h1 j hj
          rw [hK] at hi; cases hi
        · obtain rfl : j = n := Nat.le_antisymm h.le hj
          obtain ⟨k, hk⟩ := h2
          rw [hk] at hi; cases hi
      · rcases Nat.lt_or_ge j i with hj | hj
        · obtain ⟨r, hr⟩ := h.others i hj
          rw [hr] at hi; cases hi
        · obtain ⟨k, hk⟩ := h.workers i hpos hj
          rw [hk] at hi; cases hi
  have reach : ∀ t s', ReachIn s t s' → IdlePool n c w mains t s' := by
    intro t s' hr
    induction hr with
    | zero => exact h
    | step _ hs ih => exact step _ _ _ ih hs
  intro t s' hr
  have hp := reach t s' hr
  refine ⟨hp.le, hp.alive, ?_⟩
  rintro ⟨r, hr⟩
  rw [hp.main] at hr
  rcases Nat.lt_or_ge t n with hj | hj
  · obtain ⟨K, hK⟩ := h1 t hj
    rw [hK] at hr; cases hr
  · obtain rfl : t = n := Nat.le_antisymm hp.le hj
    obtain ⟨k, hk⟩ := h2
    rw [hk] at hr; cases hr

theorem soloConf_access (unit : V) (a : Access) (f : M → M) (k : M → Prog M V) (chans : Nat → Chan V) (nC : Nat) (wgs : Nat → Nat) (nW : Nat)
    (m : M) : exec (soloConf unit (.mem a f k) chans nC wgs nW m) 0 = some (soloConf unit (k m) chans nC wgs nW (f m)) := by
  simp [exec, soloConf]

end

variable {F : Type} [Field F] [DecidableEq F]

theorem deadlocks_cons_ex {M V : Type} {s s1 : Conf M V} (h : Solo s) (h1 : exec s 0 = some s1) (hB : ∃ B, Deadlocks B s1) : ∃ B, Deadlocks B s :=
  hB.elim fun _ hB => ⟨_, deadlocks_cons h h1 hB⟩

theorem crashes_cons_ex {M V : Type} {E : Abort → Prop} {s s1 : Conf M V} (h : Solo s) (h1 : exec s 0 = some s1) (hB : ∃ B, Crashes E B s1) :
    ∃ B, Crashes E B s :=
  hB.elim fun _ hB => ⟨_, crashes_cons h h1 hB⟩

theorem storeC_in {s : Slice} {i : Nat} (h : i < s.len) (v : Cell F) (k : CProg F) :
    storeC s i v k = .mem (.write s.arr (s.off + i)) (fun h => h.put s i v) (fun _ => k) := if_pos h

theorem loadC_in {s : Slice} {i : Nat} (h : i < s.len) (k : Cell F → CProg F) :
    loadC s i k = .mem (.read s.arr (s.off + i)) id (fun h => k (h.get s i)) := if_pos h

/-- The start of the pipeline: three accesses to the memory, then the first layer is evaluated on the inputs. -/
theorem pipeline_start (H : List F → F) (l : Layer F) (ls : List (Layer F)) (inputs : Slice) (nCore : Int) (h0 : Heap (Cell F))
    (P : Conf (Heap (Cell F)) (MsgH F) → Prop) (hP : ∀ s s1, Solo s → exec s 0 = some s1 → P s1 → P s)
    (h : ∀ (K : MsgH F → CProg F) (k : CProg F) (res : Slice) (mem : Heap (Cell F)), P (soloConf .tok (Prog.andThen K (newSemaphoreP .tok nCore fun sem =>
      .wgNew inputs.len fun wg => loopP (fun i _ next => .go (acquireP sem <| l.evaluateJobC inputs res i (jobEndC sem wg)) (next ()))
        (fun _ => .wgWait wg <| closeSemP sem k) 0 inputs.len ())) (fun _ => ⟨[], 0, false⟩) 0 (fun _ => 0) 0 mem)) :
    P (startOf (assignProveC H ⟨l :: ls⟩ inputs nCore) h0 .tok) := by
  rw [start_eq]
  unfold assignProveC Circuit.assignC makeS makeC
  refine hP _ _ (soloConf_solo _ _ _ _ _ _ _) (soloConf_access _ _ _ _ _ _ _ _ _) ?_
  dsimp only
  rw [storeC_in (by simp)]
  refine hP _ _ (soloConf_solo _ _ _ _ _ _ _) (soloConf_access _ _ _ _ _ _ _ _ _) ?_
  dsimp only
  rw [List.length_cons, loopP]
  simp only [show idx (l :: ls) 0 = .ok l from rfl, liftGo, loadS]
  rw [loadC_in (by simp)]
  refine hP _ _ (soloConf_solo _ _ _ _ _ _ _) (soloConf_access _ _ _ _ _ _ _ _ _) ?_
  dsimp only
  rw [show ∀ (g : Heap (Cell F)) (s : Slice), (Heap.get (g.put s 0 (.hdr inputs)) s 0).toHdr = inputs by
    intro g s; simp [Heap.get, Heap.put, Cell.toHdr]]
  unfold Layer.evaluateC makeS makeC
  refine hP _ _ (soloConf_solo _ _ _ _ _ _ _) (soloConf_access _ _ _ _ _ _ _ _ _) ?_
  exact h _ _ _ _

theorem andThen_loopP_go {M V : Type} (K : V → Prog M V) (job : Nat → Prog M V) (k : Prog M V) : ∀ (n j : Nat),
    (loopP (fun i _ next => .go (job i) (next ())) (fun _ => k) j n ()).andThen K =
      loopP (fun i _ next => .go (job i) (next ())) (fun _ => k.andThen K) j n ()
  | 0, _ => rfl
  | n + 1, j => by
    rw [loopP, loopP, Prog.andThen, andThen_loopP_go K job k n (j + 1)]

/-- C71: with zero cores, the pipeline `Assign`, `NewProver`, `Prove` on at least one chunk of inputs neither panics nor returns, whatever the
circuit (with at least one layer), the inputs and the memory. -/
theorem C71_pipeline (H : List F → F) (c : Circuit F) (hl : c.layers ≠ []) (inputs : Slice) (hi : 0 < inputs.len) (h0 : Heap (Cell F)) :
    ∃ bound, Deadlocks bound (startOf (assignProveC H c inputs 0) h0 .tok) := by
  obtain ⟨layers⟩ := c
  obtain ⟨l, ls, rfl⟩ := List.exists_cons_of_ne_nil hl
  refine pipeline_start H l ls inputs 0 h0 (fun s => ∃ B, Deadlocks B s) (fun _ _ => deadlocks_cons_ex) fun K k res mem => ?_
  unfold newSemaphoreP
  rw [if_neg (by omega)]
  refine deadlocks_cons_ex (soloConf_solo _ _ _ _ _ _ _) (soloConf_make _ _ _ _ _ _ _ _) ?_
  refine deadlocks_cons_ex (soloConf_solo _ _ _ _ _ _ _) (soloConf_wgNew _ _ _ _ _ _ _ _) ?_
  rw [andThen_loopP_go]
  refine ⟨_, idlePool_deadlocks (c := 0) (w := 0) hi (mains := fun j => loopP (fun i _ next =>
    .go (acquireP 0 <| l.evaluateJobC inputs res i (jobEndC 0 0)) (next ())) _ j (inputs.len - j) ()) ?_ ?_ ⟨rfl, rfl, Nat.zero_le _, rfl, ?_, ?_, ?_, ?_⟩⟩
  · intro j hj
    obtain ⟨r, hr⟩ : ∃ r, inputs.len - j = r + 1 := ⟨inputs.len - j - 1, by omega⟩
    rw [hr, show inputs.len - (j + 1) = r by omega]
    exact ⟨_, rfl⟩
  · rw [Nat.sub_self]
    exact ⟨_, rfl⟩
  · intro i h1 h2; omega
  · intro i hi
    exact ⟨.tok, by simp [soloConf, show i ≠ 0 by omega]⟩
  · simp [soloConf]
  · simp [soloConf]

/-- C70: with a negative number of cores the pipeline panics under all schedules. -/
theorem C70_pipeline (H : List F → F) (c : Circuit F) (hl : c.layers ≠ []) (inputs : Slice) (nCore : Int) (hn : nCore < 0) (h0 : Heap (Cell F)) :
    ∃ bound, Crashes (· = .makeNeg) bound (startOf (assignProveC H c inputs nCore) h0 .tok) := by
  obtain ⟨layers⟩ := c
  obtain ⟨l, ls, rfl⟩ := List.exists_cons_of_ne_nil hl
  refine pipeline_start H l ls inputs nCore h0 (fun s => ∃ B, Crashes _ B s) (fun _ _ => crashes_cons_ex) fun K k res mem => ?_
  unfold newSemaphoreP
  rw [if_pos hn]
  exact ⟨1, crashes_now (E := (· = .makeNeg)) (e := .makeNeg) rfl _ _ _ _ _ _⟩

/-- The hypotheses are met: one layer, two chunks. -/
example (h0 : Heap (Cell Fr)) : ∃ bound, Deadlocks bound
    (startOf (assignProveC (fun _ => 3) (newCircuit [[⟨0, 0, 0, addGate⟩]]) ⟨0, 0, 2, 2⟩ 0) h0 .tok) :=
  C71_pipeline _ _ (by simp [newCircuit]) _ (by decide) h0

end GkrMimc
