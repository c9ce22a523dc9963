import Verif.Props.Chunking
import Verif.Props.ConcMimc

/-! Property C73 over shared memory: neither the chunks nor the schedule changes the proof. -/

namespace GkrMimc

open Spec

/-- C73 over shared memory. Take two memories that hold two chunkings of the same inputs, and any numbers of cores. Then there is one
proof that `Assign`, `NewProver` and `Prove` return on both, under all schedules, without a race, a panic or a deadlock. -/
theorem C73_schedules {F : Type} [Field F] [DecidableEq F] [SmallCasts F] (H : List F → F) (wiring : List (List (Wire F)))
    (hne : wiring ≠ []) (hw : ∀ ws ∈ wiring, GoodWires ws) (G k m k' m' : Nat) (hN : m + k = m' + k')
    (hG : Chained G (newCircuit wiring).layers) (hR : ∀ ws ∈ wiring, ∀ w ∈ ws, w.R = 0)
    (ins ins' : List (List F)) (hin : WellChunked k (G + m) ins) (hin' : WellChunked k' (G + m') ins')
    (heq : interleave (2 ^ k) (2 ^ (G + m)) ins = interleave (2 ^ k') (2 ^ (G + m')) ins')
    (h h' : Heap (Cell F)) (inputs inputs' : Slice) (hv : HoldsTables h inputs ins) (hv' : HoldsTables h' inputs' ins')
    (n n' : Int) (hn : 1 ≤ n) (hn' : 1 ≤ n') :
    ∃ proof bound bound',
      GoodCellRun ∅ h (fun s => s.gs 0 = .ret (.proof proof) ∧ HoldsTables s.mem inputs ins) bound
        (startOf (assignProveC H (newCircuit wiring) inputs n) h .tok) ∧
      GoodCellRun ∅ h' (fun s => s.gs 0 = .ret (.proof proof) ∧ HoldsTables s.mem inputs' ins') bound'
        (startOf (assignProveC H (newCircuit wiring) inputs' n') h' .tok) := by
  obtain ⟨p, p', proof, g1, g2, g3, g4⟩ := C73_proof H wiring hne hw G k m k' m' hN hG ins ins' hin hin' heq n n' hn hn'
  have ha := C12_assign_partial wiring G (2 ^ m) ins n hn hG (fun ws h w hw => .inl (hR ws h w hw)) (by
    intro c hc; rw [← pow_add]; exact hin.2 c hc)
  have hb := C12_assign_partial wiring G (2 ^ m') ins' n' hn' hG (fun ws h w hw => .inl (hR ws h w hw)) (by
    intro c hc; rw [← pow_add]; exact hin'.2 c hc)
  obtain ⟨b, r⟩ := C50_assignProve H _ h inputs ins _ _ n p proof hn hv ha
    (even_of_honest (honest_of_wired wiring hne hw G k m hG ins hin)) g1 g3
  obtain ⟨b', r'⟩ := C50_assignProve H _ h' inputs' ins' _ _ n' p' proof hn' hv' hb
    (even_of_honest (honest_of_wired wiring hne hw G k' m' hG ins' hin')) g2 g4
  exact ⟨proof, b, b', r, r'⟩

/-- A memory with one chunk that holds the two instances which are two chunks in `gkrHeap`. -/
def oneChunkHeap : Heap (Cell Fr) where
  cells a i := if a = 0 then .hdr ⟨1, 0, 4, 4⟩ else .elem ([1, 3, 2, 4].getD i 0)
  next := 2
  extra _ := 0

theorem oneChunkHeap_inputs : HoldsTables oneChunkHeap ⟨0, 0, 1, 1⟩ [[1, 3, 2, 4]] := by
  have v : ∀ s : Slice, s.len = s.cap → s.arr < 2 → Valid oneChunkHeap s := fun s h1 h2 => ⟨h1.le, fun _ => h2⟩
  refine ⟨v _ rfl (by decide), [⟨1, 0, 4, 4⟩], rfl, .cons ⟨v _ rfl (by decide), ?_⟩ .nil⟩
  simp [Heap.vals, Heap.get, oneChunkHeap, List.range_succ]

/-- Two instances of the two-layer circuit: in two chunks on four cores, and in one chunk on one core. -/
example (H : List Fr → Fr) : ∃ proof bound bound',
    GoodCellRun ∅ gkrHeap (fun s => s.gs 0 = .ret (.proof proof) ∧ HoldsTables s.mem ⟨1, 0, 2, 2⟩ [[1, 2], [3, 4]]) bound
      (startOf (assignProveC H (newCircuit miniWiring) ⟨1, 0, 2, 2⟩ 4) gkrHeap .tok) ∧
    GoodCellRun ∅ oneChunkHeap (fun s => s.gs 0 = .ret (.proof proof) ∧ HoldsTables s.mem ⟨0, 0, 1, 1⟩ [[1, 3, 2, 4]]) bound'
      (startOf (assignProveC H (newCircuit miniWiring) ⟨0, 0, 1, 1⟩ 1) oneChunkHeap .tok) := by
  refine C73_schedules H miniWiring (by simp [miniWiring]) miniWiring_good 1 1 0 0 1 rfl ⟨by decide +kernel, by decide +kernel, trivial⟩
    ?_ _ _ ⟨rfl, by simp⟩ ⟨rfl, by simp⟩ (by decide +kernel) gkrHeap oneChunkHeap _ _ gkrHeap_inputs oneChunkHeap_inputs 4 1
    (by decide) (by decide)
  intro ws hws w hw
  simp only [miniWiring, List.mem_cons, List.not_mem_nil, or_false] at hws
  rcases hws with rfl | rfl <;> simp only [List.mem_cons, List.not_mem_nil, or_false] at hw
  · rcases hw with rfl | rfl <;> rfl
  · subst hw; rfl

end GkrMimc
