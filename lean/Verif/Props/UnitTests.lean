import Verif.Model.UnitTests
import Verif.Props.Tests
import Verif.Props.SumcheckTesting
import Verif.Props.InitialPoint

/-! Property C59: the unit tests of the repository succeed for every random draw and for all sizes at which they can. -/

set_option linter.unusedSectionVars false

namespace GkrMimc

open Spec

variable {F : Type} [Field F] [DecidableEq F]

/-! ### The eq tables -/

/-- C59. `TestGetFoldedEqTable` for all four values. -/
theorem C59_foldedEq (a b c d : F) : ∃ t, foldedEqTest a b c d = .ok (t, t) := by
  refine ⟨correctFoldedEqTable a b c d, ?_⟩
  unfold foldedEqTest
  rw [getFoldedEqTable_eq, ok_bind, go_pure]
  congr 2
  have t16 : ∀ f : Nat → F, tab (2 ^ [a, b, c, d].length) f =
    [f 0, f 1, f 2, f 3, f 4, f 5, f 6, f 7, f 8, f 9, f 10, f 11, f 12, f 13, f 14, f 15] := fun f => rfl
  rw [t16]
  have h4 : ∀ i, chi [a, b, c, d] i = (if i.testBit 3 then a else 1 - a) * (if i.testBit 2 then b else 1 - b) *
      (if i.testBit 1 then c else 1 - c) * (if i.testBit 0 then d else 1 - d) := fun i => by
    unfold chi
    exact Fin.prod_univ_four _
  simp [correctFoldedEqTable, h4, Nat.testBit_eq_decide_div_mod_eq, mul_assoc]

theorem randomFrArray_length (draw : Nat → F) (s n : Nat) : (randomFrArray draw s n).length = n := by
  simp [randomFrArray]

theorem wellChunked_chunksOf (k m : Nat) (f : Nat → F) : WellChunked k m (chunksOf (2 ^ k) (2 ^ m) f) := by
  refine ⟨by simp, ?_⟩
  simp [chunksOf, tab]

theorem idx2_chunksOf {n m s u : Nat} (hs : s < n) (hu : u < m) (f : Nat → F) : idx2 (chunksOf n m f) s u = .ok (f (u * n + s)) := by
  unfold idx2 chunksOf
  rw [idx_tab hs, ok_bind, idx_tab hu]

/-- C59. `TestChunked` for all sizes, draws and tested positions: no panic, and every compared pair is equal. At least two chunks are
needed (see `C59_chunked_one`), and the common part of the mixed evaluation has to contain the coordinates of the chunks. -/
theorem C59_chunked (draw : Nat → F) (start nEvals logSize k mixed : Nat) (us ss : List Nat) (hk : 1 ≤ k) (hm : k + mixed ≤ logSize)
    (hs : us.length ≤ ss.length) :
    ∃ pairs, chunkedCase draw start nEvals logSize k mixed us ss = .ok pairs ∧ (∀ p ∈ pairs, p.1 = p.2) ∧
      pairs.length = 2 + us.length + 3 * nEvals := by
  obtain ⟨m, rfl⟩ : ∃ m, logSize = mixed + m + k := ⟨logSize - k - mixed, by omega⟩
  unfold chunkedCase
  set q := randomFrArray draw start (mixed + m + k) with hq
  have hql : q.length = mixed + m + k := randomFrArray_length _ _ _
  have he : getChunkedEqTable q (1 <<< k) 1 = .ok (chunksOf (2 ^ k) (2 ^ (mixed + m)) (chi q)) := by
    obtain ⟨a, b, e, ha, hb⟩ : ∃ a b : List F, q = a ++ b ∧ a.length = mixed + m ∧ b.length = k :=
      ⟨q.take (mixed + m), q.drop (mixed + m), by simp, by simp [hql], by simp [hql]⟩
    rw [e, ← hb, ← ha, Nat.shiftLeft_eq, one_mul]
    exact getChunkedEqTable_eq a b le_rfl
  have ht : getFoldedEqTable q = .ok (tab (2 ^ (mixed + m + k)) (chi q)) := by
    rw [getFoldedEqTable_eq, hql]
  have hk0 : 0 < 2 ^ k := Nat.two_pow_pos _
  have hc0 : 0 < 2 ^ (mixed + m) := Nat.two_pow_pos _
  have hprod : 2 ^ (mixed + m + k) = 2 ^ (mixed + m) * 2 ^ k := pow_add _ _ _
  have hn0 : 0 < 2 ^ (mixed + m + k) := Nat.two_pow_pos _
  have pos : ∀ u s, u < 2 ^ (mixed + m) → s < 2 ^ k → u * 2 ^ k + s < 2 ^ (mixed + m + k) := by
    intro u s hu hs
    rw [hprod]
    calc u * 2 ^ k + s < u * 2 ^ k + 2 ^ k := by omega
      _ = (u + 1) * 2 ^ k := by ring
      _ ≤ _ := Nat.mul_le_mul_right _ hu
  have hint : interleave (2 ^ k) (2 ^ (mixed + m)) (chunksOf (2 ^ k) (2 ^ (mixed + m)) (chi q)) =
      tab (2 ^ (mixed + m + k)) (chi q) := by rw [interleave_chunksOf, hprod]
  dsimp only
  have hlast : 2 ^ (mixed + m + k) - 1 = (2 ^ (mixed + m) - 1) * 2 ^ k + (2 ^ k - 1) := by
    rw [hprod]
    obtain ⟨c, hc⟩ := Nat.exists_eq_succ_of_ne_zero hc0.ne'
    rw [hc, Nat.succ_sub_one, Nat.succ_mul]
    omega
  have s1 : 1 <<< (mixed + m + k) = 2 ^ (mixed + m + k) := by rw [Nat.shiftLeft_eq, one_mul]
  have s2 : 1 <<< k = 2 ^ k := by rw [Nat.shiftLeft_eq, one_mul]
  have s3 : 1 <<< (mixed + m + k - k) = 2 ^ (mixed + m) := by rw [Nat.shiftLeft_eq, one_mul, Nat.add_sub_cancel]
  rw [he, ok_bind, ht, ok_bind, s1, s2, s3, idx_tab (by omega), ok_bind, idx2_chunksOf hk0 hc0, ok_bind, idx_tab (by omega), ok_bind,
    idx2_chunksOf (by omega) (by omega), ok_bind]
  rw [gen_ok (fun k' => (chi q ((us.getD k' 0 % 2 ^ (mixed + m)) * 2 ^ k + ss.getD k' 0 % 2 ^ k),
      chi q ((us.getD k' 0 % 2 ^ (mixed + m)) * 2 ^ k + ss.getD k' 0 % 2 ^ k))) us.length, ok_bind]
  rotate_left
  · intro i hi
    have b1 := Nat.mod_lt (us.getD i 0) hc0
    have b2 := Nat.mod_lt (ss.getD i 0) hk0
    rw [idx_getD hi 0, ok_bind, idx_getD (by omega) 0, ok_bind, idx_tab (pos _ _ b1 b2), ok_bind, idx2_chunksOf b2 b1]
    rfl
  have hev : ∀ h : List F, h.length = mixed + m + k → ∃ v, evaluate (tab (2 ^ (mixed + m + k)) (chi q)) h = .ok v ∧
      evaluateChunked (chunksOf (2 ^ k) (2 ^ (mixed + m)) (chi q)) h = .ok v := by
    intro h hl
    refine ⟨mle (tab (2 ^ (mixed + m + k)) (chi q)) h, ?_, ?_⟩
    · exact evaluate_eq _ _ (by simp [hl])
    · rw [C07_evaluateChunked_partial k (mixed + m) hk _ (wellChunked_chunksOf _ _ _) h (by omega), hint]
      exact evaluate_eq _ _ (by simp [hl])
  have hmix : ∀ h hL hR : List F, h.length = m + k → hL.length = mixed → hR.length = mixed →
      ∃ v : F × F, evaluateMixedChunked (chunksOf (2 ^ k) (2 ^ (mixed + m)) (chi q)) h hL hR = .ok v ∧
        evaluateLeftAndRight (tab (2 ^ (mixed + m + k)) (chi q)) h hL hR = .ok v := by
    intro h hL hR h1 h2 h3
    have e : evaluateLeftAndRight (tab (2 ^ (mixed + m + k)) (chi q)) h hL hR =
        .ok (mle (tab (2 ^ (mixed + m + k)) (chi q)) (hL ++ h), mle (tab (2 ^ (mixed + m + k)) (chi q)) (hR ++ h)) := by
      unfold evaluateLeftAndRight
      rw [evaluate_eq _ _ (by simp [h1, h2]; ring), ok_bind, evaluate_eq _ _ (by simp [h1, h3]; ring), ok_bind]
      rfl
    refine ⟨_, ?_, e⟩
    have := C07_evaluateMixedChunked_partial k m hk (chunksOf (2 ^ k) (2 ^ (mixed + m)) (chi q)) h hL hR (by omega) h1
      (by rw [h2]; exact wellChunked_chunksOf _ _ _)
    rw [this, h2, hint, e]
  choose! v hv1 hv2 using hev
  choose! w hw1 hw2 using hmix
  rw [gen_ok (fun i => (v (randomFrArray draw (start + (mixed + m + k) + i * (mixed + m + k)) (mixed + m + k)),
    v (randomFrArray draw (start + (mixed + m + k) + i * (mixed + m + k)) (mixed + m + k)))) nEvals, ok_bind]
  rotate_left
  · intro i hi
    rw [hv1 _ (randomFrArray_length _ _ _), ok_bind, hv2 _ (randomFrArray_length _ _ _)]
    rfl
  have e5 : mixed + m + k - mixed = m + k := by omega
  rw [e5, gen_ok (fun i =>
    let z := w (randomFrArray draw (start + (mixed + m + k) + nEvals * (mixed + m + k) + i * (mixed + m + k + mixed)) (m + k))
      (randomFrArray draw (start + (mixed + m + k) + nEvals * (mixed + m + k) + i * (mixed + m + k + mixed) + (m + k)) mixed)
      (randomFrArray draw (start + (mixed + m + k) + nEvals * (mixed + m + k) + i * (mixed + m + k + mixed) + (mixed + m + k)) mixed)
    ((z.1, z.1), (z.2, z.2))) nEvals, ok_bind]
  rotate_left
  · intro i hi
    rw [hw1 _ _ _ (randomFrArray_length _ _ _) (randomFrArray_length _ _ _) (randomFrArray_length _ _ _), ok_bind,
      hw2 _ _ _ (randomFrArray_length _ _ _) (randomFrArray_length _ _ _) (randomFrArray_length _ _ _)]
    rfl
  refine ⟨_, rfl, ?_, ?_⟩
  · intro p hp
    simp only [tab, List.cons_append, List.mem_cons, List.mem_append, List.mem_map, List.map_map] at hp
    rcases hp with rfl | rfl | ((⟨i, _, rfl⟩ | ⟨i, _, rfl⟩) | ⟨i, _, rfl⟩) | ⟨i, _, rfl⟩
    · simp
    · dsimp only; rw [hlast]
    all_goals rfl
  · simp; omega


/-- C59. With one chunk the test panics (finding C07). -/
theorem C59_chunked_one (draw : Nat → F) (start nEvals logSize mixed : Nat) (us ss : List Nat) (hn : 1 ≤ nEvals) :
    ∃ e, chunkedCase draw start nEvals logSize 0 mixed us ss = .error e := by
  cases h : chunkedCase draw start nEvals logSize 0 mixed us ss with
  | error e => exact ⟨e, rfl⟩
  | ok r =>
    exfalso
    unfold chunkedCase at h
    simp only [bind_eq_ok] at h
    obtain ⟨eqc, h1, eq, h2, a0, h3, b0, h4, a1, h5, b1, h6, ps, h7, es, h8, -⟩ := h
    have hc : eqc = chunksOf (2 ^ 0) (2 ^ logSize) (chi (randomFrArray draw start logSize)) := by
      have := getChunkedEqTable_eq (randomFrArray draw start logSize) ([] : List F) (nCore := 1) le_rfl
      rw [List.append_nil, List.length_nil] at this
      have e1 : 1 <<< 0 = 2 ^ 0 := rfl
      rw [e1, this] at h1
      rw [← Except.ok.inj h1, randomFrArray_length]
    obtain ⟨l, h9⟩ := gen_ok_iff h8
    have := h9 0 (by omega)
    simp only [bind_eq_ok] at this
    obtain ⟨x, _, y, hy, _⟩ := this
    rw [hc] at hy
    have e2 : chunksOf (2 ^ 0) (2 ^ logSize) (chi (randomFrArray draw start logSize)) =
      [tab (2 ^ logSize) fun u => chi (randomFrArray draw start logSize) (u * 1 + 0)] := rfl
    rw [e2, C07_single_chunk_panics] at hy
    cases hy

theorem mapGo_three {α β : Type} {f : α → Go β} {a b c : α} {x y z : β} (h1 : f a = .ok x) (h2 : f b = .ok y) (h3 : f c = .ok z) :
    mapGo f [a, b, c] = .ok [x, y, z] := by
  simp only [mapGo, h1, h2, h3]

/-- C59. `TestChunked` itself. -/
theorem C59_testChunked (draw : Nat → F) : ∃ r, testChunked draw = .ok r ∧ r.length = 3 ∧ ∀ ps ∈ r, ps.length = 35 ∧ ∀ p ∈ ps, p.1 = p.2 := by
  have key : ∀ us ss : List Nat, us.length = 3 → ss.length = 3 → ∃ r, mapGo (fun (start, logSize, logNChunks, mixedSize) =>
      chunkedCase draw start 10 logSize logNChunks mixedSize us ss) [(0, 10, 5, 3), (240, 10, 1, 3), (480, 10, 4, 1)] = .ok r ∧
      r.length = 3 ∧ ∀ ps ∈ r, ps.length = 35 ∧ ∀ p ∈ ps, p.1 = p.2 := by
    intro us ss hu hs
    obtain ⟨r1, h1, e1, l1⟩ := C59_chunked draw 0 10 10 5 3 us ss (by omega) (by omega) (by omega)
    obtain ⟨r2, h2, e2, l2⟩ := C59_chunked draw 240 10 10 1 3 us ss (by omega) (by omega) (by omega)
    obtain ⟨r3, h3, e3, l3⟩ := C59_chunked draw 480 10 10 4 1 us ss (by omega) (by omega) (by omega)
    refine ⟨[r1, r2, r3], ?_, rfl, ?_⟩
    · exact mapGo_three h1 h2 h3
    · intro ps hps
      simp only [List.mem_cons, List.not_mem_nil, or_false] at hps
      rcases hps with rfl | rfl | rfl
      · exact ⟨by omega, e1⟩
      · exact ⟨by omega, e2⟩
      · exact ⟨by omega, e3⟩
  exact key _ _ rfl rfl

/-! ### The sumcheck provers -/

/-- C59. `TestMultiThreaded` for every `bN` and every number `2^k ≤ 2^bN` of chunks: the provers agree on the claims and on everything
that `Prove` returns, and the verifier accepts. -/
theorem C59_multiThreaded [SmallCasts F] (H : List F → F) (toStr : F → String) (bN k : Nat) (hk : k ≤ bN) :
    ∃ claim out, multiThreadedTest H toStr bN (2 ^ k) = .ok ⟨[(claim, claim), (claim, claim)], [(out, out)], true⟩ := by
  obtain ⟨p, s, claim, out, fc, h1, h2, h3, h4, h5, h6, h7, -⟩ := C46_same_proof H toStr bN k hk 3 (by omega)
  obtain ⟨p', s', claim', out', fc', g1, g2, g3, g4, g5, g6, g7, -⟩ := C46_same_proof H toStr bN k hk 1 le_rfl
  rw [h1] at g1; cases g1
  rw [h2] at g2; cases g2
  rw [h3] at g3; cases g3
  rw [h5] at g5; cases g5
  refine ⟨claim, out, ?_⟩
  unfold multiThreadedTest
  rw [h1, ok_bind, h2, ok_bind, h4, ok_bind, g4, ok_bind, h3, ok_bind, g6, ok_bind, h5, ok_bind, h7, ok_bind]
  rfl

/-- C59. `TestBenchmarkSetup` for every `bN`. -/
theorem C59_benchmarkSetup [SmallCasts F] (H : List F → F) (toStr : F → String) (bN : Nat) :
    benchmarkSetupTest H toStr bN = .ok ⟨[], [], true⟩ := by
  obtain ⟨p, s, claim, out, fc, h1, h2, h3, h4, h5, h6, h7, -⟩ := C46_same_proof H toStr bN 0 (by omega) 1 le_rfl
  unfold benchmarkSetupTest
  rw [h2, ok_bind, h3, ok_bind, h5, ok_bind, h7, ok_bind]
  rfl

/-- C59. `TestSumcheck` for all tables of `2^bN` instances of a layer with two inputs and two outputs, `bN ≥ 1`. -/
theorem C59_sumcheck [SmallCasts F] (H : List F → F) (bN : Nat) (hN : 1 ≤ bN) (v add eQ : List F) (hv : v.length = 2 ^ (bN + 1))
    (ha : add.length = 4) (he : eQ.length = 2 ^ bN) :
    ∃ pairs, sumcheckTest H v add eQ = .ok (pairs, true) ∧ pairs.length = 8 ∧ ∀ p ∈ pairs, p.1 = p.2 := by
  obtain ⟨hg, hd⟩ := shippedGates_ok (fun _ => "") [addGate (F := F)] (by
    intro g hg
    simp only [List.mem_cons, List.not_mem_nil, or_false] at hg
    subst hg
    exact .add)
  have hS : Sized [addGate (F := F)] bN 1 v v eQ [add] := ⟨by rw [hv, Nat.add_comm], by rw [hv, Nat.add_comm], he, rfl, by simpa using ha⟩
  obtain ⟨out, fc, h1, h2, h3, l1, l2, l3, -, h4, h5⟩ := C16_complete H [addGate (F := F)] (by simp) hg hd bN 1 v v eQ [add] hS
  unfold sumcheckTest
  dsimp only
  rw [h1, ok_bind, h2, ok_bind, h3, ok_bind]
  dsimp only
  have hlr : evaluateLeftAndRight v out.qPrime out.qL out.qR = .ok (mle v (out.qL ++ out.qPrime), mle v (out.qR ++ out.qPrime)) := by
    unfold evaluateLeftAndRight
    rw [evaluate_eq _ _ (by simp [hv, l1, l3]; ring), ok_bind, evaluate_eq _ _ (by simp [hv, l2, l3]; ring), ok_bind]
    rfl
  rw [idx_getD (xs := out.qPrime) (by omega) 0, ok_bind, ok_bind, idx_getD (xs := out.qL) (by omega) 0, ok_bind, ok_bind,
    idx_getD (xs := out.qR) (by omega) 0, ok_bind, ok_bind, hlr, ok_bind]
  dsimp only
  rw [evaluate_eq eQ _ (by rw [he, l3]), ok_bind, evaluate_eq add _ (by simp [ha, l1, l2]), ok_bind, h4]
  refine ⟨_, rfl, rfl, ?_⟩
  intro p hp
  simp only [List.mem_cons, List.not_mem_nil, or_false] at hp
  rcases hp with rfl | rfl | rfl | rfl | rfl | rfl | rfl | rfl
  all_goals try rfl
  rw [List.map_singleton] at h5
  rw [evaluateCombinator_eq _ _ _ _ _ rfl] at h5
  have := Except.ok.inj h5
  dsimp only
  rw [← this]
  simp [combinator, addGate]
  exact .inl (mul_comm _ _)

/-! ### Witnesses -/

theorem slotsValues_some (xs : List F) : slotsValues (xs.map some) = .ok xs := by
  unfold slotsValues
  rw [mapGo_ok (fun s : Option F => s.getD 0)]
  · rw [List.map_map]
    congr 1
    conv_rhs => rw [← List.map_id xs]
    rfl
  · intro x hx
    obtain ⟨y, _, rfl⟩ := List.mem_map.1 hx
    rfl

theorem slotsValues_some2 (xs : List (List F)) : mapGo slotsValues (xs.map (List.map some)) = .ok xs := by
  induction xs with
  | nil => rfl
  | cons x xs ih => simp only [List.map_cons, mapGo, slotsValues_some, ih]

theorem slotsValues_ok {xs : List (Option F)} {ys : List F} (h : slotsValues xs = .ok ys) : xs = ys.map some := by
  obtain ⟨h1, h2⟩ := mapGo_ok_iff h
  apply List.ext_getElem
  · simpa using h1
  · intro i hi hi'
    have := h2 i hi (by omega)
    rw [List.getElem_map]
    cases hx : xs[i] with
    | none => rw [hx] at this; cases this
    | some y => rw [hx] at this; rw [Except.ok.inj this]

namespace Cs

theorem sat_forN_unit (n : Nat) (body : Nat → Unit → Cs F Unit) :
    (Cs.forN n () body).Satisfied ↔ ∀ i < n, (body i ()).Satisfied := by
  have key : ∀ l : List Nat, (l.foldlM (fun s i => body i s) () : Cs F Unit).Sat (fun _ => True) ↔
      ∀ i ∈ l, (body i ()).Sat fun _ => True := by
    intro l
    induction l with
    | nil => rw [List.foldlM_nil, sat_pure]; simp
    | cons a l ih =>
      rw [List.foldlM_cons, sat_bind]
      constructor
      · rintro ⟨u, eqs, h1, h2, h3⟩ i hi
        rcases List.mem_cons.1 hi with rfl | hi
        · exact ⟨u, eqs, h1, h2, trivial⟩
        · exact ih.1 h3 i hi
      · intro h
        obtain ⟨u, eqs, h1, h2, -⟩ := h a (by simp)
        exact ⟨u, eqs, h1, h2, ih.2 fun i hi => h i (by simp [hi])⟩
  unfold Cs.forN Satisfied
  rw [key]
  simp

end Cs

/-! ### The hash gadget -/

/-- C59. What the circuit of the hash test asserts, for every witness: `Y[k]` is the MiMC hash of `X[k]`. -/
theorem C59_hash_circuit (c : HashTestCircuit Fr) :
    (c.define arks).Satisfied ↔ ∀ i (hi : i < c.x.length), c.y[i]? = some (mimcHash c.x[i]) := by
  unfold HashTestCircuit.define
  rw [Cs.sat_forN_unit]
  refine forall_congr' fun i => forall_congr' fun hi => ?_
  unfold Cs.Satisfied
  rw [idx_ok hi, Cs.sat_bind, Cs.sat_go]
  constructor
  · rintro ⟨a, e, h⟩
    cases e
    rw [snarkHash_pure, Cs.sat_bind, Cs.sat_pure, Cs.sat_bind, Cs.sat_go] at h
    obtain ⟨y, hy, h⟩ := h
    rw [Cs.sat_assert] at h
    rw [← h.1]
    exact idx_eq_ok.1 hy
  · intro h
    refine ⟨_, rfl, ?_⟩
    rw [snarkHash_pure, Cs.sat_bind, Cs.sat_pure, Cs.sat_bind, Cs.sat_go]
    exact ⟨_, idx_eq_ok.2 h, (Cs.sat_assert _ _ _).2 ⟨rfl, trivial⟩⟩

theorem row_assign (xs : List F) : (forN xs.length (List.replicate xs.length none) fun n (row : List (Option F)) => do
      let v ← idx xs n
      slotsAssign row n v) = .ok (xs.map some) := by
  rw [← map_none]
  apply forN_replace
  intro i hi f hf
  rw [idx_ok hi, ok_bind, slotsAssign_tab hi f hf]

/-- The values that a loop has assigned so far. -/
def soFar {α : Type} (i : Nat) (e r : Nat → α) (j : Nat) : α := if j < i then r j else e j

theorem update_soFar {α : Type} (i : Nat) (e r : Nat → α) : Function.update (soFar i e r) i (r i) = soFar (i + 1) e r := by
  funext j
  unfold soFar
  by_cases hj : j = i
  · subst hj; rw [Function.update_self, if_pos (by omega)]
  · rw [Function.update_of_ne hj]
    by_cases h : j < i
    · rw [if_pos h, if_pos (by omega)]
    · rw [if_neg h, if_neg (by omega)]

theorem tab_soFar_zero {α : Type} (n : Nat) (e r : Nat → α) : tab n (soFar 0 e r) = tab n e := tab_congr fun j _ => by simp [soFar]
theorem tab_soFar_all {α : Type} (n : Nat) (e r : Nat → α) : tab n (soFar n e r) = tab n r := tab_congr fun j h => by simp [soFar, h]

/-- `Assign` of the hash test on any messages of the right sizes. -/
theorem hashTest_assign (arks : List F) (n m : Nat) (x : Nat → List F) (hx : ∀ i < n, (x i).length = m) (y : Nat → F)
    (hy : ∀ i < n, mimcHashGo arks (x i) = .ok (y i)) :
    HashTestCircuit.assign arks (allocateHashTest n m) (tab n x) = .ok ⟨tab n fun i => (x i).map some, tab n fun i => some (y i)⟩ := by
  unfold HashTestCircuit.assign allocateHashTest
  rw [tab_length]
  have := forN_eq (body := fun k (c : HashTestCircuit (Option F)) => do
    let xk ← idx (tab n x) k
    let row ← idx c.x k
    let row ← forN xk.length row fun n row => do
      let v ← idx xk n
      slotsAssign row n v
    let xs ← setIdx c.x k row
    let y ← mimcHashGo arks xk
    let ys ← slotsAssign c.y k y
    return (⟨xs, ys⟩ : HashTestCircuit (Option F)))
    (fun i => ⟨tab n (soFar i (fun _ => List.replicate m none) fun i => (x i).map some),
      tab n (soFar i (fun _ => none) fun i => some (y i))⟩) n (by
      intro i hi
      dsimp only
      have e1 : soFar i (fun _ => List.replicate m (none : Option F)) (fun i => (x i).map some) i = List.replicate (x i).length none := by
        rw [hx i hi]; simp [soFar]
      rw [idx_tab hi, ok_bind, idx_tab hi, ok_bind, e1, row_assign, ok_bind, setIdx_tab hi, ok_bind, hy i hi, ok_bind,
        slotsAssign_tab hi _ (by simp [soFar]), ok_bind, go_pure]
      congr 2
      · exact congrArg _ (update_soFar i _ fun i => (x i).map some)
      · exact congrArg _ (update_soFar i _ fun i => some (y i)))
  simp only [tab_soFar_zero, tab_soFar_all] at this
  rw [replicate_eq_tab, replicate_eq_tab n]
  exact this

/-- C59. `TestMimc` of `snark/hash` for every number and length of messages and every draw. -/
theorem C59_hash (nTests testSize : Nat) (draw : Nat → Fr) : (hashTest arks nTests testSize draw).Satisfied := by
  unfold hashTest Cs.Satisfied
  have h := hashTest_assign arks nTests testSize (fun k => randomFrArray draw (k * testSize) testSize)
    (fun i _ => randomFrArray_length _ _ _) (fun k => mimcHash (randomFrArray draw (k * testSize) testSize)) (fun i _ => C26_hash _)
  dsimp only
  rw [Cs.sat_bind, Cs.sat_go]
  refine ⟨_, h, ?_⟩
  rw [Cs.sat_bind, Cs.sat_go]
  refine ⟨⟨tab nTests fun k => randomFrArray draw (k * testSize) testSize,
    tab nTests fun k => mimcHash (randomFrArray draw (k * testSize) testSize)⟩, ?_, ?_⟩
  · unfold HashTestCircuit.values
    dsimp only
    have e1 : (tab nTests fun i => (randomFrArray draw (i * testSize) testSize).map some) =
      (tab nTests fun i => randomFrArray draw (i * testSize) testSize).map (List.map some) := by rw [tab_map]
    have e2 : (tab nTests fun i => some (mimcHash (randomFrArray draw (i * testSize) testSize))) =
      (tab nTests fun i => mimcHash (randomFrArray draw (i * testSize) testSize)).map some := by rw [tab_map]
    rw [e1, e2, slotsValues_some2, ok_bind, slotsValues_some, ok_bind]
    rfl
  · refine (C59_hash_circuit _).2 ?_
    intro i hi
    simp only [tab_length] at hi
    rw [tab_getElem?, if_pos hi, tab_get]

/-! ### The eq gadget -/

theorem forN_ok_mem {σ : Type} {n : Nat} {body : Nat → σ → Go σ} {s t : σ} (h : forN n s body = .ok t) :
    ∀ i < n, ∃ a b, body i a = .ok b := by
  have key : ∀ (n k : Nat) (s : σ), forFrom body k n s = .ok t → ∀ i, k ≤ i → i < k + n → ∃ a b, body i a = .ok b := by
    intro n
    induction n with
    | zero => intro k s _ i h1 h2; omega
    | succ n ih =>
      intro k s h i h1 h2
      rw [forFrom] at h
      cases hb : body k s with
      | error e => rw [hb] at h; cases h
      | ok s' =>
        rw [hb] at h
        rcases Nat.eq_or_lt_of_le h1 with rfl | hlt
        · exact ⟨_, _, hb⟩
        · exact ih (k + 1) s' h i hlt (by omega)
  intro i hi
  exact key n 0 s h i (by omega) (by omega)

/-- C59. What the circuit of the eq test asserts, for every witness with points of equal length. -/
theorem C59_eq_circuit (c : EqTestCircuit F) (h : ∀ i (hi : i < c.h.length), ∃ q, c.q[i]? = some q ∧ q.length = c.h[i].length) :
    c.define.Satisfied ↔ ∀ i (hi : i < c.h.length), c.expectedValue[i]? = some (eqPoly (c.q.getD i []) c.h[i]) := by
  unfold EqTestCircuit.define
  rw [Cs.sat_forN_unit]
  refine forall_congr' fun i => forall_congr' fun hi => ?_
  obtain ⟨q, hq, hl⟩ := h i hi
  unfold Cs.Satisfied
  have e : eqEvalGadget c.h[i] q = pure (eqPoly q c.h[i]) := by
    rw [eqEvalGadget_eq, evalEq_eq _ _ hl.ge, eqPoly_comm]; rfl
  have e2 : c.q.getD i [] = q := by rw [List.getD_eq_getElem?_getD, hq]; rfl
  rw [idx_ok hi, idx_some hq, e2]
  simp only [Cs.sat_bind, Cs.sat_go]
  constructor
  · rintro ⟨a, e', b, e'', h⟩
    cases e'
    cases e''
    rw [e, Cs.sat_pure] at h
    obtain ⟨y, hy, h⟩ := h
    rw [Cs.sat_assert] at h
    rw [h.1]
    exact idx_eq_ok.1 hy
  · intro h
    refine ⟨_, rfl, _, rfl, ?_⟩
    rw [e, Cs.sat_pure]
    exact ⟨_, idx_eq_ok.2 h, (Cs.sat_assert _ _ _).2 ⟨rfl, trivial⟩⟩

/-- `Assign` of the eq test when there are at most as many tests as coordinates: the coordinates from `n` on stay unassigned. -/
theorem eqTest_assign (n m : Nat) (hnm : n ≤ m) (H Q : Nat → Nat → F) :
    EqTestCircuit.assign (allocateEqTest n m) (tab n fun i => tab m (H i)) (tab n fun i => tab m (Q i)) =
      .ok ⟨tab n fun i => tab m (soFar n (fun _ => none) fun j => some (H i j)),
        tab n fun i => tab m (soFar n (fun _ => none) fun j => some (Q i j)),
        tab n fun i => some (eqPoly (tab m (Q i)) (tab m (H i)))⟩ := by
  unfold EqTestCircuit.assign allocateEqTest
  rw [tab_length]
  have inner : ∀ k, k < n → (forN (tab n fun i => tab m (Q i)).length (List.replicate m (none : Option F), List.replicate m (none : Option F))
      fun n' (s : List (Option F) × List (Option F)) => do
        let x ← idx2 (tab n fun i => tab m (H i)) k n'
        let h ← slotsAssign s.1 n' x
        let y ← idx2 (tab n fun i => tab m (Q i)) k n'
        let q ← slotsAssign s.2 n' y
        return (h, q)) = .ok (tab m (soFar n (fun _ => none) fun j => some (H k j)), tab m (soFar n (fun _ => none) fun j => some (Q k j))) := by
    intro k hk
    rw [tab_length]
    have := forN_eq (body := fun n' (s : List (Option F) × List (Option F)) => do
        let x ← idx2 (tab n fun i => tab m (H i)) k n'
        let h ← slotsAssign s.1 n' x
        let y ← idx2 (tab n fun i => tab m (Q i)) k n'
        let q ← slotsAssign s.2 n' y
        return (h, q))
      (fun i => (tab m (soFar i (fun _ => none) fun j => some (H k j)), tab m (soFar i (fun _ => none) fun j => some (Q k j)))) n (by
        intro i hi
        dsimp only
        unfold idx2
        rw [idx_tab hk, ok_bind, idx_tab (by omega), ok_bind, slotsAssign_tab (by omega) _ (by simp [soFar]), ok_bind, idx_tab hk,
          ok_bind, idx_tab (by omega), ok_bind, slotsAssign_tab (by omega) _ (by simp [soFar]), ok_bind, go_pure]
        congr 2
        · exact congrArg _ (update_soFar i _ fun j => some (H k j))
        · exact congrArg _ (update_soFar i _ fun j => some (Q k j)))
    simp only [tab_soFar_zero] at this
    rw [replicate_eq_tab]
    exact this
  have := forN_eq (body := fun k (c : EqTestCircuit (Option F)) => do
    let h ← idx c.h k
    let q ← idx c.q k
    let (h, q) ← forN (tab n fun i => tab m (Q i)).length (h, q) fun n' (h, q) => do
      let x ← idx2 (tab n fun i => tab m (H i)) k n'
      let h ← slotsAssign h n' x
      let y ← idx2 (tab n fun i => tab m (Q i)) k n'
      let q ← slotsAssign q n' y
      return (h, q)
    let hs ← setIdx c.h k h
    let qs ← setIdx c.q k q
    let Qk ← idx (tab n fun i => tab m (Q i)) k
    let Hk ← idx (tab n fun i => tab m (H i)) k
    let e ← evalEq Qk Hk
    let es ← slotsAssign c.expectedValue k e
    return (⟨hs, qs, es⟩ : EqTestCircuit (Option F)))
    (fun i => ⟨tab n (soFar i (fun _ => List.replicate m none) fun i => tab m (soFar n (fun _ => none) fun j => some (H i j))),
      tab n (soFar i (fun _ => List.replicate m none) fun i => tab m (soFar n (fun _ => none) fun j => some (Q i j))),
      tab n (soFar i (fun _ => none) fun i => some (eqPoly (tab m (Q i)) (tab m (H i))))⟩) n (by
      intro i hi
      dsimp only
      have e1 : ∀ r : Nat → List (Option F), soFar i (fun _ => List.replicate m (none : Option F)) r i = List.replicate m none := by
        intro r; simp [soFar]
      rw [idx_tab hi, ok_bind, idx_tab hi, ok_bind, e1, e1]
      refine (congrArg (· >>= _) (inner i hi)).trans ?_
      rw [ok_bind]
      dsimp only
      rw [setIdx_tab hi, ok_bind, setIdx_tab hi, ok_bind, idx_tab hi, ok_bind, idx_tab hi, ok_bind, evalEq_eq _ _ (by simp), ok_bind,
        slotsAssign_tab hi _ (by simp [soFar]), ok_bind, go_pure]
      congr 2
      · exact congrArg _ (update_soFar i _ fun i => tab m (soFar n (fun _ => none) fun j => some (H i j)))
      · exact congrArg _ (update_soFar i _ fun i => tab m (soFar n (fun _ => none) fun j => some (Q i j)))
      · exact congrArg _ (update_soFar i _ fun i => some (eqPoly (tab m (Q i)) (tab m (H i)))))
  simp only [tab_soFar_zero, tab_soFar_all] at this
  rw [replicate_eq_tab n, replicate_eq_tab n]
  exact this

/-- C59. `TestEq` for every draw, when the number of tests is the number of coordinates (5 in the source). -/
theorem C59_eq_partial (n : Nat) (draw : Nat → F) : (eqTest n n draw).Satisfied := by
  have h := eqTest_assign n n le_rfl (fun k j => draw (k * n + j)) (fun k j => draw (n * n + k * n + j))
  simp only [tab_soFar_all] at h
  unfold eqTest Cs.Satisfied
  dsimp only
  rw [Cs.sat_bind, Cs.sat_go]
  refine ⟨_, h, ?_⟩
  rw [Cs.sat_bind, Cs.sat_go]
  refine ⟨⟨tab n fun k => tab n fun j => draw (k * n + j), tab n fun k => tab n fun j => draw (n * n + k * n + j),
    tab n fun k => eqPoly (tab n fun j => draw (n * n + k * n + j)) (tab n fun j => draw (k * n + j))⟩, ?_, ?_⟩
  · unfold EqTestCircuit.values
    dsimp only
    have e1 : ∀ f : Nat → Nat → F, (tab n fun i => tab n fun j => some (f i j)) = (tab n fun i => tab n (f i)).map (List.map some) := by
      intro f; rw [tab_map]; apply tab_congr; intro i _; rw [tab_map]
    have e2 : ∀ f : Nat → F, (tab n fun i => some (f i)) = (tab n f).map some := by
      intro f; rw [tab_map]
    rw [e1, e1, e2, slotsValues_some2, ok_bind, slotsValues_some2, ok_bind, slotsValues_some, ok_bind]
    rfl
  · refine (C59_eq_circuit _ ?_).2 ?_
    · intro i hi
      simp only [tab_length] at hi
      exact ⟨_, by rw [tab_getElem?, if_pos hi], by simp⟩
    · intro i hi
      simp only [tab_length] at hi
      rw [tab_getElem?, if_pos hi, tab_get, List.getD_eq_getElem?_getD, tab_getElem?, if_pos hi]
      rfl

/-- C59, the negation for the other sizes: `Assign` ranges over the tests where it should range over the coordinates. With fewer tests
than coordinates variables stay unassigned, with more tests it panics. -/
theorem C59_eq_negation (n m : Nat) (hn : 1 ≤ n) (hnm : n ≠ m) (draw : Nat → F) : ¬ (eqTest n m draw).Satisfied := by
  unfold eqTest Cs.Satisfied
  dsimp only
  rw [Cs.sat_bind, Cs.sat_go]
  rintro ⟨w, hw, h⟩
  rcases Nat.lt_or_gt_of_ne hnm with hlt | hgt
  · have e := eqTest_assign n m hlt.le (fun k j => draw (k * m + j)) (fun k j => draw (n * m + k * m + j))
    have : w = _ := Except.ok.inj (hw.symm.trans e)
    subst this
    rw [Cs.sat_bind, Cs.sat_go] at h
    obtain ⟨v, hv, -⟩ := h
    unfold EqTestCircuit.values at hv
    simp only [bind_eq_ok] at hv
    obtain ⟨hs, h1, -⟩ := hv
    obtain ⟨l, h2⟩ := mapGo_ok_iff h1
    have := h2 0 (by simp; omega) (by rw [← l]; simp; omega)
    have := slotsValues_ok this
    rw [tab_get] at this
    have := congrArg (fun l => l[n]?) this
    simp only [tab_getElem?, if_pos hlt, soFar, lt_irrefl, if_false, List.getElem?_map] at this
    cases hx : (hs[0]'(by rw [← l]; simp; omega))[n]? with
    | none => rw [hx] at this; simp at this
    | some y => rw [hx] at this; simp at this
  · unfold EqTestCircuit.assign at hw
    obtain ⟨a, b, hb⟩ := forN_ok_mem hw 0 (by simp; omega)
    simp only [bind_eq_ok] at hb
    obtain ⟨_, -, _, -, s, hs, -⟩ := hb
    obtain ⟨a', b', hb'⟩ := forN_ok_mem hs m (by simpa using hgt)
    simp only [bind_eq_ok] at hb'
    obtain ⟨x, hx, -⟩ := hb'
    unfold idx2 at hx
    rw [bind_eq_ok] at hx
    obtain ⟨r, hr, hx⟩ := hx
    have hr' : idx (tab n fun k => randomFrArray draw (k * m) m) 0 = .ok r := hr
    rw [idx_tab (by omega)] at hr'
    cases hr'
    rw [idx_err (by rw [randomFrArray_length])] at hx
    cases hx

/-! ### The polynomial gadgets -/

/-- C59. What the circuit of the multilinear test asserts, for every witness whose point fits the table. -/
theorem C59_multilinear_circuit (c : MlTestCircuit F) (h : c.p.length = 2 ^ c.xEval.length) :
    c.define.Satisfied ↔ c.yEval = mle c.p c.xEval := by
  unfold MlTestCircuit.define Cs.Satisfied
  rw [Cs.sat_bind, mlEval_eq, Cs.sat_go, evaluate_eq _ _ h]
  constructor
  · rintro ⟨a, e, h⟩
    rw [Cs.sat_assert] at h
    rw [← h.1, ← Except.ok.inj e]
  · intro h
    exact ⟨_, rfl, (Cs.sat_assert _ _ _).2 ⟨h.symm, trivial⟩⟩

/-- C59. `TestMultilinear` for every number of variables and every draw. -/
theorem C59_multilinear (nVars : Nat) (draw : Nat → F) : (mlTest nVars draw).Satisfied := by
  unfold mlTest Cs.Satisfied
  dsimp only
  have s1 : 1 <<< nVars = 2 ^ nVars := by rw [Nat.shiftLeft_eq, one_mul]
  rw [s1]
  set p := randomFrArray draw 0 (2 ^ nVars) with hp
  set x := randomFrArray draw (2 ^ nVars) nVars with hx
  have lp : p.length = 2 ^ nVars := randomFrArray_length _ _ _
  have lx : x.length = nVars := randomFrArray_length _ _ _
  rw [Cs.sat_bind, Cs.sat_go]
  refine ⟨_, evaluate_eq _ _ (by rw [lp, lx]), ?_⟩
  rw [Cs.sat_bind, Cs.sat_go]
  refine ⟨p.map some, ?_, ?_⟩
  · have := mlAssign_ok p
    unfold emptySlots at this
    rw [lp] at this
    exact this
  rw [Cs.sat_bind, Cs.sat_go]
  refine ⟨x.map some, ?_, ?_⟩
  · have := row_assign x
    rw [lx] at this
    exact this
  rw [Cs.sat_bind, Cs.sat_go]
  refine ⟨_, rfl, ?_⟩
  rw [Cs.sat_bind, Cs.sat_go]
  refine ⟨⟨p, x, mle p x⟩, ?_, (C59_multilinear_circuit _ (by rw [lp, lx])).2 rfl⟩
  unfold MlTestCircuit.values
  dsimp only
  rw [slotsValues_some, ok_bind, slotsValues_some, ok_bind]
  rfl

/-- C59. What the circuit of the univariate test asserts, for every witness with a coefficient: `ZnO = P(0) + P(1)` and
`Expected = P(5)`. -/
theorem C59_univariate_circuit (c : UniTestCircuit F) (h : c.poly ≠ []) :
    c.define.Satisfied ↔ c.znO = (polyOf c.poly).eval 0 + (polyOf c.poly).eval 1 ∧ c.expected = (polyOf c.poly).eval 5 := by
  unfold UniTestCircuit.define Cs.Satisfied
  rw [Cs.sat_bind, uniZeroAndOne_eq _ h, Cs.sat_pure, Cs.sat_bind, uniEval_eq, Cs.sat_pure, Cs.sat_bind, Cs.sat_assert, Cs.sat_assert]
  unfold csConst
  constructor
  · rintro ⟨h1, h2, -⟩; exact ⟨h1.symm, h2.symm⟩
  · rintro ⟨h1, h2⟩; exact ⟨h1.symm, h2.symm, trivial⟩

/-- C59. `TestUnivariate` succeeds for exactly these values of the witness; those of the source are among them. -/
theorem C59_univariate (c0 c1 c2 c3 zno expected : F) : (uniTest c0 c1 c2 c3 zno expected).Satisfied ↔
    zno = 2 * c0 + c1 + c2 + c3 ∧ expected = c0 + 5 * c1 + 25 * c2 + 125 * c3 := by
  have e : uniTest c0 c1 c2 c3 zno expected = (⟨[c0, c1, c2, c3], zno, expected⟩ : UniTestCircuit F).define := rfl
  rw [e, C59_univariate_circuit _ (by simp)]
  have e0 : ∀ x : F, (polyOf [c0, c1, c2, c3]).eval x = c0 + c1 * x + c2 * x ^ 2 + c3 * x ^ 3 := by
    intro x
    simp [polyOf, Finset.sum_range_succ]
  simp only [e0]
  ring_nf

example : (uniTest 4 3 2 1 14 (194 : Fr)).Satisfied := (C59_univariate _ _ _ _ _ _).2 (by decide +kernel)

/-! ### The sumcheck gadget -/

/-- C59. What the circuit of the sumcheck test asserts, for every witness with points of the lengths of its proof: the native verifier
accepts the proof for the claim and returns the expected points. The names `hL`, `hR` are exchanged in `Define`, so that
`ExpectedQL` stands for the right challenges. -/
theorem C59_sumcheck_circuit (c : SumcheckTestCircuit Fr) (hl : c.expectedQL.length = 1) (hr : c.expectedQR.length = 1)
    (hp : c.expectedQPrime.length + 2 = c.proof.length) :
    (c.define arks).Satisfied ↔
      ∃ fc, sumcheckVerify mimcHash c.initialClaim c.proof 1 = .ok (some ⟨c.expectedQPrime, c.expectedQR, c.expectedQL, fc⟩) := by
  unfold SumcheckTestCircuit.define Cs.Satisfied
  rw [Cs.sat_bind]
  have hloop : ∀ v : SumcheckVerdict Fr, sumcheckVerify mimcHash c.initialClaim c.proof 1 = .ok (some v) →
      v.qL.length = 1 ∧ v.qR.length = 1 ∧ v.qPrime.length = c.expectedQPrime.length := by
    intro v hv
    obtain ⟨_, _, h1, h2, h3, h4, _⟩ := (C17_accepts_iff _ _ _ _ _).1 hv
    rw [h2, h3, h4]
    simp
    omega
  have eqLists : ∀ (a b : List Fr), a.length = b.length → ((Cs.forN a.length () fun i _ => do
      let h ← Cs.go (idx a i)
      let eh ← Cs.go (idx b i)
      Cs.assertIsEqual h eh).Satisfied ↔ a = b) := by
    intro a b hab
    rw [Cs.sat_forN_unit]
    constructor
    · intro h
      apply List.ext_getElem hab
      intro i h1 h2
      have := h i h1
      unfold Cs.Satisfied at this
      rw [Cs.sat_bind, Cs.sat_go, idx_ok h1] at this
      obtain ⟨x, e, this⟩ := this
      rw [Cs.sat_bind, Cs.sat_go, idx_ok h2] at this
      obtain ⟨y, e', this⟩ := this
      rw [Cs.sat_assert] at this
      rw [Except.ok.inj e, Except.ok.inj e', this.1]
    · rintro rfl i hi
      unfold Cs.Satisfied
      rw [Cs.sat_bind, Cs.sat_go, idx_ok hi]
      refine ⟨_, rfl, ?_⟩
      rw [Cs.sat_bind, Cs.sat_go]
      exact ⟨_, rfl, (Cs.sat_assert _ _ _).2 ⟨rfl, trivial⟩⟩
  have one : ∀ v : SumcheckVerdict Fr, v.qL.length = 1 → v.qR.length = 1 → ((Cs.forN v.qL.length () fun i _ => do
      let l ← Cs.go (idx v.qR i)
      let el ← Cs.go (idx c.expectedQL i)
      Cs.assertIsEqual l el
      let r ← Cs.go (idx v.qL i)
      let er ← Cs.go (idx c.expectedQR i)
      Cs.assertIsEqual r er).Satisfied ↔ v.qR = c.expectedQL ∧ v.qL = c.expectedQR) := by
    intro v h1 h2
    obtain ⟨a, ha⟩ := List.length_eq_one_iff.1 h1
    obtain ⟨b, hb⟩ := List.length_eq_one_iff.1 h2
    obtain ⟨x, hx⟩ := List.length_eq_one_iff.1 hl
    obtain ⟨y, hy⟩ := List.length_eq_one_iff.1 hr
    rw [Cs.sat_forN_unit, ha, hb, hx, hy]
    simp only [List.length_singleton, Nat.lt_one_iff, forall_eq, Cs.Satisfied, Cs.sat_bind, Cs.sat_go, Cs.sat_assert]
    constructor
    · rintro ⟨_, e1, _, e2, e3, _, e4, _, e5, e6, -⟩
      cases e1; cases e2; cases e4; cases e5
      exact ⟨by rw [e3], by rw [e6]⟩
    · rintro ⟨e1, e2⟩
      cases e1; cases e2
      exact ⟨_, rfl, _, rfl, rfl, _, rfl, _, rfl, rfl, trivial⟩
  have unit : ∀ (x : Cs Fr Unit) (Q : Unit → Prop), x.Sat Q ↔ x.Satisfied ∧ Q () := fun x Q =>
    ⟨fun ⟨a, eqs, h1, h2, h3⟩ => ⟨⟨a, eqs, h1, h2, trivial⟩, h3⟩, fun ⟨⟨a, eqs, h1, h2, _⟩, h3⟩ => ⟨a, eqs, h1, h2, h3⟩⟩
  constructor
  · rintro ⟨v, eqs, h1, h2, h3⟩
    have hv := (C33_agree c.initialClaim c.proof 1 v).1 ⟨v, eqs, h1, h2, rfl⟩
    obtain ⟨l1, l2, l3⟩ := hloop v hv
    dsimp only at h3
    rw [Cs.sat_bind, unit, one v l1 l2] at h3
    obtain ⟨⟨e1, e2⟩, h3⟩ := h3
    have e3 := (eqLists _ _ l3).1 h3
    refine ⟨v.finalClaim, ?_⟩
    rw [hv, ← e1, ← e2, ← e3]
  · rintro ⟨fc, hv⟩
    obtain ⟨v, eqs, h1, h2, rfl⟩ := (C33_agree c.initialClaim c.proof 1 _).2 hv
    refine ⟨_, eqs, h1, h2, ?_⟩
    obtain ⟨l1, l2, l3⟩ := hloop _ hv
    dsimp only
    rw [Cs.sat_bind, unit, one _ l1 l2]
    exact ⟨⟨rfl, rfl⟩, (eqLists c.expectedQPrime c.expectedQPrime rfl).2 rfl⟩

/-- C59. The slots of the sumcheck test circuit, for all dimensions and degrees: one coefficient more than the degree in every round,
and one expected challenge for every round. -/
theorem C59_sumcheck_slots (bN bG degHL degHR degHPrime : Nat) :
    let c : SumcheckTestCircuit (Option F) := allocateSumcheckTest bN bG degHL degHR degHPrime
    c.proof.map List.length =
      List.replicate bG (degHL + 1) ++ List.replicate bG (degHR + 1) ++ List.replicate bN (degHPrime + 1) ∧
    c.expectedQL = List.replicate bG none ∧ c.expectedQR = List.replicate bG none ∧ c.expectedQPrime = List.replicate bN none ∧
    c.initialClaim = none ∧ ∀ r ∈ c.proof, ∀ s ∈ r, s = none := by
  refine ⟨?_, rfl, rfl, rfl, rfl, ?_⟩
  · simp [allocateSumcheckTest, sumcheckAllocateProof, allocateUnivariate]
  · intro r hr s hs
    simp only [allocateSumcheckTest, sumcheckAllocateProof, allocateUnivariate, List.mem_append, List.mem_replicate] at hr
    rcases hr with (⟨_, rfl⟩ | ⟨_, rfl⟩) | ⟨_, rfl⟩ <;> exact (List.mem_replicate.1 hs).2

/-- C59. `TestSumcheckCircuit` for every `bN`: the native verifier accepts, all variables get a value and the assertions hold. -/
theorem C59_sumcheckCircuit (bN : Nat) : ∃ run, sumcheckCircuitTest mimcHash frString arks bN = .ok (true, run) ∧ run.Satisfied := by
  obtain ⟨hg, hd⟩ := testGates_ok (F := Fr) frString
  have hS : Sized (testGates frString) bN 1 (tab (2 ^ (bN + 1)) fun i => (i : Fr)) (tab (2 ^ (bN + 1)) fun i => (i : Fr))
      (tab (2 ^ bN) (chi (testQPrime bN))) testStatics := by
    refine ⟨by simp [Nat.add_comm], by simp [Nat.add_comm], by simp, ?_, ?_⟩
    · rw [testStatics_eq]; rfl
    · rw [testStatics_eq]; simp
  obtain ⟨out, h2, l1, l2, l3, hlen, -, -⟩ := prove_spec mimcHash hg hd (by simp [testGates]) hS
  obtain ⟨out', fc, h1, h2', h3, -⟩ := C16_complete mimcHash (testGates frString) (by simp [testGates]) hg hd bN 1 _ _ _ _ hS
  rw [h2] at h2'
  cases h2'
  set claim := hypercubeSum (testGates frString) bN 1 (tab (2 ^ (bN + 1)) fun i => (i : Fr)) (tab (2 ^ (bN + 1)) fun i => (i : Fr))
      (tab (2 ^ bN) (chi (testQPrime bN))) testStatics
  have hdeg : degL (testGates (F := Fr) frString) + 1 = 3 ∧ degR (testGates (F := Fr) frString) + 1 = 9 ∧
      degP (testGates (F := Fr) frString) + 1 = 9 := ⟨rfl, rfl, rfl⟩
  rw [hdeg.1, hdeg.2.1, hdeg.2.2] at hlen
  have hassign : sumcheckAssign (sumcheckAllocateProof bN 1 2 8 8) out.polyCoeffs = .ok (out.polyCoeffs.map (List.map some)) := by
    rcases C37_sumcheck_assign bN 1 2 8 8 out.polyCoeffs with ⟨_, h⟩ | ⟨h, _⟩
    · exact h
    · exact absurd hlen h
  obtain ⟨a, ha⟩ := List.length_eq_one_iff.1 l1
  obtain ⟨b, hb⟩ := List.length_eq_one_iff.1 l2
  have hrow := row_assign out.qPrime
  rw [l3] at hrow
  unfold sumcheckCircuitTest
  dsimp only
  rw [testInit_single, ok_bind, h1, ok_bind, h2, ok_bind, h3, ok_bind]
  have e1 : slotAssign (allocateSumcheckTest bN 1 2 8 8 : SumcheckTestCircuit (Option Fr)).initialClaim claim = .ok (some claim) := rfl
  have e2 : sumcheckAssign (allocateSumcheckTest bN 1 2 8 8 : SumcheckTestCircuit (Option Fr)).proof out.polyCoeffs =
    .ok (out.polyCoeffs.map (List.map some)) := hassign
  rw [e1, ok_bind, e2, ok_bind]
  have e3 : (forN out.qR.length ((allocateSumcheckTest bN 1 2 8 8 : SumcheckTestCircuit (Option Fr)).expectedQL,
      (allocateSumcheckTest bN 1 2 8 8 : SumcheckTestCircuit (Option Fr)).expectedQR) fun i s => do
      let l ← idx out.qR i
      let ql ← slotsAssign s.1 i l
      let r ← idx out.qL i
      let qr ← slotsAssign s.2 i r
      return (ql, qr)) = .ok (out.qR.map some, out.qL.map some) := by
    rw [ha, hb]; rfl
  refine ⟨Cs.go (SumcheckTestCircuit.values ⟨some claim, out.polyCoeffs.map (List.map some), out.qR.map some, out.qL.map some,
    out.qPrime.map some⟩) >>= fun w => w.define arks, (congrArg (· >>= _) e3).trans ?_, ?_⟩
  · rw [ok_bind]
    dsimp only
    rw [l3]
    refine (congrArg (· >>= _) hrow).trans ?_
    rw [ok_bind]
    rfl
  · unfold Cs.Satisfied
    rw [Cs.sat_bind, Cs.sat_go]
    refine ⟨⟨claim, out.polyCoeffs, out.qR, out.qL, out.qPrime⟩, ?_, ?_⟩
    · unfold SumcheckTestCircuit.values
      dsimp only
      rw [slotsValues_some2, slotsValues_some, slotsValues_some, slotsValues_some]
      rfl
    · refine (C59_sumcheck_circuit _ l2 l1 ?_).2 ⟨fc, h3⟩
      have := congrArg List.length hlen
      simp at this
      simp only
      omega

/-! ### Instances -/

example (draw : Nat → Fr) : ∃ pairs, chunkedCase draw 0 10 10 5 3 [0, 12, 5] [3, 7, 31] = .ok pairs ∧ (∀ p ∈ pairs, p.1 = p.2) ∧
    pairs.length = 35 := C59_chunked draw 0 10 10 5 3 _ _ (by omega) (by omega) (by simp)

example (draw : Nat → Fr) : ∃ e, chunkedCase draw 0 10 10 0 3 [] [] = .error e := C59_chunked_one draw 0 10 10 3 _ _ (by omega)

example : ∃ claim out, multiThreadedTest (F := Fr) mimcHash frString 10 (2 ^ 3) = .ok ⟨[(claim, claim), (claim, claim)], [(out, out)], true⟩ :=
  C59_multiThreaded mimcHash frString 10 3 (by omega)

/-- The hash test does reject a wrong value. -/
example : ¬ ((⟨[[1, 2]], [mimcHash [1, 2] + 1]⟩ : HashTestCircuit Fr).define arks).Satisfied := by
  rw [C59_hash_circuit]
  intro h
  have := h 0 (by simp)
  simp at this

/-- The `Eq` test rejects a wrong value: `eq((2, 3), (0, 1)) = -3`. -/
example : (⟨[[2, 3]], [[0, 1]], [-3]⟩ : EqTestCircuit Fr).define.Satisfied ∧ ¬ (⟨[[2, 3]], [[0, 1]], [3]⟩ : EqTestCircuit Fr).define.Satisfied := by
  have h2 : ∀ i (hi : i < [[(2 : Fr), 3]].length), ∃ q, [[(0 : Fr), 1]][i]? = some q ∧ q.length = [[(2 : Fr), 3]][i].length := by
    intro i hi
    have : i = 0 := by simpa using hi
    subst this
    exact ⟨[0, 1], rfl, rfl⟩
  have e : eqPoly [(0 : Fr), 1] [2, 3] = -3 := by decide +kernel
  rw [C59_eq_circuit _ h2, C59_eq_circuit _ h2]
  simp only [List.length_singleton, Nat.lt_one_iff]
  constructor
  · simpa using e.symm
  · intro h
    have h' : (3 : Fr) = eqPoly [(0 : Fr), 1] [2, 3] := by simpa using h
    rw [e] at h'
    exact absurd h' (by decide +kernel)

example (draw : Nat → Fr) : ¬ (eqTest 5 3 draw).Satisfied := C59_eq_negation 5 3 (by omega) (by omega) draw

example : ∃ run, sumcheckCircuitTest mimcHash frString arks 4 = .ok (true, run) ∧ run.Satisfied := C59_sumcheckCircuit 4

end GkrMimc
