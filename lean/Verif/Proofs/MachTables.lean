import Verif.Proofs.MachInt
import Verif.Proofs.Tables
import Verif.Proofs.Eq

/-! The tables and layers on 64 bits. -/

namespace GkrMimc

theorem bind_congr_go {α β : Type _} {x : Go α} {f g : α → Go β} (h : ∀ a, x = .ok a → f a = g a) :
    (x >>= f) = (x >>= g) := by
  cases x with
  | error e => rfl
  | ok a => exact h a rfl

theorem bind_congr_go_left {α β : Type _} {x y : Go α} {f : α → Go β} (h : x = y) : (x >>= f) = (y >>= f) := by rw [h]

theorem mapGo_congr {α β : Type _} {f g : α → Go β} : ∀ {xs : List α}, (∀ x ∈ xs, f x = g x) → mapGo f xs = mapGo g xs
  | [], _ => rfl
  | x :: xs, h => by
    rw [mapGo, mapGo, h x (by simp), mapGo_congr (fun y hy => h y (by simp [hy]))]

theorem genM_congr {β : Type _} {f g : Nat → Go β} (n : Nat) : ∀ k, (∀ i, k ≤ i → i < k + n → f i = g i) →
    genM f k n = genM g k n := by
  induction n with
  | zero => intros; rfl
  | succ n ih =>
    intro k h
    rw [genM, genM, h k le_rfl (by omega), ih (k + 1) (fun i h1 h2 => h i (by omega) (by omega))]

theorem gen_congr {β : Type _} {f g : Nat → Go β} (n : Nat) (h : ∀ i < n, f i = g i) : gen n f = gen n g :=
  genM_congr n 0 (fun i _ h2 => h i (by omega))

theorem forEach_congr {α σ : Type _} {f g : α → σ → Go σ} : ∀ (xs : List α) (s : σ),
    (∀ x ∈ xs, ∀ s, f x s = g x s) → forEach xs s f = forEach xs s g
  | [], _, _ => rfl
  | x :: xs, s, h => by
    rw [forEach_cons, forEach_cons, h x (by simp)]
    exact bind_congr_go (fun a _ => forEach_congr xs a (fun y hy => h y (by simp [hy])))

set_option linter.unusedSectionVars false

section

variable {F : Type} [Field F]

theorem interleavedChunkW_eq (bkt : Table F) (on nChunk : Nat) (h : bkt.length + on < 2 ^ 63) (hn : nChunk < 2 ^ 63) :
    interleavedChunkW bkt on nChunk = interleavedChunk bkt on nChunk := by
  unfold interleavedChunkW interleavedChunk
  rw [wDiv_eq (by omega) hn]
  refine bind_congr_go (fun c hc => ?_)
  unfold goDiv at hc
  split at hc
  · cases hc
  · injection hc with hc
    have h1 : c * nChunk ≤ bkt.length := by rw [← hc]; exact Nat.div_mul_le_self _ _
    have h2 : c ≤ bkt.length := by rw [← hc]; exact Nat.div_le_self _ _
    rw [wIter_eq (by omega)]
    refine gen_congr _ (fun i hi => ?_)
    have h3 : i * nChunk ≤ c * nChunk := Nat.mul_le_mul_right _ (by omega)
    rw [wMul_eq (by omega) hn (by omega), wAdd_eq (by omega)]

/-- The ranges of `IntoChunkRanges` lie within the table. -/
theorem intoChunkRanges_bound {nCore : Int} {N : Nat} {cs : List ChunkRange} (h : intoChunkRanges nCore N = .ok cs) :
    ∀ c ∈ cs, c.begin_ ≤ N ∧ c.end_ ≤ N := by
  have hn : nCore ≠ 0 := by
    rintro rfl; simp [intoChunkRanges] at h
  rw [intoChunkRanges_eq hn] at h
  have h := (Except.ok.inj h).symm
  subst h
  intro c hc
  unfold tab at hc
  obtain ⟨i, hi, rfl⟩ := List.mem_map.1 hc
  rw [List.mem_range] at hi
  have hpos : 4096 ≤ chunkSizeOf nCore N := by unfold chunkSizeOf; omega
  generalize chunkSizeOf nCore N = k at *
  have h1 : (N + k - 1) / k * k ≤ N + k - 1 := Nat.div_mul_le_self _ _
  have h2 : (i + 1) * k ≤ (N + k - 1) / k * k := Nat.mul_le_mul_right _ (by omega)
  have e : (i + 1) * k = i * k + k := by ring
  refine ⟨?_, Nat.min_le_left _ _⟩
  dsimp only
  omega

theorem chunkLoopW_eq {nCore : Int} {N : Nat} (hN : N < 2 ^ 63) {cs : List ChunkRange} (h : intoChunkRanges nCore N = .ok cs)
    (dst : Table F) (f : Nat → Go F) : chunkLoopW cs dst f = chunkLoop cs dst f := by
  unfold chunkLoopW chunkLoop
  refine forEach_congr _ _ (fun c hc s => ?_)
  obtain ⟨h1, h2⟩ := intoChunkRanges_bound h c hc
  rw [sgn_nat (by omega), sgn_nat (by omega)]
  congr 1
  omega

/-- The core counts that an `int` can hold. -/
def IsInt (x : Int) : Prop := -2 ^ 63 ≤ x ∧ x < 2 ^ 63

theorem tableSubW_eq (dst left right : Table F) {nCore : Int} (hc : IsInt nCore) (h : left.length ≤ 2 ^ 61) :
    tableSubW dst left right nCore = tableSub dst left right nCore := by
  unfold tableSubW tableSub
  dsimp only
  rw [intoChunkRangesW_eq hc.1 hc.2 (by omega)]
  refine bind_congr_go (fun cs hcs => bind_congr_go (fun _ _ => ?_))
  split
  · rfl
  · exact chunkLoopW_eq (by omega) hcs _ _

theorem tableMulW_eq (dst : Table F) (lambda : F) (x : Table F) {nCore : Int} (hc : IsInt nCore) (h : x.length ≤ 2 ^ 61) :
    tableMulW dst lambda x nCore = tableMul dst lambda x nCore := by
  unfold tableMulW tableMul
  dsimp only
  rw [intoChunkRangesW_eq hc.1 hc.2 (by omega)]
  exact bind_congr_go (fun cs hcs => bind_congr_go (fun _ _ => chunkLoopW_eq (by omega) hcs _ _))

theorem pow_lt_63 {k : Nat} {lim : Nat} (hl : lim < 2 ^ 63) (h : 2 ^ k ≤ lim) : k < 63 := by
  by_contra hc
  have : 2 ^ 63 ≤ 2 ^ k := Nat.pow_le_pow_right (by norm_num) (by omega)
  omega

theorem foldedEqStepW_eq {n i j : Nat} (r : F) (t : Table F) (hn : n < 63) (hi : i < n) (hj : j < 2 ^ i) :
    foldedEqStepW n i r j t = foldedEqStep n i r j t := by
  have h1 : j * 2 ^ (n - i) + 2 ^ (n - i) ≤ 2 ^ n := by
    have e : 2 ^ n = 2 ^ i * 2 ^ (n - i) := by rw [← pow_add]; congr 1; omega
    calc j * 2 ^ (n - i) + 2 ^ (n - i) = (j + 1) * 2 ^ (n - i) := by ring
      _ ≤ 2 ^ i * 2 ^ (n - i) := Nat.mul_le_mul_right _ (by omega)
      _ = 2 ^ n := e.symm
  have h2 : 2 ^ n ≤ 2 ^ 62 := Nat.pow_le_pow_right (by norm_num) (by omega)
  have h3 : 2 ^ (n - 1 - i) ≤ 2 ^ (n - i) := Nat.pow_le_pow_right (by norm_num) (by omega)
  have h4 : 2 ^ i ≤ 2 ^ n := Nat.pow_le_pow_right (by norm_num) (by omega)
  unfold foldedEqStepW foldedEqStep
  have h5 : 0 < 2 ^ (n - i) := by positivity
  have h6 : 0 < 2 ^ (n - 1 - i) := by positivity
  rw [wSub_eq (a := n) (b := i) (by omega) (by omega), wSub_eq (a := n) (b := 1) (by omega) (by omega),
    wSub_eq (a := n - 1) (b := i) (by omega) (by omega),
    wShl_eq (by omega) (by omega) (by omega), wShl_eq (by omega) (by omega) (by omega)]
  simp only [ok_bind]
  rw [wAdd_eq (by rw [Nat.shiftLeft_eq, Nat.shiftLeft_eq]; omega)]

theorem getFoldedEqTableW_eq {lim : Nat} (hl : lim < 2 ^ 63) (q : List F) (h : 2 ^ q.length ≤ lim) :
    getFoldedEqTableW lim q = getFoldedEqTable q := by
  have hn := pow_lt_63 hl h
  unfold getFoldedEqTableW getFoldedEqTable
  dsimp only
  rw [wShl_eq (by omega) (by omega) (by omega)]
  simp only [ok_bind]
  rw [wMake_eq hl (by rw [Nat.shiftLeft_eq]; omega)]
  simp only [ok_bind]
  refine bind_congr_go (fun t _ => forN_congr _ _ (fun i hi t => bind_congr_go (fun r _ => ?_)))
  have h4 : 2 ^ i ≤ 2 ^ q.length := Nat.pow_le_pow_right (by norm_num) (by omega)
  rw [wShl_eq (by omega) (by omega) (by omega)]
  simp only [ok_bind]
  rw [wIter_eq (by rw [Nat.shiftLeft_eq]; omega)]
  refine forN_congr _ _ (fun j hj t => ?_)
  rw [Nat.shiftLeft_eq, one_mul] at hj
  exact foldedEqStepW_eq r t hn hi hj

theorem log2Ceil_le_of_le {a k : Nat} (hk : 1 ≤ k) (h : a ≤ 2 ^ k) : log2Ceil (a : Int) ≤ k := by
  by_cases ha : 1 ≤ a
  · obtain ⟨h1, h2⟩ := log2Floor_spec_nat a ha
    unfold log2Ceil
    dsimp only
    split
    · rename_i hne
      rw [Nat.shiftLeft_eq, one_mul] at hne
      have h3 : 2 ^ log2Floor (a : Int) < 2 ^ k := lt_of_lt_of_le (lt_of_le_of_ne h1 (fun e => hne (by exact_mod_cast e.symm))) h
      have := (Nat.pow_lt_pow_iff_right (by norm_num : 1 < 2)).1 h3
      omega
    · have h3 : 2 ^ log2Floor (a : Int) ≤ 2 ^ k := le_trans h1 h
      exact (Nat.pow_le_pow_iff_right (by norm_num : 1 < 2)).1 h3
  · have : a = 0 := by omega
    subst this
    unfold log2Ceil
    rw [log2Floor_le_one (by simp)]
    simp; omega

/-- A loop whose state keeps an invariant. -/
theorem forN_congr_inv {σ : Type _} {body body' : Nat → σ → Go σ} (P : σ → Prop) (n : Nat) (s : σ) (h0 : P s)
    (hstep : ∀ i < n, ∀ s s', P s → body' i s = .ok s' → P s') (h : ∀ i < n, ∀ s, P s → body i s = body' i s) :
    forN n s body = forN n s body' ∧ ∀ s', forN n s body' = .ok s' → P s' := by
  induction n with
  | zero => exact ⟨rfl, fun s' hs => by rw [forN_zero] at hs; exact (Except.ok.inj hs) ▸ h0⟩
  | succ n ih =>
    obtain ⟨h1, h2⟩ := ih (fun i hi => hstep i (by omega)) (fun i hi => h i (by omega))
    rw [forN_succ, forN_succ, h1]
    constructor
    · exact bind_congr_go (fun a ha => h n (by omega) a (h2 a ha))
    · intro s' hs
      cases hf : forN n s body' with
      | error e => rw [hf] at hs; cases hs
      | ok a => rw [hf, ok_bind] at hs; exact hstep n (by omega) a s' (h2 a hf) hs

theorem forEach_congr_inv {α σ : Type _} {f g : α → σ → Go σ} (P : σ → Prop) : ∀ (xs : List α) (s : σ), P s →
    (∀ x ∈ xs, ∀ s s', P s → g x s = .ok s' → P s') → (∀ x ∈ xs, ∀ s, P s → f x s = g x s) →
    forEach xs s f = forEach xs s g ∧ ∀ s', forEach xs s g = .ok s' → P s'
  | [], s, h0, _, _ => ⟨rfl, fun s' hs => by rw [forEach_nil] at hs; exact (Except.ok.inj hs) ▸ h0⟩
  | x :: xs, s, h0, hstep, h => by
    rw [forEach_cons, forEach_cons, h x (by simp) s h0]
    cases hg : g x s with
    | error e => exact ⟨rfl, fun s' hs => by cases hs⟩
    | ok a =>
      simp only [ok_bind]
      exact forEach_congr_inv P xs a (hstep x (by simp) s a h0 hg) (fun y hy => hstep y (by simp [hy]))
        (fun y hy => h y (by simp [hy]))

theorem tableMul_length {dst x m : Table F} {l : F} {nCore : Int} (h : tableMul dst l x nCore = .ok m) :
    m.length = x.length := by
  by_cases hn : 1 ≤ nCore
  · rw [tableMul_eq _ _ _ hn] at h
    have := Except.ok.inj h; subst this; simp
  · exfalso
    unfold tableMul at h
    dsimp only at h
    by_cases h0 : nCore = 0
    · subst h0; simp [intoChunkRanges] at h
    · rw [intoChunkRanges_eq h0] at h
      simp only [ok_bind, newSemaphore, if_pos (by omega : nCore < 0)] at h
      cases h

theorem tableSub_length {dst l r m : Table F} {nCore : Int} (h : tableSub dst l r nCore = .ok m) :
    m.length = l.length := by
  by_cases hn : 1 ≤ nCore
  · by_cases hr : r.length = l.length
    · rw [tableSub_eq _ _ _ hn hr] at h
      have := Except.ok.inj h; subst this; simp [hr]
    · exfalso
      unfold tableSub at h
      dsimp only at h
      rw [intoChunkRanges_eq (by omega)] at h
      simp only [ok_bind, newSemaphore, if_neg (by omega : ¬ nCore < 0), ne_eq, hr, not_false_eq_true, if_true] at h
      cases h
  · exfalso
    unfold tableSub at h
    dsimp only at h
    by_cases h0 : nCore = 0
    · subst h0; simp [intoChunkRanges] at h
    · rw [intoChunkRanges_eq h0] at h
      simp only [ok_bind, newSemaphore, if_pos (by omega : nCore < 0)] at h
      cases h

theorem idx_mem_go {α : Type _} {xs : List α} {i : Nat} {x : α} (h : idx xs i = .ok x) : x ∈ xs := by
  unfold idx at h
  split at h
  · rename_i y hy
    cases h
    exact List.mem_of_getElem? hy
  · cases h

theorem setIdx_mem {α : Type _} {xs ys : List α} {i : Nat} {x : α} (h : setIdx xs i x = .ok ys) :
    ∀ y ∈ ys, y ∈ xs ∨ y = x := by
  unfold setIdx at h
  split at h
  · cases h
    intro y hy
    exact List.mem_or_eq_of_mem_set hy
  · cases h

/-- No table is longer than `L`. -/
def TabLe (L : Nat) (ts : List (Table F)) : Prop := ∀ t ∈ ts, t.length ≤ L

theorem chunkedEqStepW_eq {k i j : Nat} (r : F) {nCore : Int} (hc : IsInt nCore) {res : List (Table F)}
    (hk : k < 63) (hi : i < k) (hj : j < 2 ^ i) {L : Nat} (hL : L ≤ 2 ^ 61) (hres : TabLe L res) :
    chunkedEqStepW k i r nCore j res = chunkedEqStep k i r nCore j res := by
  have h1 : j * 2 ^ (k - i) + 2 ^ (k - i) ≤ 2 ^ k := by
    have e : 2 ^ k = 2 ^ i * 2 ^ (k - i) := by rw [← pow_add]; congr 1; omega
    calc j * 2 ^ (k - i) + 2 ^ (k - i) = (j + 1) * 2 ^ (k - i) := by ring
      _ ≤ 2 ^ i * 2 ^ (k - i) := Nat.mul_le_mul_right _ (by omega)
      _ = 2 ^ k := e.symm
  have h2 : 2 ^ k ≤ 2 ^ 62 := Nat.pow_le_pow_right (by norm_num) (by omega)
  have h3 : 2 ^ (k - 1 - i) ≤ 2 ^ (k - i) := Nat.pow_le_pow_right (by norm_num) (by omega)
  have h4 : 2 ^ i ≤ 2 ^ k := Nat.pow_le_pow_right (by norm_num) (by omega)
  have h5 : 0 < 2 ^ (k - i) := by positivity
  have h6 : 0 < 2 ^ (k - 1 - i) := by positivity
  unfold chunkedEqStepW chunkedEqStep
  rw [wSub_eq (a := k) (b := i) (by omega) (by omega), wSub_eq (a := k) (b := 1) (by omega) (by omega),
    wSub_eq (a := k - 1) (b := i) (by omega) (by omega),
    wShl_eq (by omega) (by omega) (by omega), wShl_eq (by omega) (by omega) (by omega)]
  simp only [ok_bind]
  rw [wAdd_eq (by rw [Nat.shiftLeft_eq, Nat.shiftLeft_eq]; omega)]
  refine bind_congr_go (fun dst _ => bind_congr_go (fun x hx => ?_))
  have hx' := hres x (idx_mem_go hx)
  rw [tableMulW_eq _ _ _ hc (by omega)]
  refine bind_congr_go (fun m hm => bind_congr_go (fun res' hres' => bind_congr_go (fun l hl => bind_congr_go (fun r _ => ?_))))
  have hl' : l.length ≤ L := by
    rcases setIdx_mem hres' l (idx_mem_go hl) with h | h
    · exact hres l h
    · rw [h, tableMul_length hm]; exact hx'
  rw [tableSubW_eq _ _ _ hc (by omega)]

theorem chunkedEqStep_le {k i j : Nat} {r : F} {nCore : Int} {res res' : List (Table F)} {L : Nat} (hres : TabLe L res)
    (h : chunkedEqStep k i r nCore j res = .ok res') : TabLe L res' := by
  unfold chunkedEqStep at h
  simp only at h
  cases h1 : idx res (j <<< (k - i) + 1 <<< (k - 1 - i)) with
  | error e => rw [h1] at h; cases h
  | ok dst =>
  rw [h1] at h; simp only [ok_bind] at h
  cases h2 : idx res (j <<< (k - i)) with
  | error e => rw [h2] at h; cases h
  | ok x =>
  rw [h2] at h; simp only [ok_bind] at h
  cases h3 : tableMul dst r x nCore with
  | error e => rw [h3] at h; cases h
  | ok m =>
  rw [h3] at h; simp only [ok_bind] at h
  cases h4 : setIdx res (j <<< (k - i) + 1 <<< (k - 1 - i)) m with
  | error e => rw [h4] at h; cases h
  | ok res1 =>
  rw [h4] at h; simp only [ok_bind] at h
  cases h5 : idx res1 (j <<< (k - i)) with
  | error e => rw [h5] at h; cases h
  | ok l =>
  rw [h5] at h; simp only [ok_bind] at h
  cases h6 : idx res1 (j <<< (k - i) + 1 <<< (k - 1 - i)) with
  | error e => rw [h6] at h; cases h
  | ok rr =>
  rw [h6] at h; simp only [ok_bind] at h
  cases h7 : tableSub l l rr nCore with
  | error e => rw [h7] at h; cases h
  | ok s =>
  rw [h7] at h; simp only [ok_bind] at h
  have hres1 : TabLe L res1 := by
    intro t ht
    rcases setIdx_mem h4 t ht with h | h
    · exact hres t h
    · rw [h, tableMul_length h3]; exact hres x (idx_mem_go h2)
  intro t ht
  rcases setIdx_mem h t ht with h | h
  · exact hres1 t h
  · rw [h, tableSub_length h7]; exact hres1 l (idx_mem_go h5)

theorem sliceTo_wSub {α : Type _} {xs : List α} {k : Nat} (h : xs.length < 2 ^ 63) (hk : k < 2 ^ 63) :
    sliceTo xs (wSub xs.length k) = (goSubBound xs.length k >>= fun cut => .ok (xs.take cut)) := by
  unfold goSubBound
  by_cases hle : k ≤ xs.length
  · rw [wSub_eq hle h, if_pos hle]
    unfold sliceTo
    rw [if_pos (by omega)]; rfl
  · have := wSub_big (by omega : xs.length < k) hk
    rw [if_neg hle]
    unfold sliceTo
    rw [if_neg (by omega)]; rfl

theorem getChunkedEqTableW_eq {lim : Nat} (hl : lim ≤ 2 ^ 61) (q : List F) {nChunks : Nat} {nCore : Int} (hc : IsInt nCore)
    (hn : nChunks ≤ 2 ^ 61) (hq : q.length ≤ 2 ^ 61) (h : 2 ^ (q.length - log2Ceil (nChunks : Int)) ≤ lim) :
    getChunkedEqTableW lim q nChunks nCore = getChunkedEqTable q nChunks nCore ∧
    ∀ ts, getChunkedEqTable q nChunks nCore = .ok ts → TabLe lim ts := by
  have hk : log2Ceil (nChunks : Int) ≤ 61 := log2Ceil_le_of_le (by norm_num) hn
  unfold getChunkedEqTableW getChunkedEqTable
  dsimp only
  rw [log2CeilW_nat (by omega)]
  simp only [ok_bind]
  rw [sliceTo_wSub (by omega) (by omega)]
  generalize log2Ceil (nChunks : Int) = k at *
  unfold goSubBound
  by_cases hle : k ≤ q.length
  · rw [if_pos hle]
    simp only [ok_bind]
    rw [getFoldedEqTableW_eq (by omega) _ (by rw [List.length_take, Nat.min_eq_left (by omega)]; exact h), getFoldedEqTable_eq]
    simp only [ok_bind]
    rw [wSub_eq hle (by omega)]
    have hlen : (tab (2 ^ (q.take (q.length - k)).length) (Spec.chi (q.take (q.length - k)))).length ≤ lim := by
      rw [List.length_take, Nat.min_eq_left (by omega)]; simpa [tab] using h
    cases hs : setIdx (List.replicate nChunks ([] : Table F)) 0
        (tab (2 ^ (q.take (q.length - k)).length) (Spec.chi (q.take (q.length - k)))) with
    | error e => exact ⟨rfl, fun ts h => by cases h⟩
    | ok res =>
    simp only [ok_bind]
    have hres : TabLe lim res := by
      intro t ht
      rcases setIdx_mem hs t ht with h | h
      · rw [List.eq_of_mem_replicate h]; simp
      · rw [h]; exact hlen
    unfold sliceFrom
    rw [if_pos (by omega)]
    simp only [ok_bind]
    have hlen2 : (q.drop (q.length - k)).length = k := by rw [List.length_drop]; omega
    rw [hlen2]
    have inner : ∀ i < k, ∀ (r : F) (s : List (Table F)), TabLe lim s →
        forN (1 <<< i) s (chunkedEqStepW k i r nCore) = forN (1 <<< i) s (chunkedEqStep k i r nCore) ∧
        ∀ s', forN (1 <<< i) s (chunkedEqStep k i r nCore) = .ok s' → TabLe lim s' := by
      intro i hi r s hs
      refine forN_congr_inv (TabLe lim) _ _ hs (fun j _ s s' h1 h2 => chunkedEqStep_le h1 h2) (fun j hj s h1 => ?_)
      rw [Nat.shiftLeft_eq, one_mul] at hj
      exact chunkedEqStepW_eq r hc (by omega) hi hj hl h1
    refine forN_congr_inv (TabLe lim) _ _ hres (fun i hi s s' hs h1 => ?_) (fun i hi s hs => bind_congr_go (fun r _ => ?_))
    · cases hr : idx (q.drop (q.length - k)) i with
      | error e => rw [hr] at h1; cases h1
      | ok r => rw [hr] at h1; exact (inner i hi r s hs).2 s' h1
    · have h4 : 2 ^ i ≤ 2 ^ 61 := Nat.pow_le_pow_right (by norm_num) (by omega)
      rw [wShl_eq (by omega) (by omega) (by omega)]
      simp only [ok_bind]
      rw [wIter_eq (by rw [Nat.shiftLeft_eq]; omega)]
      exact (inner i hi r s hs).1
  · rw [if_neg hle]
    exact ⟨rfl, fun ts h => by cases h⟩

/-! ### Chunked evaluation -/

theorem recombineStepW_eq {inp : List (Table F)} (q : F) (hi : inp.length ≤ 2 ^ 61) {L : Nat} (hL : L ≤ 2 ^ 61) (h : TabLe L inp) :
    recombineStepW inp q = recombineStep inp q := by
  unfold recombineStepW recombineStep
  dsimp only
  rw [wHalf_eq (by omega), wIter_eq (by omega)]
  refine gen_congr _ (fun k hk => ?_)
  rw [wAdd_eq (by omega)]
  refine bind_congr_go (fun hi hhi => bind_congr_go (fun lo _ => ?_))
  have h1 := h hi (idx_mem_go hhi)
  rw [tableSubW_eq _ _ _ (by constructor <;> norm_num) (by omega)]
  refine bind_congr_go (fun t ht => ?_)
  have h2 := tableSub_length ht
  rw [tableMulW_eq _ _ _ (by constructor <;> norm_num) (by omega)]

theorem tableAdd_length {dst l r m : Table F} (h : tableAdd dst l r = .ok m) : m.length = l.length := by
  by_cases hr : r.length = l.length
  · rw [tableAdd_eq _ _ _ hr] at h
    have := Except.ok.inj h; subst this; simp [hr]
  · exfalso
    unfold tableAdd at h
    simp only [ne_eq, hr, not_false_eq_true, if_true] at h
    cases h

theorem genM_mem {β : Type _} {f : Nat → Go β} : ∀ (n k : Nat) (ys : List β), genM f k n = .ok ys → ∀ y ∈ ys, ∃ i, f i = .ok y
  | 0, _, ys, h, y, hy => by cases h; cases hy
  | n + 1, k, ys, h, y, hy => by
    rw [genM] at h
    cases hf : f k with
    | error e => rw [hf] at h; cases h
    | ok z =>
      rw [hf] at h
      simp only at h
      cases hg : genM f (k + 1) n with
      | error e => rw [hg] at h; cases h
      | ok zs =>
        rw [hg] at h
        cases h
        rcases List.mem_cons.1 hy with rfl | hy
        · exact ⟨k, hf⟩
        · exact genM_mem n (k + 1) zs hg y hy

theorem genM_length {β : Type _} {f : Nat → Go β} : ∀ (n k : Nat) (ys : List β), genM f k n = .ok ys → ys.length = n
  | 0, _, ys, h => by cases h; rfl
  | n + 1, k, ys, h => by
    rw [genM] at h
    cases hf : f k with
    | error e => rw [hf] at h; cases h
    | ok z =>
      rw [hf] at h
      simp only at h
      cases hg : genM f (k + 1) n with
      | error e => rw [hg] at h; cases h
      | ok zs =>
        rw [hg] at h
        cases h
        simp [genM_length n (k + 1) zs hg]

theorem recombineStep_le {inp res : List (Table F)} {q : F} {L : Nat} (h : TabLe L inp) (hr : recombineStep inp q = .ok res) :
    TabLe L res ∧ res.length ≤ inp.length := by
  unfold recombineStep gen at hr
  dsimp only at hr
  refine ⟨fun t ht => ?_, by rw [genM_length _ _ _ hr]; omega⟩
  obtain ⟨i, hi⟩ := genM_mem _ _ _ hr t ht
  cases h1 : idx inp (i + inp.length / 2) with
  | error e => rw [h1] at hi; cases hi
  | ok hi' =>
  rw [h1] at hi; simp only [ok_bind] at hi
  cases h2 : idx inp i with
  | error e => rw [h2] at hi; cases hi
  | ok lo =>
  rw [h2] at hi; simp only [ok_bind] at hi
  cases h3 : tableSub [] hi' lo 1 with
  | error e => rw [h3] at hi; cases hi
  | ok a =>
  rw [h3] at hi; simp only [ok_bind] at hi
  cases h4 : tableMul a q a 1 with
  | error e => rw [h4] at hi; cases hi
  | ok b =>
  rw [h4] at hi; simp only [ok_bind] at hi
  rw [tableAdd_length hi, tableMul_length h4, tableSub_length h3]
  exact h _ (idx_mem_go h1)

theorem chunkedEvalRecombineW_eq {bkts : List (Table F)} (qs : List F) (hb : bkts.length ≤ 2 ^ 61) {L : Nat} (hL : L ≤ 2 ^ 61)
    (h : TabLe L bkts) : chunkedEvalRecombineW bkts qs = chunkedEvalRecombine bkts qs := by
  unfold chunkedEvalRecombineW chunkedEvalRecombine
  rw [log2CeilW_nat (by omega)]
  simp only [ok_bind]
  split
  · rfl
  · have := (forEach_congr_inv (f := fun q (s : List (Table F) × List (Table F)) => do
        let res ← recombineStepW s.1 q
        return (res, res)) (g := fun q s => do
        let res ← recombineStep s.1 q
        return (res, res)) (fun s => TabLe L s.1 ∧ s.1.length ≤ 2 ^ 61) qs (bkts, []) ⟨h, hb⟩ (by
          intro q _ s s' hs h1
          cases h2 : recombineStep s.1 q with
          | error e => rw [h2] at h1; cases h1
          | ok r =>
            rw [h2] at h1
            cases h1
            obtain ⟨h3, h4⟩ := recombineStep_le hs.1 h2
            exact ⟨h3, by have := hs.2; dsimp only; omega⟩) (by
          intro q _ s hs
          rw [recombineStepW_eq q hs.2 hL hs.1])).1
    rw [this]

theorem evaluateChunkedW_eq {bkts : List (Table F)} (q : List F) (hb : bkts.length ≤ 2 ^ 61) {L : Nat} (hL : L ≤ 2 ^ 61)
    (h : TabLe L bkts) (hq : q.length ≤ 2 ^ 61) : evaluateChunkedW bkts q = evaluateChunked bkts q := by
  have hk : log2Ceil (bkts.length : Int) ≤ 61 := log2Ceil_le_of_le (by norm_num) hb
  unfold evaluateChunkedW evaluateChunked
  dsimp only
  rw [log2CeilW_nat (by omega)]
  simp only [ok_bind]
  rw [sliceTo_wSub (by omega) (by omega)]
  generalize log2Ceil (bkts.length : Int) = k at *
  unfold goSubBound sliceFrom
  by_cases hle : k ≤ q.length
  · rw [if_pos hle, wSub_eq hle (by omega), if_pos (by omega)]
    simp only [ok_bind]
    rw [chunkedEvalRecombineW_eq _ hb hL h]
  · have := wSub_big (by omega : q.length < k) (by omega)
    rw [if_neg hle, if_neg (by omega)]
    rfl

theorem evaluateMixedChunkedW_eq {bkts : List (Table F)} (hp hL' hR : List F) (hb : bkts.length ≤ 2 ^ 61) {L : Nat} (hL : L ≤ 2 ^ 61)
    (h : TabLe L bkts) (hq : hp.length ≤ 2 ^ 61) :
    evaluateMixedChunkedW bkts hp hL' hR = evaluateMixedChunked bkts hp hL' hR := by
  have hk : log2Ceil (bkts.length : Int) ≤ 61 := log2Ceil_le_of_le (by norm_num) hb
  unfold evaluateMixedChunkedW evaluateMixedChunked
  dsimp only
  rw [log2CeilW_nat (by omega)]
  simp only [ok_bind]
  rw [sliceTo_wSub (by omega) (by omega)]
  generalize log2Ceil (bkts.length : Int) = k at *
  rw [sgn_nat (by omega), sgn_nat (by omega)]
  unfold goSubBound sliceFrom
  by_cases hle : k ≤ hp.length
  · have h1 : ¬ ((k : Nat) : Int) > (hp.length : Int) := by omega
    have h2 : ¬ k > hp.length := by omega
    rw [if_neg h1, if_neg h2, if_pos hle, wSub_eq hle (by omega), if_pos (by omega)]
    simp only [ok_bind]
    rw [chunkedEvalRecombineW_eq _ hb hL h]
  · rw [if_pos (by omega), if_pos (by omega)]

end

end GkrMimc
