import Verif.Proofs.CellSeq
import Verif.Proofs.ConcProve

/-! `GetFoldedEqTable`, `GetChunkedEqTable` and `LinearCombinationOfBookKeepingTables`, single accesses. -/

set_option linter.unusedSectionVars false

namespace GkrMimc

open Spec Finset

variable {F : Type} [Field F] [DecidableEq F]

section
variable {W : Set (Nat × Nat)} {h0 h : Heap (Cell F)} {post : Conf (Heap (Cell F)) (MsgH F) → Prop} {B : Nat}

/-- A loop that does what a loop on values does. -/
theorem GA.forFrom {σ : Type} (R : σ → Heap (Cell F) → Prop) {body : Nat → Unit → (Unit → CProg F) → CProg F} {vbody : Nat → σ → Go σ}
    {k : CProg F} {c n : Nat} {t : σ}
    (hb : ∀ i s s' h B next, i < n → R s h → vbody i s = .ok s' → (∀ h', R s' h' → GA W h0 post B next h' AnyX) →
      GA W h0 post (B + c) (body i () fun _ => next) h AnyX)
    (hk : ∀ h, R t h → GA W h0 post B k h AnyX) (m : Nat) :
    ∀ j s h, j + m = n → GkrMimc.forFrom vbody j m s = .ok t → R s h → GA W h0 post (B + m * c) (loopP body (fun _ => k) j m ()) h AnyX := by
  induction m with
  | zero =>
    intro j s h _ e hi
    cases e
    rw [Nat.zero_mul]
    exact hk h hi
  | succ m ih =>
    intro j s h e1 e hi
    rw [Nat.add_mul, Nat.one_mul, ← Nat.add_assoc]
    rw [GkrMimc.forFrom] at e
    cases hv : vbody j s with
    | error x => rw [hv] at e; cases e
    | ok s' =>
      rw [hv] at e
      exact hb j s s' h _ _ (by omega) hi hv fun h' hi' => ih (j + 1) s' h' (by omega) e hi'

theorem GA.forN {σ : Type} (R : σ → Heap (Cell F) → Prop) {body : Nat → Unit → (Unit → CProg F) → CProg F} {vbody : Nat → σ → Go σ}
    {k : CProg F} {c n : Nat} {s t : σ} (e : GkrMimc.forN n s vbody = .ok t) (hr : R s h)
    (hb : ∀ i s s' h B next, i < n → R s h → vbody i s = .ok s' → (∀ h', R s' h' → GA W h0 post B next h' AnyX) →
      GA W h0 post (B + c) (body i () fun _ => next) h AnyX)
    (hk : ∀ h, R t h → GA W h0 post B k h AnyX) : GA W h0 post (B + n * c) (loopP body (fun _ => k) 0 n ()) h AnyX :=
  GA.forFrom R hb hk n 0 s h (by omega) e hr

/-! ### `LinearCombinationOfBookKeepingTables` -/

theorem linearCombinationC_ga {a b : Slice} {xs ys zs : List F} {a0 a1 : F} {k : Slice → CProg F} (hf : CellFrame W h0 h)
    (hx : HoldsVec h a xs) (hy : HoldsVec h b ys) (hap : Apart a b) (hna : 0 < a.cap → h0.next ≤ a.arr) (hnb : 0 < b.cap → h0.next ≤ b.arr)
    (e : linearCombination xs ys a0 a1 = .ok zs)
    (g : ∀ h', ArrFrame {x | (x = a.arr ∧ 0 < a.cap) ∨ (x = b.arr ∧ 0 < b.cap)} h h' → HoldsVec h' b zs → GA W h0 post B (k b) h' AnyX) :
    GA W h0 post (B + ys.length * 7) (linearCombinationC a b a0 a1 k) h AnyX := by
  have hle : ys.length ≤ xs.length := by
    obtain ⟨hl, hi⟩ := gen_ok_iff e
    by_contra hc
    have h1 := hi xs.length (by omega)
    rw [idx_err le_rfl] at h1
    cases h1
  rw [linearCombination_eq _ _ _ _ hle] at e
  simp only [Except.ok.injEq] at e
  subst e
  have hxl := hx.length
  have hyl := hy.length
  unfold linearCombinationC
  rw [← hyl]
  refine GA.loop (n := ys.length) (fun i _ h' => ArrFrame {x | (x = a.arr ∧ 0 < a.cap) ∨ (x = b.arr ∧ 0 < b.cap)} h h' ∧
    HoldsVec h' a (tab xs.length fun j => if j < i then xs.getD j 0 * a0 else xs.getD j 0) ∧
    HoldsVec h' b (tab ys.length fun j => if j < i then ys.getD j 0 * a1 + xs.getD j 0 * a0 else ys.getD j 0)) ?_ ?_ _ 0 () h (by omega) ?_
  · rintro i _ h2 B next hi ⟨a2, v2, w2⟩ hnext
    have hca : 0 < a.cap := by have := hx.1.len; omega
    have hcb : 0 < b.cap := by have := hy.1.len; omega
    have hne := hap hca hcb
    have inA : ∀ {h' : Heap (Cell F)} {x : Cell F}, ArrFrame {x | (x = a.arr ∧ 0 < a.cap) ∨ (x = b.arr ∧ 0 < b.cap)} h h' →
      ArrFrame {x | (x = a.arr ∧ 0 < a.cap) ∨ (x = b.arr ∧ 0 < b.cap)} h (h'.put a i x) := fun f => f.put _ fun _ => .inl ⟨rfl, hca⟩
    have inB : ∀ {h' : Heap (Cell F)} {x : Cell F}, ArrFrame {x | (x = a.arr ∧ 0 < a.cap) ∨ (x = b.arr ∧ 0 < b.cap)} h h' →
      ArrFrame {x | (x = a.arr ∧ 0 < a.cap) ∨ (x = b.arr ∧ 0 < b.cap)} h (h'.put b i x) := fun f => f.put _ fun _ => .inr ⟨rfl, hcb⟩
    have cf : ∀ {h'}, ArrFrame {x | (x = a.arr ∧ 0 < a.cap) ∨ (x = b.arr ∧ 0 < b.cap)} h h' → CellFrame W h0 h' := fun f =>
      ArrFrame.cell hf f (by rintro x (⟨rfl, hc⟩ | ⟨rfl, hc⟩); exacts [hna hc, hnb hc])
    have pa : ∀ {h' : Heap (Cell F)} {x : Cell F} {l : List F}, HoldsVec h' b l → HoldsVec (h'.put a i x) b l := fun v =>
      v.arrFrame (A := {a.arr}) ((ArrFrame.refl _ _).put _ fun _ => rfl) fun _ he => hne he.symm
    have pb : ∀ {h' : Heap (Cell F)} {x : Cell F} {l : List F}, HoldsVec h' a l → HoldsVec (h'.put b i x) a l := fun v =>
      v.arrFrame (A := {b.arr}) ((ArrFrame.refl _ _).put _ fun _ => rfl) fun _ he => hne he
    rw [show B + 7 = B + 1 + 1 + 1 + 1 + 1 + 1 + 1 by rfl]
    refine GA.loadV (x := xs.getD i 0) (cf a2) v2.2 (by simp [show i < xs.length by omega]) ?_
    refine GA.put (cf a2) (by omega) ?_
    have v3 := v2.set i (xs.getD i 0 * a0)
    have w3 := pa (x := .elem (xs.getD i 0 * a0)) w2
    have a3 := inA (x := .elem (xs.getD i 0 * a0)) a2
    refine GA.loadV (x := ys.getD i 0) (cf a3) w3.2 (by simp [hi]) ?_
    refine GA.put (cf a3) (by omega) ?_
    have v4 := pb (x := .elem (ys.getD i 0 * a1)) v3
    have w4 := w3.set i (ys.getD i 0 * a1)
    have a4 := inB (x := .elem (ys.getD i 0 * a1)) a3
    refine GA.loadV (x := ys.getD i 0 * a1) (cf a4) w4.2 (by simp [hi]) ?_
    refine GA.loadV (x := xs.getD i 0 * a0) (cf a4) v4.2 (by simp [show i < xs.length by omega]) ?_
    refine GA.put (cf a4) (by omega) ?_
    have v5 := pb (x := .elem (ys.getD i 0 * a1 + xs.getD i 0 * a0)) v4
    have w5 := w4.set i (ys.getD i 0 * a1 + xs.getD i 0 * a0)
    have a5 := inB (x := .elem (ys.getD i 0 * a1 + xs.getD i 0 * a0)) a4
    refine hnext () _ ⟨a5, ?_, ?_⟩
    · convert v5 using 1
      rw [tab_set]
      refine tab_congr fun j _ => ?_
      simp only [Function.update_apply]
      by_cases e1 : j = i
      · subst e1; simp
      · rw [if_neg e1]
        by_cases e2 : j < i
        · rw [if_pos e2, if_pos (by omega)]
        · rw [if_neg e2, if_neg (by omega)]
    · convert w5 using 1
      rw [tab_set, tab_set]
      refine tab_congr fun j _ => ?_
      simp only [Function.update_apply]
      by_cases e1 : j = i
      · subst e1; simp
      · rw [if_neg e1, if_neg e1]
        by_cases e2 : j < i
        · rw [if_pos e2, if_pos (by omega)]
        · rw [if_neg e2, if_neg (by omega)]
  · rintro _ h2 ⟨a2, _, w2⟩
    refine g h2 a2 ?_
    convert w2 using 1
    exact tab_congr fun j hj => by rw [if_pos hj]
  · refine ⟨ArrFrame.refl _ _, ?_, ?_⟩
    · convert hx using 1
      conv_rhs => rw [eq_tab xs 0]
      exact tab_congr fun j _ => by rw [if_neg (by omega)]
    · convert hy using 1
      conv_rhs => rw [eq_tab ys 0]
      exact tab_congr fun j _ => by rw [if_neg (by omega)]

/-! ### `GetFoldedEqTable` -/

/-- How many steps `GetFoldedEqTable` takes at most. -/
def foldedEqSteps (n : Nat) : Nat := n * ((1 <<< n) * 5) + 1 + 1

theorem setIdx_ok_iff {α : Type} {xs ys : List α} {i : Nat} {v : α} (h : setIdx xs i v = .ok ys) : i < xs.length ∧ ys = xs.set i v := by
  unfold setIdx at h
  split at h
  next hi => exact ⟨hi, (Except.ok.inj h).symm⟩
  · cases h

theorem getFoldedEqTableC_ga {q t : List F} {k : Slice → CProg F} (hf : CellFrame W h0 h) (e : getFoldedEqTable q = .ok t)
    (g : ∀ h' d, d.arr = h.next → d.cap = 1 <<< q.length → d.arr < h'.next → ArrFrame ∅ h h' → HoldsVec h' d t → GA W h0 post B (k d) h' AnyX) :
    GA W h0 post (B + foldedEqSteps q.length) (getFoldedEqTableC q k) h AnyX := by
  unfold getFoldedEqTableC foldedEqSteps
  unfold getFoldedEqTable at e
  simp only at e ⊢
  obtain ⟨t0, e0, e⟩ := bind_eq_ok.1 e
  obtain ⟨hi0, rfl⟩ := setIdx_ok_iff e0
  rw [← Nat.add_assoc, ← Nat.add_assoc]
  refine GA.make hf ?_
  have hv := (holdsVec_make h (1 <<< q.length)).set 0 1
  have ha : ArrFrame ∅ h ((h.alloc fun _ => (.elem 0 : Cell F)).put ⟨h.next, 0, 1 <<< q.length, 1 <<< q.length⟩ 0 (.elem 1)) :=
    ((ArrFrame.refl ∅ h).alloc _).put _ fun hh => absurd hh (lt_irrefl _)
  have hlt : h.next < ((h.alloc fun _ => (.elem 0 : Cell F)).put ⟨h.next, 0, 1 <<< q.length, 1 <<< q.length⟩ 0 (.elem 1)).next := Nat.lt_succ_self _
  refine GA.put (hf.alloc _) (by simp) ?_
  generalize Heap.put _ _ _ _ = h1 at hv ha hlt ⊢
  set d : Slice := ⟨h.next, 0, 1 <<< q.length, 1 <<< q.length⟩ with hd
  refine GA.forN (fun t h' => ArrFrame ∅ h h' ∧ h.next < h'.next ∧ HoldsVec h' d t) e ⟨ha, hlt, hv⟩ ?_ ?_
  · rintro i t1 t2 h2 B next hi ⟨a2, l2, v2⟩ e2 hnext
    obtain ⟨r, er, e3⟩ := bind_eq_ok.1 e2
    rw [er, liftGo_ok]
    refine GA.mono (B := B + (1 <<< i) * 5) ?_ ?_
    · refine GA.forN (fun t h' => ArrFrame ∅ h h' ∧ h.next < h'.next ∧ HoldsVec h' d t) e3 ⟨a2, l2, v2⟩ ?_ hnext
      rintro j s1 s2 h3 B next hj ⟨a3, l3, v3⟩ e4 hnext
      unfold foldedEqStep at e4
      simp only at e4 ⊢
      obtain ⟨x, ex, e5⟩ := bind_eq_ok.1 e4
      obtain ⟨s3, es, e6⟩ := bind_eq_ok.1 e5
      obtain ⟨hn1, rfl⟩ := setIdx_ok_iff es
      obtain ⟨x', ex', e7⟩ := bind_eq_ok.1 e6
      obtain ⟨y, ey, e8⟩ := bind_eq_ok.1 e7
      obtain ⟨hn2, rfl⟩ := setIdx_ok_iff e8
      rw [idx_eq_ok] at ex ex' ey
      have hl3 := v3.length
      rw [show B + 5 = B + 1 + 1 + 1 + 1 + 1 by rfl]
      refine GA.loadV (ArrFrame.cell hf a3 (by simp)) v3.2 ex ?_
      refine GA.put (ArrFrame.cell hf a3 (by simp)) (by omega) ?_
      have a4 := a3.put (s := d) (i := j <<< (q.length - i) + 1 <<< (q.length - 1 - i)) (.elem (r * x)) fun hh => absurd hh (lt_irrefl _)
      have v4 := v3.set (j <<< (q.length - i) + 1 <<< (q.length - 1 - i)) (r * x)
      refine GA.loadV (ArrFrame.cell hf a4 (by simp)) v4.2 ex' ?_
      refine GA.loadV (ArrFrame.cell hf a4 (by simp)) v4.2 ey ?_
      refine GA.put (ArrFrame.cell hf a4 (by simp)) (by rw [List.length_set] at hn2; omega) ?_
      exact hnext _ ⟨a4.put _ fun hh => absurd hh (lt_irrefl _), l3, v4.set _ _⟩
    · have : 1 <<< i ≤ 1 <<< q.length := by
        rw [Nat.one_shiftLeft, Nat.one_shiftLeft]
        exact Nat.pow_le_pow_right (by omega) hi.le
      omega
  · rintro h2 ⟨a2, l2, v2⟩
    exact g h2 d rfl rfl l2 a2 v2

/-! ### `GetChunkedEqTable` -/

theorem HoldsVec.congr {h h' : Heap (Cell F)} {s : Slice} {xs : List F} (v : HoldsVec h s xs) (hle : h.next ≤ h'.next)
    (hc : ∀ i < s.len, h'.cells s.arr (s.off + i) = h.cells s.arr (s.off + i)) : HoldsVec h' s xs :=
  ⟨⟨v.1.len, fun c => lt_of_lt_of_le (v.1.arr c) hle⟩, (vals_congr hc).trans v.2⟩

theorem pairwise_set' {ds : List Slice} {i : Nat} {d : Slice} (hp : ds.Pairwise Apart) (hd : ∀ k (hk : k < ds.length), k ≠ i → Apart d ds[k]) :
    (ds.set i d).Pairwise Apart := by
  rw [List.pairwise_iff_getElem] at hp ⊢
  intro a b ha hb hab
  simp only [List.length_set] at ha hb
  simp only [List.getElem_set]
  split
  · rw [if_neg (by omega)]
    exact hd b hb (by omega)
  · split
    · exact (hd a ha (by omega)).symm
    · exact hp a b ha hb hab

/-- After `Sub` or `Mul` on a table of a slice of tables. -/
theorem TablesAt.out {h h' : Heap (Cell F)} {lo i : Nat} {res t d : Slice} {ds : List Slice} {ts : List (List F)} {zs : List F}
    (T : TablesAt h lo res ds ts) (hi : ds[i]? = some t) (hlo : res.arr < lo) (hln : lo ≤ h.next)
    (O : TableOut h h' ⟨res.arr, res.off + i, 1, 1⟩ t d zs) : TablesAt h' lo res (ds.set i d) (ts.set i zs) := by
  have hlen := vals_len T.vals
  have htm : t ∈ ds := List.mem_of_getElem? hi
  have hil : i < ds.length := by
    by_contra hc
    rw [List.getElem?_eq_none (by omega)] at hi
    cases hi
  have hit : ds[i] = t := by rw [List.getElem?_eq_getElem hil] at hi; exact Option.some.inj hi
  have hra : res.arr < h.next := T.valid.arr (by have := T.valid.len; omega)
  -- the array of the new table
  have hda : 0 < zs.length → lo ≤ d.arr := by
    intro hz
    obtain ⟨_, ⟨q1, _, q3, _⟩ | ⟨q1, _⟩⟩ := O.place
    · rw [q1]; exact T.new t htm (by omega)
    · omega
  have hdc : 0 < d.cap → lo ≤ d.arr := by
    intro hz
    obtain ⟨_, ⟨q1, _, q3, q4⟩ | ⟨q1, _⟩⟩ := O.place
    · rw [q1]; exact T.new t htm (by omega)
    · omega
  have hsafe : ∀ k (hk : k < ds.length), k ≠ i → Apart d ds[k] := by
    intro k hk hne h1 h2
    obtain ⟨_, ⟨q1, _, q3, q4⟩ | ⟨q1, _⟩⟩ := O.place
    · rw [q1, ← hit]
      rcases lt_or_gt_of_ne hne with hlt | hgt
      · exact (List.pairwise_iff_getElem.1 T.apart k i hk hil hlt).symm (by rw [hit]; omega) h2
      · exact List.pairwise_iff_getElem.1 T.apart i k hil hk hgt (by rw [hit]; omega) h2
    · have hv := (List.forall₂_iff_get.1 T.holds).2 k hk (by rw [← T.holds.length_eq]; exact hk)
      have := hv.1.arr h2
      simp only [List.get_eq_getElem] at this
      omega
  refine ⟨⟨T.valid.len, fun hc => lt_of_lt_of_le (T.valid.arr hc) O.frame.1⟩, ?_, ?_, pairwise_set' T.apart hsafe, ?_⟩
  · have hv := T.vals
    apply List.ext_getElem
    · simp [Heap.vals, ← hlen]
    · intro k hk1 hk2
      have hkl : k < ds.length := by simpa using hk2
      have e1 : (h'.vals res)[k] = h'.get res k := by simp [Heap.vals]
      rw [e1, List.getElem_map, List.getElem_set]
      split
      next he =>
        subst he
        have := O.hdr
        simpa [Heap.get] using this
      next he =>
        have e2 : (h.vals res)[k]'(by rw [hv]; simpa using hkl) = h.get res k := by simp [Heap.vals]
        have e3 : h.get res k = .hdr ds[k] := by rw [← e2]; simp [hv]
        rw [← e3]
        refine O.frame.2 (res.arr, res.off + k) hra ?_
        rintro (hm | ⟨q1, q2, q3⟩)
        · have := ((Prod.mk.injEq _ _ _ _).mp (Set.mem_singleton_iff.1 hm)).2
          simp only at this
          omega
        · have q1 : res.arr = d.arr := q1
          have q2 : d.off ≤ res.off + k := q2
          have q3 : res.off + k < d.off + zs.length := q3
          have := hda (by omega)
          omega
  · refine List.forall₂_iff_get.2 ⟨by simpa using T.holds.length_eq, ?_⟩
    intro k hk1 hk2
    simp only [List.length_set] at hk1 hk2
    simp only [List.get_eq_getElem, List.getElem_set]
    split
    · exact O.holds
    next he =>
      have hv := (List.forall₂_iff_get.1 T.holds).2 k hk1 hk2
      simp only [List.get_eq_getElem] at hv
      have hvl := hv.1.len
      refine hv.congr O.frame.1 fun j hj => O.frame.2 (ds[k].arr, ds[k].off + j) (hv.1.arr (by omega)) ?_
      have hnew := T.new ds[k] (List.getElem_mem _) (by omega)
      rintro (hm | ⟨q1, q2, q3⟩)
      · have := (Prod.mk.injEq _ _ _ _).mp (Set.mem_singleton_iff.1 hm)
        have := this.1
        simp only at this
        omega
      · have q1 : ds[k].arr = d.arr := q1
        have q2 : d.off ≤ ds[k].off + j := q2
        have q3 : ds[k].off + j < d.off + zs.length := q3
        refine hsafe k hk1 (by omega) ?_ (by omega) q1.symm
        have := O.place.1
        have := O.holds.1.len
        omega
  · intro x hx hc
    rcases List.mem_or_eq_of_mem_set hx with hx | rfl
    · exact T.new x hx hc
    · exact hdc hc

theorem Apart.noOverlapC {s u : Slice} {n : Nat} (ap : Apart s u) (vu : Valid h u) (hu : n ≤ u.len) (hs : n ≤ s.cap) : NoOverlap s u n := by
  intro e
  have := vu.len
  by_cases hn : 0 < n
  · exact absurd e (ap (by omega) (by omega))
  · omega

theorem at_ok {res : Slice} {i : Nat} (hi : i < res.len) : res.at i = .ok ⟨res.arr, res.off + i, 1, 1⟩ := by
  unfold Slice.at
  rw [if_pos hi]

/-- How many steps one pass of the inner loop of `GetChunkedEqTable` takes at most, if tables have no or `S` entries. -/
def chunkedEqStepSteps (S : Nat) (nCore : Int) : Nat :=
  (tableSteps 4 0 nCore + tableSteps 4 S nCore) + 1 + 1 + (tableSteps 3 0 nCore + tableSteps 3 S nCore) + 1

theorem chunkedEqStepC_ga {b i j S : Nat} {r : F} {nCore : Int} {lo : Nat} {res : Slice} {ds : List Slice} {ts ts' : List (List F)} {next : CProg F}
    (hn : 1 ≤ nCore) (hf : CellFrame W h0 h) (T : TablesAt h lo res ds ts) (hlo : res.arr < lo) (hln : lo ≤ h.next) (h0r : h0.next ≤ res.arr)
    (hS : ∀ t ∈ ts, t.length = 0 ∨ t.length = S) (e : chunkedEqStep b i r nCore j ts = .ok ts')
    (g : ∀ h' ds', ArrFrame {a | a = res.arr ∨ lo ≤ a} h h' → TablesAt h' lo res ds' ts' → (∀ t ∈ ts', t.length = 0 ∨ t.length = S) →
      GA W h0 post B next h' AnyX) :
    GA W h0 post (B + chunkedEqStepSteps S nCore)
      (let J := j <<< (b - i)
       let JNext := J + 1 <<< (b - 1 - i)
       liftGo (res.at JNext) fun dst =>
       loadS res J fun x =>
       mulC dst r x nCore <|
       liftGo (res.at J) fun dst =>
       loadS res J fun left =>
       loadS res JNext fun right =>
       subC dst left right nCore next) h AnyX := by
  unfold chunkedEqStep at e
  unfold chunkedEqStepSteps
  simp only at e ⊢
  have hne : j <<< (b - i) ≠ j <<< (b - i) + 1 <<< (b - 1 - i) := by
    rw [Nat.one_shiftLeft]
    have := Nat.pow_pos (n := b - 1 - i) (show 0 < 2 by omega)
    omega
  generalize j <<< (b - i) = J at e hne ⊢
  generalize J + 1 <<< (b - 1 - i) = N at e hne ⊢
  obtain ⟨dst, ed, e⟩ := bind_eq_ok.1 e
  obtain ⟨x, ex, e⟩ := bind_eq_ok.1 e
  obtain ⟨m, em, e⟩ := bind_eq_ok.1 e
  rw [tableMul_eq _ _ _ hn] at em
  simp only [Except.ok.injEq] at em
  subst em
  obtain ⟨ts1, es, e⟩ := bind_eq_ok.1 e
  obtain ⟨hN, rfl⟩ := setIdx_ok_iff es
  obtain ⟨x', ex', e⟩ := bind_eq_ok.1 e
  obtain ⟨y, ey, e⟩ := bind_eq_ok.1 e
  obtain ⟨z, ez, e⟩ := bind_eq_ok.1 e
  obtain ⟨hJ, rfl⟩ := setIdx_ok_iff e
  rw [idx_eq_ok] at ex ex' ey ed
  rw [List.getElem?_set_ne hne.symm, ex] at ex'
  cases ex'
  rw [List.getElem?_set_self hN] at ey
  cases ey
  rw [tableSub_eq _ _ _ hn (by simp)] at ez
  simp only [Except.ok.injEq] at ez
  subst ez
  rw [List.length_set] at hJ
  have hll := T.holds.length_eq
  have hrl := vals_len T.vals
  have hra : res.arr < h.next := T.valid.arr (by have := T.valid.len; omega)
  obtain ⟨sx, hsx⟩ : ∃ sx, ds[J]? = some sx := ⟨_, List.getElem?_eq_getElem (by omega)⟩
  obtain ⟨sd, hsd⟩ : ∃ sd, ds[N]? = some sd := ⟨_, List.getElem?_eq_getElem (by omega)⟩
  have holds : ∀ {h : Heap (Cell F)} {ds : List Slice} {ts : List (List F)} {k : Nat} {s : Slice} {v : List F}, TablesAt h lo res ds ts →
      ds[k]? = some s → ts[k]? = some v → HoldsVec h s v := by
    intro h ds ts k s v T e1 e2
    obtain ⟨q1, rfl⟩ := List.getElem?_eq_some_iff.1 e1
    obtain ⟨q2, rfl⟩ := List.getElem?_eq_some_iff.1 e2
    exact (List.forall₂_iff_get.1 T.holds).2 k q1 q2
  have apart : ∀ {h : Heap (Cell F)} {ds : List Slice} {ts : List (List F)} {k l : Nat} {s u : Slice}, TablesAt h lo res ds ts →
      ds[k]? = some s → ds[l]? = some u → k ≠ l → Apart s u := by
    intro h ds ts k l s u T e1 e2 hne
    obtain ⟨q1, rfl⟩ := List.getElem?_eq_some_iff.1 e1
    obtain ⟨q2, rfl⟩ := List.getElem?_eq_some_iff.1 e2
    rcases lt_or_gt_of_ne hne with hlt | hgt
    · exact List.pairwise_iff_getElem.1 T.apart k l q1 q2 hlt
    · exact (List.pairwise_iff_getElem.1 T.apart l k q2 q1 hgt).symm
  have hx := holds T hsx ex
  have hd := holds T hsd ed
  have hxS := hS x (List.mem_of_getElem? ex)
  have noW : ∀ {s : Slice} {n : Nat}, (0 < s.cap → lo ≤ s.arr) → n ≤ s.cap → s.arr < h0.next → sliceCells s n ⊆ W := by
    rintro s n h1 h2 h3 c ⟨_, c2, c3⟩
    have := h1 (by omega)
    omega
  rw [at_ok (by omega), liftGo_ok]
  rw [show B + (tableSteps 4 0 nCore + tableSteps 4 S nCore + 1 + 1 + (tableSteps 3 0 nCore + tableSteps 3 S nCore) + 1) =
    B + (tableSteps 4 0 nCore + tableSteps 4 S nCore) + 1 + 1 + (tableSteps 3 0 nCore + tableSteps 3 S nCore) + 1 by ring]
  refine GA.loadH hf T.vals hsx ?_
  have n1 := T.new sd (List.mem_of_getElem? hsd)
  refine GA.mono (B := B + (tableSteps 4 0 nCore + tableSteps 4 S nCore) + 1 + 1 + tableSteps 3 x.length nCore) ?_ (by
    rcases hxS with q | q <;> rw [q] <;> omega)
  have ht1 : h.get ⟨res.arr, res.off + N, 1, 1⟩ 0 = .hdr sd := by
    obtain ⟨_, he⟩ := vals_get T.vals hsd
    simpa [Heap.get] using he
  refine mulC_ga hn (by simp) hra ht1 hd.1.arr (fun hc => by have := n1 hc; show res.arr ≠ _; omega)
    ⟨hx, fun hc => (apart T hsd hsx hne.symm).noOverlapC hx.1 le_rfl hc⟩ hf (fun hh => absurd hh (not_lt.2 h0r)) (noW n1) fun h1 d1 O1 => ?_
  have T1 := T.out hsd hlo hln O1
  have hz1 : 0 < (x.map (· * r)).length → lo ≤ d1.arr := by
    intro hz
    obtain ⟨_, ⟨q1, _, q3, _⟩ | ⟨q1, _⟩⟩ := O1.place
    · rw [q1]; exact n1 (by omega)
    · omega
  have A1 : ArrFrame {a | a = res.arr ∨ lo ≤ a} h h1 := O1.frame.toArr (by
    rintro c (rfl | hm)
    · exact .inl rfl
    · obtain ⟨m1, m2, m3⟩ := hm
      exact .inr (by rw [m1]; exact hz1 (by omega)))
  have hf1 : CellFrame W h0 h1 := ArrFrame.cell hf A1 (by rintro a (rfl | ha); exacts [h0r, by omega])
  rw [at_ok (by omega), liftGo_ok]
  have hsx1 : (ds.set N d1)[J]? = some sx := by rw [List.getElem?_set_ne hne.symm]; exact hsx
  have hsd1 : (ds.set N d1)[N]? = some d1 := by rw [List.getElem?_set_self (by omega)]
  have hx1 : HoldsVec h1 sx x := holds T1 hsx1 (by rw [List.getElem?_set_ne hne.symm]; exact ex)
  refine GA.loadH hf1 T1.vals hsx1 ?_
  refine GA.loadH hf1 T1.vals hsd1 ?_
  have n2 := T1.new sx (List.mem_of_getElem? hsx1)
  refine GA.mono (B := B + tableSteps 4 x.length nCore) ?_ (by
    rcases hxS with q | q <;> rw [q] <;> omega)
  have ht2 : h1.get ⟨res.arr, res.off + J, 1, 1⟩ 0 = .hdr sx := by
    obtain ⟨_, he⟩ := vals_get T1.vals hsx1
    simpa [Heap.get] using he
  refine subC_ga hn (by simp) (lt_of_lt_of_le hra A1.1) ht2 hx1.1.arr (fun hc => by have := n2 hc; show res.arr ≠ _; omega)
    ⟨hx1, fun _ => noOverlap_self _ _⟩ ⟨O1.holds, fun hc => (apart T1 hsx1 hsd1 hne).noOverlapC O1.holds.1 le_rfl hc⟩ (by simp) hf1
    (fun hh => absurd hh (not_lt.2 h0r)) (noW n2) fun h2 d2 O2 => ?_
  have T2 := T1.out hsx1 hlo (hln.trans A1.1) O2
  refine g h2 _ (A1.trans (O2.frame.toArr (A := {a | a = res.arr ∨ lo ≤ a}) ?_) fun _ h _ => h) T2 ?_
  · rintro c (rfl | hm)
    · exact .inl rfl
    · obtain ⟨m1, m2, m3⟩ := hm
      refine .inr ?_
      rw [m1]
      obtain ⟨_, ⟨q1, _, q3, _⟩ | ⟨q1, _⟩⟩ := O2.place
      · rw [q1]; exact n2 (by omega)
      · have := A1.1; omega
  · intro t ht
    rcases List.mem_or_eq_of_mem_set ht with ht | rfl
    · rcases List.mem_or_eq_of_mem_set ht with ht | rfl
      · exact hS t ht
      · simpa using hxS
    · simpa using hxS

/-- How many steps `GetChunkedEqTable` takes at most. -/
def chunkedEqSteps (q : List F) (nChunks : Nat) (nCore : Int) : Nat :=
  log2Ceil nChunks * ((1 <<< log2Ceil nChunks) * chunkedEqStepSteps (2 ^ (q.length - log2Ceil nChunks)) nCore) + 1 +
    foldedEqSteps (q.length - log2Ceil nChunks) + 1

theorem getChunkedEqTableC_ga {q : List F} {n : Nat} {nCore : Int} {ts : List (List F)} {k : Slice → CProg F} (hn : 1 ≤ nCore)
    (hf : CellFrame W h0 h) (e : getChunkedEqTable q n nCore = .ok ts)
    (g : ∀ h' res ds, res.arr = h.next → ArrFrame ∅ h h' → TablesAt h' (h.next + 1) res ds ts → GA W h0 post B (k res) h' AnyX) :
    GA W h0 post (B + chunkedEqSteps q n nCore) (getChunkedEqTableC q n nCore k) h AnyX := by
  unfold getChunkedEqTableC chunkedEqSteps
  unfold getChunkedEqTable at e
  simp only at e ⊢
  obtain ⟨cut, ec, e⟩ := bind_eq_ok.1 e
  obtain ⟨eq0, e0, e⟩ := bind_eq_ok.1 e
  obtain ⟨ts0, es, e⟩ := bind_eq_ok.1 e
  obtain ⟨hn0, rfl⟩ := setIdx_ok_iff es
  obtain ⟨qs, eqs, e⟩ := bind_eq_ok.1 e
  have hcut : log2Ceil n ≤ q.length ∧ cut = q.length - log2Ceil n := by
    unfold goSubBound at ec
    split at ec
    next h => exact ⟨h, (Except.ok.inj ec).symm⟩
    · cases ec
  have hqs : qs.length = log2Ceil n := by
    unfold sliceFrom at eqs
    split at eqs
    · cases eqs
      rw [List.length_drop]
      omega
    · cases eqs
  rw [show B + (log2Ceil (n : Int) * ((1 <<< log2Ceil (n : Int)) * chunkedEqStepSteps (2 ^ (q.length - log2Ceil (n : Int))) nCore) + 1 +
    foldedEqSteps (q.length - log2Ceil (n : Int)) + 1) =
    B + log2Ceil (n : Int) * ((1 <<< log2Ceil (n : Int)) * chunkedEqStepSteps (2 ^ (q.length - log2Ceil (n : Int))) nCore) + 1 +
    foldedEqSteps (q.length - log2Ceil (n : Int)) + 1 by ring]
  refine GA.make hf ?_
  rw [ec, liftGo_ok]
  have f1 : CellFrame W h0 (h.alloc fun _ => (.hdr Slice.nil : Cell F)) := hf.alloc _
  have a1 := (ArrFrame.refl ∅ h).alloc fun _ => (.hdr Slice.nil : Cell F)
  have l1 : h.next + 1 = (h.alloc fun _ => (.hdr Slice.nil : Cell F)).next := rfl
  have v1 : (h.alloc fun _ => (.hdr Slice.nil : Cell F)).vals ⟨h.next, 0, n, n⟩ = List.replicate n (.hdr Slice.nil) := by
    rw [vals_eq, replicate_eq_tab]
    exact tab_congr fun i _ => by simp [Heap.get, Heap.alloc]
  generalize (h.alloc fun _ => (.hdr Slice.nil : Cell F)) = h1 at f1 a1 l1 v1 ⊢
  set res : Slice := ⟨h.next, 0, n, n⟩ with hres
  have hlt : (q.take cut).length = q.length - log2Ceil n := by rw [List.length_take]; omega
  rw [← hlt]
  refine getFoldedEqTableC_ga f1 e0 fun h2 d e2 c2 l2 a2 v2 => ?_
  rw [hlt]
  have a12 : ArrFrame ∅ h h2 := a1.trans a2 (by simp)
  have f2 := ArrFrame.cell hf a12 (by simp)
  have hn0' : 0 < n := by simpa using hn0
  refine GA.put f2 (by exact hn0') ?_
  have hput : ArrFrame {res.arr} h2 (h2.put res 0 (.hdr d)) := (ArrFrame.refl _ h2).put _ fun _ => rfl
  have a3 : ArrFrame ∅ h (h2.put res 0 (.hdr d)) := a12.put _ fun hh => absurd hh (lt_irrefl _)
  have heq0 : eq0.length = 2 ^ (q.length - log2Ceil n) := by
    rw [getFoldedEqTable_eq] at e0
    cases e0
    rw [tab_length, hlt]
  have T0 : TablesAt (h2.put res 0 (.hdr d)) (h.next + 1) res ((List.replicate n Slice.nil).set 0 d) ((List.replicate n []).set 0 eq0) := by
    refine ⟨⟨le_rfl, fun _ => by show h.next < h2.next; omega⟩, ?_, ?_, ?_, ?_⟩
    · rw [vals_put_same, vals_arrFrame (s := res) ⟨le_rfl, fun _ => by show h.next < h1.next; omega⟩ a2 (by simp), v1, List.map_set, List.map_replicate]
    · refine List.forall₂_iff_get.2 ⟨by simp, ?_⟩
      intro i hi1 hi2
      simp only [List.get_eq_getElem, List.getElem_set, List.getElem_replicate]
      split
      · refine v2.arrFrame hput ?_
        intro _ he
        have he : d.arr = h.next := he
        omega
      · exact ⟨⟨le_rfl, fun hc => by simp [Slice.nil] at hc⟩, rfl⟩
    · refine pairwise_set' ?_ ?_
      · refine List.pairwise_iff_getElem.2 ?_
        intro i j _ _ _ h1
        simp [Slice.nil] at h1
      · intro k hk _ _ h2
        simp [Slice.nil] at h2
    · intro x hx hc
      rcases List.mem_or_eq_of_mem_set hx with hx | rfl
      · rw [List.eq_of_mem_replicate hx] at hc
        simp [Slice.nil] at hc
      · omega
  have l3 : h.next + 1 ≤ (h2.put res 0 (.hdr d)).next := by show _ ≤ h2.next; omega
  have hS0 : ∀ t ∈ (List.replicate n ([] : List F)).set 0 eq0, t.length = 0 ∨ t.length = 2 ^ (q.length - log2Ceil n) := by
    intro t ht
    rcases List.mem_or_eq_of_mem_set ht with ht | rfl
    · rw [List.eq_of_mem_replicate ht]
      exact .inl rfl
    · exact .inr heq0
  generalize h2.put res 0 (.hdr d) = h3 at a3 T0 l3 ⊢
  rw [eqs, liftGo_ok]
  rw [hqs] at e ⊢
  have hsub : ∀ {h' h''}, ArrFrame ∅ h h' → ArrFrame {a | a = res.arr ∨ h.next + 1 ≤ a} h' h'' → ArrFrame ∅ h h'' := fun f g =>
    f.trans g (by
      rintro a (rfl | ha) hh
      · exact absurd hh (lt_irrefl _)
      · exact absurd hh (by omega))
  refine GA.forN (fun ts h' => ArrFrame ∅ h h' ∧ h.next + 1 ≤ h'.next ∧ (∃ ds, TablesAt h' (h.next + 1) res ds ts) ∧
    ∀ t ∈ ts, t.length = 0 ∨ t.length = 2 ^ (q.length - log2Ceil n)) e ⟨a3, l3, ⟨_, T0⟩, hS0⟩ ?_ ?_
  · rintro i t1 t2 h2 B next hi R e2 hnext
    obtain ⟨r, er, e3⟩ := bind_eq_ok.1 e2
    rw [er, liftGo_ok]
    refine GA.mono (B := B + (1 <<< i) * chunkedEqStepSteps (2 ^ (q.length - log2Ceil (n : Int))) nCore) ?_ ?_
    · refine GA.forN (fun ts h' => ArrFrame ∅ h h' ∧ h.next + 1 ≤ h'.next ∧ (∃ ds, TablesAt h' (h.next + 1) res ds ts) ∧
        ∀ t ∈ ts, t.length = 0 ∨ t.length = 2 ^ (q.length - log2Ceil n)) e3 R ?_ hnext
      rintro j s1 s2 h3 B next hj ⟨a3, l3, ⟨ds, T⟩, hS⟩ e4 hnext
      exact chunkedEqStepC_ga hn (ArrFrame.cell hf a3 (by simp)) T (Nat.lt_succ_self _) l3 hf.1 hS e4 fun h' ds' A' T' hS' =>
        hnext h' ⟨hsub a3 A', l3.trans A'.1, ⟨ds', T'⟩, hS'⟩
    · have : 1 <<< i ≤ 1 <<< log2Ceil (n : Int) := by
        rw [Nat.one_shiftLeft, Nat.one_shiftLeft]
        exact Nat.pow_le_pow_right (by omega) hi.le
      exact Nat.add_le_add_left (Nat.mul_le_mul_right _ this) _
  · rintro h2 ⟨a2, _, ⟨ds, T⟩, _⟩
    exact g h2 res ds rfl a2 T

end

end GkrMimc
