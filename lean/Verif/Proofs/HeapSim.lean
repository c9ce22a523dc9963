import Verif.Model.HeapGkr
import Verif.Proofs.Heap

/-! The memory-level verifier refines the value-level one. -/

set_option linter.unusedSectionVars false

namespace GkrMimc

variable {F : Type} {α β γ δ : Type}

/-- Both runs panic alike, or both return and the results are related. -/
def Sim (P : α → Heap F → β → Prop) (x : Go (α × Heap F)) (y : Go β) : Prop :=
  match x, y with
  | .ok (a, h), .ok b => P a h b
  | .error e, .error e' => e = e'
  | _, _ => False

theorem Sim.ok {P : α → Heap F → β → Prop} {a : α} {h : Heap F} {b : β} (p : P a h b) :
    Sim P (.ok (a, h)) (.ok b) := p

theorem Sim.err {P : α → Heap F → β → Prop} (e : Abort) : Sim P (.error e : Go (α × Heap F)) (.error e) := rfl

theorem Sim.bind {P : α → Heap F → β → Prop} {Q : γ → Heap F → δ → Prop} {x : Go (α × Heap F)} {y : Go β}
    {f : α × Heap F → Go (γ × Heap F)} {g : β → Go δ} (s : Sim P x y)
    (k : ∀ a h b, P a h b → Sim Q (f (a, h)) (g b)) : Sim Q (x >>= f) (y >>= g) := by
  rcases x with e | ⟨a, h⟩ <;> rcases y with e' | b
  · exact s
  · exact s.elim
  · exact s.elim
  · exact k a h b s

theorem Sim.mono {P Q : α → Heap F → β → Prop} {x : Go (α × Heap F)} {y : Go β} (s : Sim P x y)
    (k : ∀ a h b, P a h b → Q a h b) : Sim Q x y := by
  rcases x with e | ⟨a, h⟩ <;> rcases y with e' | b
  · exact s
  · exact s.elim
  · exact s.elim
  · exact k a h b s

/-- A computation that does not use memory, on both sides. -/
theorem Sim.pureBind {Q : γ → Heap F → δ → Prop} {x : Go β} {f : β → Go (γ × Heap F)} {g : β → Go δ}
    (k : ∀ b, x = .ok b → Sim Q (f b) (g b)) : Sim Q (x >>= f) (x >>= g) := by
  rcases x with e | b
  · exact rfl
  · exact k b rfl

theorem Sim.toEq {x : Go (β × Heap F)} {y : Go β} {h : Heap F} (s : Sim (fun a h' b => a = b ∧ Frame h h') x y) :
    ∃ h', Frame h h' ∧ x = (y >>= fun b => .ok (b, h')) := by
  rcases x with e | ⟨a, h'⟩ <;> rcases y with e' | b
  · obtain rfl : e = e' := s
    exact ⟨h, Frame.refl h, rfl⟩
  · exact s.elim
  · exact s.elim
  · obtain ⟨rfl, f⟩ := s
    exact ⟨h', f, rfl⟩

theorem Sim.of_eq {x : Go (β × Heap F)} {y : Go β} {h h' : Heap F} (f : Frame h h')
    (e : x = (y >>= fun b => .ok (b, h'))) : Sim (fun a h' b => a = b ∧ Frame h h') x y := by
  subst e
  rcases y with e | b
  · exact rfl
  · exact ⟨rfl, f⟩

theorem bind_ok (x : Go β) : (x >>= fun a => (.ok a : Go β)) = x := by cases x <;> rfl

/-- A slice with given contents. -/
structure Rep (h : Heap F) (s : Slice) (v : List F) : Prop where
  valid : Valid h s
  vals : h.vals s = v

theorem Rep.len {h : Heap F} {s : Slice} {v : List F} (r : Rep h s v) : v.length = s.len := by
  rw [← r.vals, vals_length]

theorem Rep.frame {h h' : Heap F} {s : Slice} {v : List F} (r : Rep h s v) (f : Frame h h') : Rep h' s v :=
  ⟨r.valid.frame f, (f.vals r.valid).trans r.vals⟩

theorem Rep.self {h : Heap F} {s : Slice} (v : Valid h s) : Rep h s (h.vals s) := ⟨v, rfl⟩

theorem Rep.load {h : Heap F} {s : Slice} {v : List F} (r : Rep h s v) (i : Nat) : h.load s i = idx v i := by
  rw [load_idx, r.vals]

/-- Slices with given contents. -/
abbrev Reps (h : Heap F) (ss : List Slice) (vs : List (List F)) : Prop := List.Forall₂ (Rep h) ss vs

theorem Reps.frame {h h' : Heap F} {ss : List Slice} {vs : List (List F)} (r : Reps h ss vs) (f : Frame h h') :
    Reps h' ss vs := List.Forall₂.imp (fun _ _ r => r.frame f) r

theorem Reps.self {h : Heap F} : ∀ {ss : List Slice}, (∀ s ∈ ss, Valid h s) → Reps h ss (ss.map h.vals)
  | [], _ => .nil
  | s :: ss, v => .cons (Rep.self (v s (by simp))) (Reps.self fun s hs => v s (by simp [hs]))

theorem forall₂_idx {R : α → β → Prop} {xs : List α} {ys : List β} (r : List.Forall₂ R xs ys) (i : Nat) :
    (∃ x y, idx xs i = .ok x ∧ idx ys i = .ok y ∧ R x y) ∨ (idx xs i = .error .index ∧ idx ys i = .error .index) := by
  have hl := r.length_eq
  by_cases hi : i < xs.length
  · exact .inl ⟨_, _, idx_ok hi, idx_ok (hl ▸ hi), r.get hi (hl ▸ hi)⟩
  · exact .inr ⟨idx_err (by omega), idx_err (by omega)⟩

/-- Indexing related lists. -/
theorem Sim.idxBind {R : α → β → Prop} {xs : List α} {ys : List β} (r : List.Forall₂ R xs ys) (i : Nat)
    {Q : γ → Heap F → δ → Prop} {f : α → Go (γ × Heap F)} {g : β → Go δ} (k : ∀ x y, R x y → Sim Q (f x) (g y)) :
    Sim Q (idx xs i >>= f) (idx ys i >>= g) := by
  rcases forall₂_idx r i with ⟨x, y, h1, h2, h3⟩ | ⟨h1, h2⟩
  · rw [h1, h2]; exact k x y h3
  · rw [h1, h2]; exact rfl

theorem Rep.loadBind {h : Heap F} {s : Slice} {v : List F} (r : Rep h s v) (i : Nat)
    {Q : γ → Heap F → δ → Prop} {f : F → Go (γ × Heap F)} {g : F → Go δ} (k : ∀ x, Sim Q (f x) (g x)) :
    Sim Q (h.load s i >>= f) (idx v i >>= g) := by
  rw [r.load]
  exact Sim.pureBind fun x _ => k x

theorem Rep.sub {h : Heap F} {s : Slice} {v : List F} (r : Rep h s v) {a b : Nat} (h1 : a ≤ b) (h2 : b ≤ s.len) :
    ∃ t, s.sub a b = .ok t ∧ t.arr = s.arr ∧ Rep h t ((v.take b).drop a) := by
  have hl := r.valid.len
  refine ⟨_, slice_sub_ok h1 (by omega), rfl, ⟨by simp only; omega, fun hc => r.valid.arr (by simp only at hc; omega)⟩, ?_⟩
  rw [← r.vals, vals_eq, vals_eq, tab_take h2, tab_drop]
  apply tab_congr
  intro i _
  simp only [Heap.get]
  congr 1
  omega

variable [Field F] [DecidableEq F]

/-- Loops that build a slice of results. -/
theorem Sim.genH {P : α → Heap F → β → Prop} (stable : ∀ a h h' b, P a h b → Frame h h' → P a h' b)
    {f : Nat → Heap F → Go (α × Heap F)} {g : Nat → Go β} {h0 : Heap F}
    (step : ∀ i h, Frame h0 h → Sim (fun a h' b => P a h' b ∧ Frame h h') (f i h) (g i)) :
    ∀ (n k : Nat) (h : Heap F), Frame h0 h →
      Sim (fun as h' bs => List.Forall₂ (fun a b => P a h' b) as bs ∧ Frame h h') (GkrMimc.genH f k n h) (genM g k n)
  | 0, k, h, _ => ⟨.nil, Frame.refl h⟩
  | n + 1, k, h, f0 => by
    rw [GkrMimc.genH]
    have e : genM g k (n + 1) = (g k >>= fun y => genM g (k + 1) n >>= fun ys => .ok (y :: ys)) := by
      rw [genM]
      cases g k with
      | error e => rfl
      | ok y =>
        simp only [ok_bind]
        cases genM g (k + 1) n <;> rfl
    rw [e]
    refine (step k h f0).bind ?_
    rintro a h1 b ⟨p, f1⟩
    refine (Sim.genH stable step n (k + 1) h1 (f0.trans f1)).bind ?_
    rintro as h2 bs ⟨ps, f2⟩
    exact ⟨.cons (stable _ _ _ _ p f2) ps, f1.trans f2⟩

theorem genM_eq_mapGo {xs : List α} {f : α → Go β} : ∀ (n k : Nat), k + n = xs.length →
    genM (fun i => idx xs i >>= f) k n = mapGo f (xs.drop k)
  | 0, k, hk => by rw [List.drop_of_length_le (by omega)]; rfl
  | n + 1, k, hk => by
    have hi : k < xs.length := by omega
    rw [genM, genM_eq_mapGo n (k + 1) (by omega), List.drop_eq_getElem_cons hi, idx_ok hi, ok_bind, mapGo]

theorem mapGo_eq_gen (xs : List α) (f : α → Go β) : mapGo f xs = genM (fun i => idx xs i >>= f) 0 xs.length := by
  rw [genM_eq_mapGo _ _ (by omega)]; rfl

/-! ### Static tables -/

theorem foldAllH_sim {h0 h : Heap F} {bkt q : Slice} {t qv : List F} (f : Frame h0 h) (rb : Rep h bkt t) (ob : Outside h0 bkt)
    (rq : Rep h0 q qv) : Sim (fun s h' v => (Rep h' s v ∧ Outside h0 s) ∧ Frame h0 h') (foldAllH h bkt q)
      (.ok (qv.foldl fold t)) := by
  obtain ⟨s', h1, f', v', o', e⟩ := evalLoop rq.valid (bkt, h) f rb.valid ob q.len le_rfl
  unfold foldAllH
  rw [h1]
  refine ⟨⟨⟨v', ?_⟩, o'⟩, f'⟩
  rw [e, rq.vals, List.take_of_length_le (by rw [rq.len]), rb.vals]

theorem store_sim {h : Heap F} {s : Slice} {t : List F} (r : Rep h s t) (i : Nat) (v : F) :
    (∃ h', h.store s i v = .ok h' ∧ setIdx t i v = .ok (t.set i v) ∧ Rep h' s (t.set i v) ∧
      ∀ h0, Frame h0 h → Outside h0 s → Frame h0 h') ∨
    (h.store s i v = .error .index ∧ setIdx t i v = .error .index) := by
  have hl := r.valid.len
  by_cases hi : i < s.len
  · refine .inl ⟨_, store_ok hi, setIdx_ok (by rw [r.len]; exact hi), ⟨⟨hl, r.valid.arr⟩, ?_⟩, ?_⟩
    · rw [← r.vals, vals_eq, vals_eq, tab_set]
      apply tab_congr
      intro j hj
      rw [put_get]
      by_cases hj' : j = i
      · subst hj'; simp
      · rw [if_neg (by omega), Function.update_of_ne hj']
    · intro h0 f o
      refine ⟨f.next, f.extra, ?_⟩
      intro a ha
      funext j
      rw [put_cells, if_neg, f.cells a ha]
      rintro ⟨rfl, _⟩
      have := o (by omega)
      omega
  · refine .inr ⟨by simp [Heap.store, hi], by simp [setIdx, r.len, hi]⟩

theorem modIdx_eq (t : List F) (i : Nat) (f : F → F) : modIdx t i f = (idx t i >>= fun x => setIdx t i (f x)) := by
  by_cases hi : i < t.length
  · rw [modIdx_ok hi, idx_ok hi, ok_bind, setIdx_ok hi]
  · rw [idx_err (by omega)]; simp [modIdx, hi]

theorem make_rep (h : Heap F) (n : Nat) : Rep (h.make n).2 (h.make n).1 (List.replicate n 0) ∧ Outside h (h.make n).1 ∧
    Frame h (h.make n).2 := by
  refine ⟨⟨⟨le_rfl, fun _ => Nat.lt_succ_self _⟩, ?_⟩, fun _ => le_rfl, make_frame (Frame.refl h) n⟩
  rw [replicate_eq_tab, vals_eq]
  apply tab_congr
  intro i _
  simp [Heap.make, Heap.alloc, Heap.get]

theorem wiresLoop_sim {h0 : Heap F} {s : Slice} (o : Outside h0 s) (gate : Gate F) (pos : Wire F → Nat) :
    ∀ (ws : List (Wire F)) (h : Heap F) (t : List F), Frame h0 h → Rep h s t →
    (∃ h' t', forEach ws h (fun w h => if w.gate.id = gate.id then do
        let x ← h.load s (pos w)
        h.store s (pos w) (x + 1) else .ok h) = .ok h' ∧
      forEach ws t (fun w tab => if w.gate.id = gate.id then modIdx tab (pos w) (fun x => x + 1) else .ok tab) = .ok t' ∧
      Frame h0 h' ∧ Rep h' s t') ∨
    (forEach ws h (fun w h => if w.gate.id = gate.id then do
        let x ← h.load s (pos w)
        h.store s (pos w) (x + 1) else .ok h) = .error .index ∧
      forEach ws t (fun w tab => if w.gate.id = gate.id then modIdx tab (pos w) (fun x => x + 1) else .ok tab) = .error .index)
  | [], h, t, f, r => .inl ⟨h, t, rfl, rfl, f, r⟩
  | w :: ws, h, t, f, r => by
    rw [forEach_cons, forEach_cons]
    by_cases hid : w.gate.id = gate.id
    · rw [if_pos hid, if_pos hid, modIdx_eq, r.load]
      by_cases hi : pos w < t.length
      · rw [idx_ok hi, ok_bind, ok_bind]
        rcases store_sim r (pos w) (t[pos w] + 1) with ⟨h', e1, e2, r', fr⟩ | ⟨e1, e2⟩
        · rw [e1, e2, ok_bind, ok_bind]
          exact wiresLoop_sim o gate pos ws h' _ (fr h0 f o) r'
        · rw [setIdx_ok hi] at e2; cases e2
      · rw [idx_err (by omega)]
        exact .inr ⟨rfl, rfl⟩
    · rw [if_neg hid, if_neg hid, ok_bind, ok_bind]
      exact wiresLoop_sim o gate pos ws h t f r

theorem rawStaticTableH_sim (h : Heap F) (l : Layer F) (gate : Gate F) :
    Sim (fun s h' t => (Rep h' s t ∧ Outside h s) ∧ Frame h h') (rawStaticTableH h l gate) (rawStaticTable l gate) := by
  unfold rawStaticTableH rawStaticTable
  simp only
  obtain ⟨r, o, f⟩ := make_rep h ((1 <<< l.bGOutputs) * (1 <<< (2 * l.bGInputs)))
  rcases wiresLoop_sim o gate (fun w => 1 <<< (2 * l.bGInputs) * w.O + 1 <<< l.bGInputs * w.L + w.R) l.wires _ _ f r with
    ⟨h', t', e1, e2, f', r'⟩ | ⟨e1, e2⟩
  · rw [e1, e2]
    exact ⟨⟨r', o⟩, f'⟩
  · rw [e1, e2]
    exact rfl

theorem Outside.mono {h0 h : Heap F} {s : Slice} (o : Outside h s) (f : Frame h0 h) : Outside h0 s :=
  fun hc => f.next.trans (o hc)

theorem getStaticTableH_sim {h : Heap F} (l : Layer F) {q : Slice} {qv : List F} (rq : Rep h q qv) :
    Sim (fun ss h' ts => List.Forall₂ (fun s t => Rep h' s t ∧ Outside h s) ss ts ∧ Frame h h') (getStaticTableH h l q)
      (getStaticTable l qv) := by
  unfold getStaticTableH getStaticTable
  rw [mapGo_eq_gen]
  refine Sim.genH (P := fun s h' t => Rep h' s t ∧ Outside h s) (fun _ _ _ _ r f => ⟨r.1.frame f, r.2⟩) ?_ _ _ _ (Frame.refl h)
  intro i h1 f1
  refine Sim.pureBind fun gate _ => ?_
  refine (rawStaticTableH_sim h1 l gate).bind ?_
  rintro s h2 t ⟨⟨r, o⟩, f2⟩
  exact (foldAllH_sim f2 r o (rq.frame f1)).mono fun a h' b p => ⟨⟨p.1.1, p.1.2.mono f1⟩, p.2⟩

/-! ### Table arithmetic -/

/-- Only cells of the array of `s` may have changed. -/
structure FrameBut (h : Heap F) (s : Slice) (h' : Heap F) : Prop where
  next : h.next ≤ h'.next
  extra : h'.extra = h.extra
  cells : ∀ a < h.next, (0 < s.cap → a ≠ s.arr) → h'.cells a = h.cells a

/-- In different arrays (or one of them is empty). -/
def Apart (s u : Slice) : Prop := 0 < s.cap → 0 < u.cap → s.arr ≠ u.arr

/-- Either in the array of `dst` or in a new one. -/
def Within (h : Heap F) (dst d : Slice) : Prop := 0 < d.cap → h.next ≤ d.arr ∨ (0 < dst.cap ∧ d.arr = dst.arr)

theorem FrameBut.frame {h0 h h' : Heap F} {s : Slice} (b : FrameBut h s h') (f : Frame h0 h) (o : Outside h0 s) : Frame h0 h' := by
  refine ⟨f.next.trans b.next, b.extra.trans f.extra, ?_⟩
  intro a ha
  rw [b.cells a (lt_of_lt_of_le ha f.next), f.cells a ha]
  intro hc
  have := o hc
  omega

theorem FrameBut.of_frame {h h' : Heap F} {s : Slice} (f : Frame h h') : FrameBut h s h' :=
  ⟨f.next, f.extra, fun a ha _ => f.cells a ha⟩

theorem FrameBut.trans {h1 h2 h3 : Heap F} {s : Slice} (a : FrameBut h1 s h2) (b : FrameBut h2 s h3) : FrameBut h1 s h3 :=
  ⟨a.next.trans b.next, b.extra.trans a.extra, fun x hx hn =>
    (b.cells x (lt_of_lt_of_le hx a.next) hn).trans (a.cells x hx hn)⟩

theorem Rep.frameBut {h h' : Heap F} {s u : Slice} {v : List F} (r : Rep h u v) (b : FrameBut h s h') (ap : Apart s u) :
    Rep h' u v := by
  have hl := r.valid.len
  refine ⟨⟨hl, fun hc => lt_of_lt_of_le (r.valid.arr hc) b.next⟩, ?_⟩
  rw [← r.vals]
  apply tab_congr
  intro i hi
  simp only [Heap.get]
  rw [b.cells _ (r.valid.arr (by omega))]
  intro hc e
  exact ap hc (by omega) e.symm

theorem Outside.apart {h : Heap F} {s u : Slice} (o : Outside h s) (v : Valid h u) : Apart s u := by
  intro h1 h2 e
  have := o h1
  have := v.arr h2
  omega

theorem Outside.apart' {h : Heap F} {s u : Slice} (o : Outside h u) (v : Valid h s) : Apart s u := by
  intro h1 h2 e
  have := o h2
  have := v.arr h1
  omega

theorem Within.outside {h0 h : Heap F} {dst d : Slice} (w : Within h dst d) (f : Frame h0 h) (o : Outside h0 dst) :
    Outside h0 d := by
  intro hc
  have := f.next
  rcases w hc with h1 | ⟨h1, h2⟩
  · omega
  · have := o h1
    omega

theorem Within.apart {h : Heap F} {dst d u : Slice} (w : Within h dst d) (v : Valid h u) (ap : Apart dst u) : Apart d u := by
  intro h1 h2 e
  rcases w h1 with h3 | ⟨h3, h4⟩
  · have := v.arr h2
    omega
  · exact ap h3 h2 (h4 ▸ e)

theorem fill_rep {h : Heap F} {dst : Slice} {size : Nat} {d : Slice} {h1 : Heap F} (R : Resized h dst size d h1)
    (g : Nat → F) : Rep (fillHeap h1 d g size) d (tab size g) ∧ FrameBut h dst (fillHeap h1 d g size) ∧ Within h dst d := by
  have hl := R.valid.len
  refine ⟨⟨⟨hl, R.valid.arr⟩, ?_⟩, ⟨R.frame.next, R.frame.extra, ?_⟩, ?_⟩
  · have := fillHeap_vals h1 d g
    rwa [R.len] at this
  · intro a ha hn
    funext j
    apply R.cells g ha
    rintro ⟨rfl, h2, h3⟩
    by_cases hc : size ≤ dst.cap
    · have e := (R.same hc).1
      rw [e] at hn
      exact hn (by omega) rfl
    · have := R.fresh (by omega)
      omega
  · intro h2
    by_cases hc : size ≤ dst.cap
    · have e := (R.same hc).1
      rw [e] at h2 ⊢
      exact .inr ⟨h2, rfl⟩
    · have := R.fresh (by omega)
      exact .inl (by omega)

theorem addH_sim {h : Heap F} {dst left right : Slice} {dv lv rv : List F} (vd : Valid h dst) (rl : Rep h left lv)
    (rr : Rep h right rv) (n1 : left.len ≤ dst.cap → NoOverlap dst left left.len)
    (n2 : right.len = left.len → left.len ≤ dst.cap → NoOverlap dst right left.len) :
    Sim (fun d h' v => Rep h' d v ∧ FrameBut h dst h' ∧ Within h dst d) (addH h dst left right) (tableAdd dv lv rv) := by
  by_cases hlen : right.len = left.len
  · obtain ⟨d, h1, R⟩ := resizeH_spec h dst left.len vd
    rw [addH_spec R hlen (R.noOverlap rl.valid le_rfl n1) (R.noOverlap rr.valid hlen.ge (n2 hlen)),
      tableAdd_eq _ _ _ (by rw [rl.len, rr.len, hlen])]
    refine Sim.ok ?_
    have := fill_rep R (fun i => h1.get left i + h1.get right i)
    convert this using 2
    rw [← rl.vals, ← rr.vals, vals_eq, vals_eq, hlen, zipWith_tab]
    apply tab_congr
    intro i hi
    rw [R.frame.get rl.valid hi, R.frame.get rr.valid (by omega)]
  · have e : rv.length ≠ lv.length := by rw [rl.len, rr.len]; exact hlen
    unfold addH tableAdd
    simp only [ne_eq, hlen, e, not_false_eq_true, if_true]
    exact rfl

theorem subH_sim {h : Heap F} {dst left right : Slice} {dv lv rv : List F} {nCore : Int} (hn : 1 ≤ nCore) (vd : Valid h dst)
    (rl : Rep h left lv) (rr : Rep h right rv) (n1 : left.len ≤ dst.cap → NoOverlap dst left left.len)
    (n2 : right.len = left.len → left.len ≤ dst.cap → NoOverlap dst right left.len) :
    Sim (fun d h' v => Rep h' d v ∧ FrameBut h dst h' ∧ Within h dst d) (subH h dst left right nCore)
      (tableSub dv lv rv nCore) := by
  by_cases hlen : right.len = left.len
  · obtain ⟨d, h1, R⟩ := resizeH_spec h dst left.len vd
    rw [subH_spec hn R hlen (R.noOverlap rl.valid le_rfl n1) (R.noOverlap rr.valid hlen.ge (n2 hlen)),
      tableSub_eq _ _ _ hn (by rw [rl.len, rr.len, hlen])]
    refine Sim.ok ?_
    have := fill_rep R (fun i => h1.get left i - h1.get right i)
    convert this using 2
    rw [← rl.vals, ← rr.vals, vals_eq, vals_eq, hlen, zipWith_tab]
    apply tab_congr
    intro i hi
    rw [R.frame.get rl.valid hi, R.frame.get rr.valid (by omega)]
  · have e : rv.length ≠ lv.length := by rw [rl.len, rr.len]; exact hlen
    unfold subH tableSub
    simp only [ne_eq, hlen, e, not_false_eq_true, if_true]
    rw [intoChunkRanges_eq (show nCore ≠ 0 by omega), intoChunkRanges_eq (show nCore ≠ 0 by omega), ok_bind, ok_bind,
      show newSemaphore nCore = .ok () by simp [newSemaphore]; omega]
    exact rfl

theorem mulH_sim {h : Heap F} {dst x : Slice} {dv xv : List F} {lambda : F} {nCore : Int} (hn : 1 ≤ nCore) (vd : Valid h dst)
    (rx : Rep h x xv) (n1 : x.len ≤ dst.cap → NoOverlap dst x x.len) :
    Sim (fun d h' v => Rep h' d v ∧ FrameBut h dst h' ∧ Within h dst d) (mulH h dst lambda x nCore)
      (tableMul dv lambda xv nCore) := by
  obtain ⟨d, h1, R⟩ := resizeH_spec h dst x.len vd
  rw [mulH_spec hn R (R.noOverlap rx.valid le_rfl n1), tableMul_eq _ _ _ hn]
  refine Sim.ok ?_
  have := fill_rep R (fun i => h1.get x i * lambda)
  convert this using 2
  rw [← rx.vals, vals_eq, tab_map]
  apply tab_congr
  intro i hi
  rw [R.frame.get rx.valid hi]

theorem noOverlap_self (s : Slice) (n : Nat) : NoOverlap s s n := fun _ => .inl rfl

theorem noOverlap_nil {u : Slice} {n : Nat} (hn : n ≤ Slice.nil.cap) : NoOverlap Slice.nil u n := by
  intro _
  have : n = 0 := by simpa [Slice.nil] using hn
  omega

theorem Apart.noOverlap {h : Heap F} {s u : Slice} {n : Nat} (ap : Apart s u) (vu : Valid h u) (hu : n ≤ u.len)
    (hs : n ≤ s.cap) : NoOverlap s u n := by
  intro e
  have := vu.len
  by_cases hn : 0 < n
  · exact absurd e (ap (by omega) (by omega))
  · omega

/-! ### Chunked evaluation -/

theorem recombineStepH_sim {h : Heap F} {inp : List Slice} {vs : List (List F)} (r : Reps h inp vs) (q : F) :
    Sim (fun ss h' ts => Reps h' ss ts ∧ Frame h h') (recombineStepH h inp q) (recombineStep vs q) := by
  unfold recombineStepH recombineStep
  simp only
  rw [r.length_eq]
  refine Sim.genH (P := fun s h t => Rep h s t) (fun _ _ _ _ r f => r.frame f) ?_ _ _ _ (Frame.refl h)
  intro k h1 f1
  refine Sim.idxBind (r.frame f1) _ ?_
  intro hi hv rhi
  refine Sim.idxBind (r.frame f1) _ ?_
  intro lo lv rlo
  refine (subH_sim le_rfl (valid_nil _) rhi rlo noOverlap_nil fun _ => noOverlap_nil).bind ?_
  rintro t h2 tv ⟨rt, b2, w2⟩
  have f2 := b2.frame (Frame.refl h1) (outside_nil h1)
  have o2 := w2.outside (Frame.refl h1) (outside_nil h1)
  refine (mulH_sim le_rfl rt.valid rt fun _ => noOverlap_self _ _).bind ?_
  rintro t' h3 tv' ⟨rt', b3, w3⟩
  have f3 := b3.frame f2 o2
  have o3 := w3.outside f2 o2
  have rlo3 := rlo.frame f3
  refine (addH_sim rt'.valid rt' rlo3 (fun _ => noOverlap_self _ _) ?_).mono ?_
  · intro hl hc
    exact (o3.apart rlo.valid).noOverlap rlo.valid hl.ge hc
  · rintro d h4 v ⟨r4, b4, w4⟩
    exact ⟨r4, b4.frame f3 o3⟩

theorem chunkedEvalRecombineH_sim {h : Heap F} {bkts : List Slice} {vs : List (List F)} {qs : Slice} {qv : List F}
    (r : Reps h bkts vs) (rq : Rep h qs qv) :
    Sim (fun s h' t => Rep h' s t ∧ Frame h h') (chunkedEvalRecombineH h bkts qs) (chunkedEvalRecombine vs qv) := by
  unfold chunkedEvalRecombineH chunkedEvalRecombine
  simp only
  rw [r.length_eq, rq.len]
  split
  · exact rfl
  · have key : ∀ k ≤ qs.len, Sim (fun s h' t => (Reps h' s.1 t.1 ∧ Reps h' s.2 t.2) ∧ Frame h h')
        (forN k ((bkts, ([] : List Slice)), h) fun i s => do
          let q ← s.2.load qs i
          let res ← recombineStepH s.2 s.1.1 q
          return ((res.1, res.1), res.2))
        (forEach (qv.take k) (vs, ([] : List (Table F))) fun q s => do
          let res ← recombineStep s.1 q
          return (res, res)) := by
      intro k
      induction k with
      | zero => intro _; exact ⟨⟨r, .nil⟩, Frame.refl h⟩
      | succ k ih =>
        intro hk
        have hk' : k < qv.length := by rw [rq.len]; omega
        rw [forN_succ, List.take_succ_eq_append_getElem hk', forEach_append]
        refine (ih (by omega)).bind ?_
        rintro s h1 t ⟨⟨r1, _⟩, f1⟩
        rw [forEach_cons, (rq.frame f1).load, idx_ok hk', ok_bind]
        simp only [forEach_nil, bind_ok]
        refine (recombineStepH_sim r1 qv[k]).bind ?_
        rintro a h2 b ⟨r2, f2⟩
        exact ⟨⟨r2, r2⟩, f1.trans f2⟩
    have := key qs.len le_rfl
    rw [List.take_of_length_le (by rw [rq.len])] at this
    refine this.bind ?_
    rintro s h1 t ⟨⟨_, r1⟩, f1⟩
    rw [← bind_ok (idx t.2 0)]
    refine Sim.idxBind r1 0 ?_
    intro x y rx
    exact ⟨rx, f1⟩

theorem evaluateH_sim {h : Heap F} {bkt q : Slice} {t qv : List F} (rb : Rep h bkt t) (rq : Rep h q qv) :
    Sim (fun a h' b => a = b ∧ Frame h h') (evaluateH h bkt q) (evaluate t qv) := by
  obtain ⟨h', f, _, e⟩ := evaluateH_spec (Frame.refl h) rb.valid rq.valid
  rw [rb.vals, rq.vals] at e
  exact Sim.of_eq f e

theorem evaluateChunkedH_sim {h : Heap F} {bkts : List Slice} {vs : List (List F)} {q : Slice} {qv : List F}
    (r : Reps h bkts vs) (rq : Rep h q qv) :
    Sim (fun a h' b => a = b ∧ Frame h h') (evaluateChunkedH h bkts q) (evaluateChunked vs qv) := by
  unfold evaluateChunkedH evaluateChunked
  simp only
  rw [r.length_eq, rq.len]
  by_cases hc : log2Ceil (vs.length : Int) ≤ q.len
  · rw [goSubBound_ok hc, ok_bind, ok_bind]
    obtain ⟨t1, e1, _, r1⟩ := rq.sub (show q.len - log2Ceil (vs.length : Int) ≤ q.len by omega) le_rfl
    obtain ⟨t2, e2, _, r2⟩ := rq.sub (show 0 ≤ q.len - log2Ceil (vs.length : Int) by omega) (Nat.sub_le _ _)
    rw [e1, ok_bind]
    rw [List.take_of_length_le (by rw [rq.len])] at r1
    refine (chunkedEvalRecombineH_sim r r1).bind ?_
    rintro s h1 t ⟨rs, f1⟩
    simp only [e2, ok_bind]
    rw [List.drop_zero] at r2
    exact (evaluateH_sim rs (r2.frame f1)).mono fun a h' b p => ⟨p.1, f1.trans p.2⟩
  · simp only [goSubBound, hc, if_false]
    exact rfl

theorem evaluateMixedChunkedH_sim {h : Heap F} {bkts : List Slice} {vs : List (List F)} {p l r : Slice} {pv lv rv : List F}
    (rs : Reps h bkts vs) (rp : Rep h p pv) (rl : Rep h l lv) (rr : Rep h r rv) :
    Sim (fun a h' b => a = b ∧ Frame h h') (evaluateMixedChunkedH h bkts p l r) (evaluateMixedChunked vs pv lv rv) := by
  unfold evaluateMixedChunkedH evaluateMixedChunked
  simp only
  rw [rs.length_eq, rp.len]
  split
  · exact rfl
  · rename_i hc
    obtain ⟨t1, e1, _, r1⟩ := rp.sub (show p.len - log2Ceil (vs.length : Int) ≤ p.len by omega) le_rfl
    obtain ⟨t2, e2, _, r2⟩ := rp.sub (show 0 ≤ p.len - log2Ceil (vs.length : Int) by omega) (Nat.sub_le _ _)
    rw [e1, ok_bind]
    rw [List.take_of_length_le (by rw [rp.len])] at r1
    refine (chunkedEvalRecombineH_sim rs r1).bind ?_
    rintro s h1 t ⟨r3, f1⟩
    simp only [e2, ok_bind]
    rw [List.drop_zero] at r2
    obtain ⟨h2, f2, e⟩ := evaluateLeftAndRightH_spec r3.valid (r2.frame f1).valid (rl.frame f1).valid (rr.frame f1).valid
    rw [r3.vals, (r2.frame f1).vals, (rl.frame f1).vals, (rr.frame f1).vals] at e
    exact Sim.of_eq (f1.trans f2) e

/-! ### The sumcheck verifier -/

theorem sumcheckVerifyLoopH_sim (H : List F → F) {h0 : Heap F} {ch : Slice} (o : Outside h0 ch) :
    ∀ (cs : List Slice) (vs : List (List F)) (i : Nat) (expected : F) (h : Heap F) (done : List F), Reps h0 cs vs →
      Frame h0 h → Valid h ch → i = done.length → i + cs.length = ch.len → (h.vals ch).take i = done →
      Sim (fun r h' t => Frame h0 h' ∧ match r, t with
          | none, none => True
          | some e, some (rs, e') => e = e' ∧ Rep h' ch (done ++ rs)
          | _, _ => False)
        (sumcheckVerifyLoopH H ch i cs expected h) (sumcheckVerifyLoop H vs expected)
  | [], _, i, expected, h, done, .nil, f, v, hi, hn, hd => by
    refine ⟨f, rfl, v, ?_⟩
    rw [List.append_nil, ← hd, List.take_of_length_le]
    simpa using hn.symm.le
  | c :: cs, _, i, expected, h, done, .cons (b := cv) (l₂ := vs) rc rs, f, v, hi, hn, hd => by
    have hn' : i + (cs.length + 1) = ch.len := hn
    rw [sumcheckVerifyLoopH, sumcheckVerifyLoop, (rc.frame f).vals]
    refine Sim.pureBind fun a0 _ => ?_
    refine Sim.pureBind fun a1 _ => ?_
    split
    · exact ⟨f, trivial⟩
    · simp only
      rcases store_sim (Rep.self v) i (H cv) with ⟨h', e1, e2, r', fr⟩ | ⟨e1, _⟩
      · rw [e1, ok_bind]
        have f' := fr h0 f o
        rw [(rc.frame f').vals]
        refine Sim.pureBind fun e' _ => ?_
        have := sumcheckVerifyLoopH_sim H o cs vs (i + 1) e' h' (done ++ [H cv]) rs f' r'.valid (by simp [hi]) (by omega) (by
          rw [r'.vals, List.take_succ_eq_append_getElem (by simp; omega), List.take_set_of_le le_rfl, hd]
          simp)
        rw [← bind_ok (sumcheckVerifyLoopH H ch (i + 1) cs e' h')]
        refine this.bind ?_
        rintro r h2 t ⟨f2, p⟩
        rcases r with _ | e <;> rcases t with _ | ⟨rs', e''⟩
        · exact ⟨f2, trivial⟩
        · exact p.elim
        · exact p.elim
        · refine ⟨f2, p.1, ?_⟩
          have := p.2
          rwa [List.append_assoc] at this
      · exfalso
        rw [store_ok (by omega)] at e1
        cases e1

/-- What the slices returned by `sumcheck.Verifier.Verify` hold; `qL`, to which the caller appends, has an array of its own. -/
structure VRep (h0 h : Heap F) (s : VerdictH F) (v : SumcheckVerdict F) : Prop where
  qPrime : Rep h s.qPrime v.qPrime
  qL : Rep h s.qL v.qL
  qR : Rep h s.qR v.qR
  claim : s.finalClaim = v.finalClaim
  outside : Outside h0 s.qL
  apartR : Apart s.qL s.qR
  apartP : Apart s.qL s.qPrime

theorem appendNil_rep {h : Heap F} {t : Slice} {tv : List F} (r : Rep h t tv) :
    Rep (h.append Slice.nil t).2 (h.append Slice.nil t).1 tv ∧ Outside h (h.append Slice.nil t).1 ∧
    Frame h (h.append Slice.nil t).2 := by
  obtain ⟨f, v, o, e⟩ := append_spec (Frame.refl h) (valid_nil h) r.valid (outside_nil h)
  refine ⟨⟨v, ?_⟩, o, f⟩
  rw [e, vals_nil, List.nil_append, r.vals]

theorem sumcheckVerifyH_sim (H : List F → F) {h : Heap F} (claim : F) {cs : List Slice} {vs : List (List F)} (bG : Nat)
    (rs : Reps h cs vs) :
    Sim (fun r h' t => Frame h h' ∧ match r, t with
        | none, none => True
        | some s, some v => VRep h h' s v
        | _, _ => False)
      (sumcheckVerifyH H h claim cs bG) (sumcheckVerify H claim vs bG) := by
  unfold sumcheckVerifyH sumcheckVerify
  simp only
  obtain ⟨rm, om, fm⟩ := make_rep h cs.length
  refine (sumcheckVerifyLoopH_sim H om cs vs 0 claim _ [] rs fm rm.valid rfl (by simp [Heap.make]) rfl).bind ?_
  rintro r h1 t ⟨f1, p⟩
  rcases r with _ | e <;> rcases t with _ | ⟨q, e'⟩
  · exact ⟨f1, trivial⟩
  · exact p.elim
  · exact p.elim
  · obtain ⟨rfl, rq⟩ := p
    rw [List.nil_append] at rq
    have hcap : (h.make cs.length).1.cap = (h.make cs.length).1.len := rfl
    have hlen := rq.len
    simp only
    generalize (h.make cs.length).1 = ch at rq hcap hlen om
    by_cases h2 : 2 * bG ≤ ch.len
    · obtain ⟨t1, e1, _, r1⟩ := rq.sub (show 0 ≤ bG by omega) (by omega)
      obtain ⟨t2, e2, _, r2⟩ := rq.sub (show bG ≤ 2 * bG by omega) h2
      obtain ⟨t3, e3, _, r3⟩ := rq.sub h2 le_rfl
      rw [e1, e2, e3]
      simp only [sliceTo, sliceBetween, sliceFrom, hlen, show bG ≤ ch.len by omega, h2, if_true, ok_bind,
        show bG ≤ 2 * bG by omega, and_self]
      rw [List.drop_zero] at r1
      rw [List.take_of_length_le hlen.le] at r3
      obtain ⟨x1, o1, g1⟩ := appendNil_rep r1
      obtain ⟨x2, o2, g2⟩ := appendNil_rep (r2.frame g1)
      obtain ⟨x3, o3, g3⟩ := appendNil_rep ((r3.frame g1).frame g2)
      refine ⟨((f1.trans g1).trans g2).trans g3, x3, (x1.frame g2).frame g3, x2.frame g3, rfl, o1.mono f1, ?_, ?_⟩
      · exact o2.apart' x1.valid
      · exact (o3.mono g2).apart' x1.valid
    · by_cases h1 : bG ≤ ch.len
      · obtain ⟨t1, e1, _, r1⟩ := rq.sub (show 0 ≤ bG by omega) (by omega)
        rw [e1]
        simp only [sliceTo, sliceBetween, hlen, h1, h2, if_true, ok_bind, and_false, if_false, Slice.sub, hcap]
        exact rfl
      · simp only [sliceTo, hlen, h1, if_false, Slice.sub, hcap, and_false]
        exact rfl

/-! ### The static tables at the challenges -/

/-- `append` writes nothing but spare capacity of its first argument. -/
theorem append_rep {h : Heap F} {s t : Slice} {sv tv : List F} (rs : Rep h s sv) (rt : Rep h t tv) :
    Rep (h.append s t).2 (h.append s t).1 (sv ++ tv) ∧ FrameBut h s (h.append s t).2 ∧ Rep (h.append s t).2 s sv := by
  have hl := rs.valid.len
  obtain ⟨_, v, _, e⟩ := append_spec (h0 := { h with next := 0 }) (h := h) ⟨Nat.zero_le _, rfl, fun a ha => absurd ha (by simp)⟩
    rs.valid rt.valid (fun _ => Nat.zero_le _)
  refine ⟨⟨v, by rw [e, rs.vals, rt.vals]⟩, ?_⟩
  by_cases hc : s.len + t.len ≤ s.cap
  · have e : h.append s t = (⟨s.arr, s.off, s.len + t.len, s.cap⟩, h.copy ⟨s.arr, s.off + s.len, t.len, s.cap - s.len⟩ t) := by
      simp [Heap.append, hc]
    rw [e]
    refine ⟨⟨le_rfl, rfl, ?_⟩, ⟨hl, rs.valid.arr⟩, ?_⟩
    · intro a ha hn
      funext j
      rw [copy_cells, if_neg]
      rintro ⟨rfl, h1, h2⟩
      simp only at h1 h2
      exact hn (by omega) rfl
    · rw [← rs.vals]
      apply tab_congr
      intro i hi
      simp only [Heap.get]
      rw [copy_cells, if_neg]
      rintro ⟨_, h1, _⟩
      simp only at h1
      omega
  · have e : h.append s t = (⟨h.next, 0, s.len + t.len, s.len + t.len + h.extra h.next⟩,
      h.alloc fun j => if j < s.len then h.get s j else if j < s.len + t.len then h.get t (j - s.len) else 0) := by
      simp [Heap.append, hc]
    rw [e]
    have f : Frame h (h.alloc fun j => if j < s.len then h.get s j else if j < s.len + t.len then h.get t (j - s.len) else 0) := by
      refine ⟨Nat.le_succ _, rfl, ?_⟩
      intro a ha
      simp only [Heap.alloc]
      rw [Function.update_of_ne (by omega)]
    exact ⟨FrameBut.of_frame f, rs.frame f⟩

theorem store_frameBut {h h' : Heap F} {s : Slice} {i : Nat} {v : F} (vs : Valid h s) (e : h.store s i v = .ok h') :
    FrameBut h s h' := by
  have hl := vs.len
  by_cases hi : i < s.len
  · rw [store_ok hi] at e
    cases e
    refine ⟨le_rfl, rfl, ?_⟩
    intro a ha hn
    funext j
    rw [put_cells, if_neg]
    rintro ⟨rfl, _⟩
    exact hn (by omega) rfl
  · simp [Heap.store, hi] at e

/-- A change outside of the old memory. -/
theorem FrameBut.trans_outside {h h1 h2 : Heap F} {s u : Slice} (a : FrameBut h s h1) (b : FrameBut h1 u h2) (o : Outside h u) :
    FrameBut h s h2 := by
  refine ⟨a.next.trans b.next, b.extra.trans a.extra, ?_⟩
  intro x hx hn
  rw [b.cells x (lt_of_lt_of_le hx a.next), a.cells x hx hn]
  intro hc
  have := o hc
  omega

/-- Loops that compute the entries of a slice and store them. -/
theorem fillLoop_sim {evals : Slice} {I : Heap F → Prop} {body : Nat → Heap F → Go (F × Heap F)} {g : Nat → Go F}
    (hb : ∀ i h ev, I h → Rep h evals ev → Sim (fun a h' b => a = b ∧ I h' ∧ Rep h' evals ev) (body i h) (g i))
    (hs : ∀ h h', I h → FrameBut h evals h' → I h') :
    ∀ (n k : Nat) (h : Heap F) (done : List F), I h → Valid h evals → done.length = k → k + n = evals.len →
      (h.vals evals).take k = done →
      Sim (fun (_ : Unit) h' bs => I h' ∧ Rep h' evals (done ++ bs))
        (forFrom (fun i h => body i h >>= fun v => v.2.store evals i v.1) k n h >>= fun h => .ok ((), h)) (genM g k n)
  | 0, k, h, done, hI, v, hk, hn, hd => by
    refine ⟨hI, v, ?_⟩
    rw [List.append_nil, ← hd, List.take_of_length_le]
    simp only [vals_length]
    omega
  | n + 1, k, h, done, hI, v, hk, hn, hd => by
    have e : genM g k (n + 1) = (g k >>= fun y => genM g (k + 1) n >>= fun ys => .ok (y :: ys)) := by
      rw [genM]
      cases g k with
      | error e => rfl
      | ok y =>
        simp only [ok_bind]
        cases genM g (k + 1) n <;> rfl
    have e' : ∀ (b : Nat → Heap F → Go (Heap F)), forFrom b k (n + 1) h = (b k h >>= fun h' => forFrom b (k + 1) n h') := by
      intro b
      rw [forFrom]
      cases b k h <;> rfl
    rw [e, e', bind_assoc, bind_assoc]
    refine (hb k h _ hI (Rep.self v)).bind ?_
    rintro a h1 b ⟨rfl, hI1, r1⟩
    rcases store_sim r1 k a with ⟨h2, e1, e2, r2, _⟩ | ⟨e1, _⟩
    · simp only [e1, ok_bind]
      have := fillLoop_sim hb hs n (k + 1) h2 (done ++ [a]) (hs h1 h2 hI1 (store_frameBut r1.valid e1)) r2.valid (by simp [hk])
        (by omega) (by
          rw [r2.vals, List.take_succ_eq_append_getElem (by simp; omega), List.take_set_of_le le_rfl, hd]
          simp)
      rw [← bind_ok (forFrom _ (k + 1) n h2 >>= fun h => Except.ok ((), h))]
      refine this.bind ?_
      rintro _ h3 bs ⟨hI3, r3⟩
      rw [List.append_assoc] at r3
      exact ⟨hI3, r3⟩
    · exfalso
      rw [store_ok (by omega)] at e1
      cases e1

end GkrMimc
