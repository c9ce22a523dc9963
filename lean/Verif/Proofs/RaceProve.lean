import Verif.Proofs.RaceOps
import Verif.Proofs.ConcProve

/-! `Prove` and `GetClaim` over memory behave as the programs over values. -/

namespace GkrMimc

open Spec

set_option linter.unusedSectionVars false

variable {F : Type} [Field F] [DecidableEq F] {ro own : Set Nat} {h : Heap F}

/-! ### Workers -/

theorem gr_turn {evals : SProver F → Go (List F)} {foldXP foldX} (fs : FoldSim foldXP foldX) {w : SProverH F} {sp : SProver F}
    (i : WInv own h w sp) {ec rc sem : Nat} {K : SProverH F → Prog (Heap F) (MsgH F)} {k : SProver F → Prog Unit (Msg F)}
    (g : ∀ own' h' w' r, WInv own' h' w' (foldX sp r) → GR MsgRel ro (K w') (k (foldX sp r)) own' h') :
    GR MsgRel ro (workerTurnH evals foldXP ec rc sem w K) (workerTurn evals foldX ec rc sem sp k) own h := by
  refine gr_readW i.rep (fun s hs => (i.owns s hs).mono Set.subset_union_left) ?_
  refine gr_liftGo fun e _ => ?_
  refine gr_newSlice fun a h1 d hna hn ag hda rd => ?_
  refine gr_send {a} (by rintro _ rfl; exact .inl rfl) ⟨rd, fun _ => hda⟩ fun h2 ag2 => ?_
  have hsub : own ⊆ insert a own \ {a} := by
    intro x hx
    refine ⟨.inr hx, ?_⟩
    rintro rfl
    exact hna (.inl hx)
  have i2 : WInv (insert a own \ {a}) h2 w sp :=
    (((i.agree ag Set.subset_union_left).agree (ag2.mono fun x hx => .inl (.inr hx)) subset_rfl)).mono hsub
  refine gr_sendPlain trivial fun h3 ag3 => ?_
  have i3 := i2.agree ag3 Set.subset_union_left
  refine gr_recvElem fun own4 h4 r hs4 ag4 => ?_
  have i4 := (i3.agree ag4 Set.subset_union_left).mono hs4
  refine gr_acquire fun own5 h5 hs5 ag5 _ => ?_
  have i5 := (i4.agree ag5 Set.subset_union_left).mono hs5
  exact fs _ _ _ _ _ _ _ _ i5 fun h6 w' i6 _ _ => g _ _ _ _ i6

theorem gr_turns {evals : SProver F → Go (List F)} {foldXP foldX} (fs : FoldSim foldXP foldX) {ec rc sem : Nat}
    {K : SProverH F → Prog (Heap F) (MsgH F)} {k : SProver F → Prog Unit (Msg F)}
    (g : ∀ own' h' w' sp', WInv own' h' w' sp' → GR MsgRel ro (K w') (k sp') own' h') (n : Nat)
    {own : Set Nat} {h : Heap F} {w : SProverH F} {sp : SProver F} (i : WInv own h w sp) :
    GR MsgRel ro (loopP (fun _ => workerTurnH evals foldXP ec rc sem) K 0 n w)
      (loopP (fun _ => workerTurn evals foldX ec rc sem) k 0 n sp) own h := by
  refine gr_loopRel (fun _ own h w sp => WInv own h w sp) n 0 ?_ ?_ own h w sp i
  · intro j _ _ own h w sp i P p gP
    exact gr_turn fs i fun own' h' w' r i' => gP _ _ _ _ i'
  · exact g

/-- The arrays of chunk `i`. -/
def MProverH.arrs (p : MProverH F) (i : Nat) : Set Nat :=
  {a | ∃ s, (idx p.vL i = .ok s ∨ idx p.vR i = .ok s ∨ idx p.eq i = .ok s) ∧ 0 < s.cap ∧ s.arr = a}

/-- The arrays of a list of slices. -/
def arrsOf (ss : List Slice) : Set Nat := {a | ∃ s ∈ ss, 0 < s.cap ∧ s.arr = a}

theorem idx_map_ok {α β : Type} {f : α → β} {l : List α} {i : Nat} {b : β} (e : idx (l.map f) i = .ok b) :
    ∃ a, idx l i = .ok a ∧ f a = b := by
  unfold idx at e ⊢
  rw [List.getElem?_map] at e
  cases hl : l[i]? with
  | none => simp [hl] at e
  | some a => exact ⟨a, rfl, by simpa [hl] using e⟩

/-- The sub-prover of chunk `i`. -/
theorem gr_subProver {p : MProverH F} {h0 : Heap F} (hv : ∀ s ∈ p.base ++ p.statics, Valid h0 s) {i : Nat} {A : Set Nat}
    (ha : ∀ s, idx p.vL i = .ok s ∨ idx p.vR i = .ok s ∨ idx p.eq i = .ok s → Owns (A ∪ ro) s)
    (hs : ∀ s ∈ p.statics, Owns ro s) (hA : A ⊆ own) (hn : ∀ a ∈ own ∪ ro, a < h.next) (ag : Agree (A ∪ ro) h0 h)
    {K : SProverH F → Prog (Heap F) (MsgH F)} {k : SProver F → Prog Unit (Msg F)}
    (g : ∀ own' h' w sp, own ⊆ own' → idx p.vL i = .ok w.vL → idx p.vR i = .ok w.vR → idx p.eq i = .ok w.eq →
      WRep h' w sp → w.statics.Pairwise Apart → (∀ s ∈ w.statics, Owns (own' \ (own ∪ ro)) s) → GR MsgRel ro (K w) (k sp) own' h') :
    GR MsgRel ro (p.subProverP i K) (liftGo ((p.toM h0).subProver i) k) own h := by
  refine gr_liftRight fun sp e => ?_
  obtain ⟨l, el, e⟩ := bind_eq_ok.1 e
  obtain ⟨r, er, e⟩ := bind_eq_ok.1 e
  obtain ⟨q, eq, e⟩ := bind_eq_ok.1 e
  obtain ⟨sl, hl, rfl⟩ := idx_map_ok el
  obtain ⟨sr, hr, rfl⟩ := idx_map_ok er
  obtain ⟨sq, hq, rfl⟩ := idx_map_ok eq
  cases e
  have vl := hv sl (by simp [MProverH.base, idx_mem hl])
  have vr := hv sr (by simp [MProverH.base, idx_mem hr])
  have vq := hv sq (by simp [MProverH.base, idx_mem hq])
  have rs : Reps h0 p.statics (p.statics.map h0.vals) := Reps.self fun s hs => hv s (by simp [hs])
  refine gr_deepCopies (rs.agree (fun s h => (hs s h).mono Set.subset_union_right) ag)
    (fun s h => (hs s h).mono Set.subset_union_right) hn fun own' h' ds hsub ag' rds pw od => ?_
  refine gr_liftLeft hl (gr_liftLeft hr (gr_liftLeft hq ?_))
  have ag2 := ag.trans (ag'.mono (Set.union_subset_union_left _ hA))
  refine g own' h' _ _ hsub hl hr hq (wrep_mk (w := ⟨sl, sr, sq, p.gates, ds⟩) ?_ ?_ ?_ rds) pw od
  · exact (Rep.self vl).agree (ha _ (.inl hl)) ag2
  · exact (Rep.self vr).agree (ha _ (.inr (.inl hr))) ag2
  · exact (Rep.self vq).agree (ha _ (.inr (.inr hq))) ag2

theorem apart_base {p : MProverH F} (pw : p.base.Pairwise Apart) {i : Nat} {l r e : Slice} (hl : idx p.vL i = .ok l)
    (hr : idx p.vR i = .ok r) (he : idx p.eq i = .ok e) : Apart l r ∧ Apart l e ∧ Apart r e := by
  unfold MProverH.base at pw
  rw [List.append_assoc, List.pairwise_append, List.pairwise_append] at pw
  obtain ⟨_, ⟨_, _, p1⟩, p2⟩ := pw
  exact ⟨p2 _ (idx_mem hl) _ (List.mem_append_left _ (idx_mem hr)), p2 _ (idx_mem hl) _ (List.mem_append_right _ (idx_mem he)),
    p1 _ (idx_mem hr) _ (idx_mem he)⟩

theorem gr_runForChunk {p : MProverH F} {h0 : Heap F} (hv : ∀ s ∈ p.base ++ p.statics, Valid h0 s) (pw : p.base.Pairwise Apart)
    (hs : ∀ s ∈ p.statics, Owns ro s) {i ec rc fc sem : Nat} (ag : Agree (p.arrs i ∪ ro) h0 h) :
    GR MsgRel ro (p.runForChunkP i ec rc fc sem) ((p.toM h0).runForChunkP i ec rc fc sem) (p.arrs i) h := by
  have hown : ∀ s, idx p.vL i = .ok s ∨ idx p.vR i = .ok s ∨ idx p.eq i = .ok s → Owns (p.arrs i) s := fun s hs hc => ⟨s, hs, hc, rfl⟩
  refine gr_acquire fun own1 h1 hs1 ag1 hn1 => ?_
  refine gr_subProver hv (A := p.arrs i) (fun s h => (hown s h).mono Set.subset_union_left) hs hs1 hn1 (ag.trans ag1) ?_
  intro own2 h2 w sp hs2 hl hr he rw pws od
  have ol := (hown _ (.inl hl)).mono hs1
  have or := (hown _ (.inr (.inl hr))).mono hs1
  have oe := (hown _ (.inr (.inr he))).mono hs1
  obtain ⟨p1, p2, p3⟩ := apart_base pw hl hr he
  have dis : ∀ x ∈ own1, x ∉ own2 \ (own1 ∪ ro) := fun x hx hy => hy.2 (.inl hx)
  have iw : WInv own2 h2 w sp := by
    refine ⟨rw, ?_, ?_⟩
    · refine .cons ?_ (.cons ?_ (.cons ?_ pws))
      · intro u hu
        rcases List.mem_cons.1 hu with rfl | hu
        · exact p1
        · rcases List.mem_cons.1 hu with rfl | hu
          · exact p2
          · exact ol.apart (od u hu) dis
      · intro u hu
        rcases List.mem_cons.1 hu with rfl | hu
        · exact p3
        · exact or.apart (od u hu) dis
      · exact fun u hu => oe.apart (od u hu) dis
    · intro u hu
      simp only [SProverH.slices, List.mem_cons] at hu
      rcases hu with rfl | rfl | rfl | hu
      · exact ol.mono hs2
      · exact or.mono hs2
      · exact oe.mono hs2
      · exact (od u hu).mono fun x hx => hx.1
  refine gr_liftRight fun d hd => ?_
  obtain ⟨gg, hg, e⟩ := bind_eq_ok.1 hd
  cases e
  rw [rw.vR.len, rw.eq.len] at hg
  refine gr_liftLeft hg ?_
  simp only [rw.eq.len]
  refine gr_turns foldHL_sim (fun own3 h3 w3 sp3 i3 => ?_) _ iw
  refine gr_turns foldHR_sim (fun own4 h4 w4 sp4 i4 => ?_) _ i3
  refine gr_turns foldHPrime_sim (fun own5 h5 w5 sp5 i5 => ?_) _ i4
  refine gr_send own5 subset_rfl ⟨rfl, i5⟩ fun h6 _ => ?_
  exact gr_sendPlain trivial fun h7 _ => gr_close fun h8 _ => gr_ret trivial

/-! ### sumcheck/par.go: the main goroutine -/

theorem put_frameOn {s : Slice} {i : Nat} {v : F} (hi : i < s.len) (vs : Valid h s) : FrameOn h [s] (h.put s i v) :=
  FrameOn.of_frameBut (store_frameBut vs (store_ok hi))

theorem put_rep {s : Slice} {t : List F} (r : Rep h s t) {i : Nat} (hi : i < s.len) (v : F) : Rep (h.put s i v) s (t.set i v) := by
  rcases store_sim r i v with ⟨h', e, _, r', _⟩ | ⟨e, _⟩
  · rw [store_ok hi] at e
    cases e
    exact r'
  · rw [store_ok hi] at e
    cases e

theorem idx_get {s : Slice} {t : List F} (r : Rep h s t) {i : Nat} {x : F} (e : idx t i = .ok x) : i < s.len ∧ h.get s i = x := by
  have hi : i < t.length := by
    by_contra hc
    rw [idx_err (by omega)] at e
    cases e
  rw [r.len] at hi
  refine ⟨hi, ?_⟩
  have := r.load i
  rw [load_ok hi, e] at this
  cases this
  rfl

theorem gr_addMsg {tmp res : Slice} {ts xs : List F} (rt : Rep h tmp ts) (rr : Rep h res xs) (ap : Apart res tmp)
    (ot : Owns own tmp) (or : Owns own res) {K : Prog (Heap F) (MsgH F)} {k : List F → Prog Unit (Msg F)}
    (g : ∀ h' ys, Rep h' res ys → GR MsgRel ro K (k ys) own h') :
    GR MsgRel ro (addMsgP tmp res K) (liftGo (addMsg ts xs) k) own h := by
  unfold addMsg forN addMsgP
  rw [rr.len]
  refine gr_loopGo (fun o h _ ys => o = own ∧ Rep h tmp ts ∧ Rep h res ys) ?_ ?_ _ _ own h () xs ⟨rfl, rt, rr⟩
  · rintro i _ h _ ys ⟨rfl, rt, rr⟩ P ys' q e gP
    obtain ⟨t, ht, e⟩ := bind_eq_ok.1 e
    rw [modIdx_eq] at e
    obtain ⟨x, hx, e⟩ := bind_eq_ok.1 e
    obtain ⟨li, rfl⟩ := idx_get rt ht
    obtain ⟨lj, rfl⟩ := idx_get rr hx
    rw [setIdx_ok (by rw [rr.len]; exact lj)] at e
    cases e
    refine gr_load lj rr.valid.len (or.mono Set.subset_union_left) (gr_load li rt.valid.len (ot.mono Set.subset_union_left)
      (gr_store lj rr.valid.len or (gP _ _ _ ⟨rfl, ?_, put_rep rr lj _⟩)))
    exact rt.frameOn (put_frameOn lj rr.valid) (by simpa using ap)
  · rintro _ h _ ys ⟨rfl, _, rr⟩
    exact g h ys rr

theorem gr_consumeAccumulate {ch n : Nat} {K : Slice → Prog (Heap F) (MsgH F)} {k : List F → Prog Unit (Msg F)}
    (g : ∀ own' h' s xs, Rep h' s xs → Owns own' s → GR MsgRel ro (K s) (k xs) own' h') :
    GR MsgRel ro (consumeAccumulateH ch n K) (consumeAccumulateP ch n k) own h := by
  refine gr_recvSlice fun own1 h1 res xs _ _ rr or => ?_
  refine gr_loopRel (fun _ own h _ ys => Rep h res ys ∧ Owns own res) _ _ ?_ ?_ own1 h1 () xs ⟨rr, or.mono fun x hx => hx.1⟩
  · rintro i _ _ own2 h2 _ ys ⟨rr, or⟩ P p gP
    refine gr_recvSlice fun own3 h3 tmp ts hs3 ag3 rt ot => ?_
    exact gr_addMsg rt (rr.agree or (ag3.mono Set.subset_union_left)) (or.apart ot fun x hx hy => hy.2 hx) (ot.mono fun x hx => hx.1)
      (or.mono hs3) fun h4 ys' r4 => gP _ _ _ _ ⟨r4, or.mono hs3⟩
  · rintro own2 h2 _ ys ⟨rr, or⟩
    exact g _ _ _ _ rr or

/-! A store into one of the three new tables of `ConsumeMergeProvers`. -/

theorem winv_setVL {m : SProverH F} {a b c : List F} {gs : List (Gate F)} {st : List (List F)} (i : WInv own h m (newSProver a b c gs st))
    {j : Nat} (hj : j < m.vL.len) (x : F) : WInv own (h.put m.vL j x) m (newSProver (a.set j x) b c gs st) := by
  obtain ⟨⟨p1, p2, p3⟩, ⟨p4, p5⟩, p6, p7⟩ := slices_pairwise i.apart
  have f := put_frameOn (v := x) hj i.rep.vL.valid
  have := wrep_mk (w := m) (put_rep i.rep.vL hj x) (i.rep.vR.frameOn f (by simpa using p1)) (i.rep.eq.frameOn f (by simpa using p2))
    (reps_stable _ _ _ _ _ i.rep.statics f (by simpa using p3))
  have hg : m.gates = gs := congrArg SProver.gates i.rep.toS
  rw [hg] at this
  exact ⟨this, i.apart, i.owns⟩

theorem winv_setVR {m : SProverH F} {a b c : List F} {gs : List (Gate F)} {st : List (List F)} (i : WInv own h m (newSProver a b c gs st))
    {j : Nat} (hj : j < m.vR.len) (x : F) : WInv own (h.put m.vR j x) m (newSProver a (b.set j x) c gs st) := by
  obtain ⟨⟨p1, p2, p3⟩, ⟨p4, p5⟩, p6, p7⟩ := slices_pairwise i.apart
  have f := put_frameOn (v := x) hj i.rep.vR.valid
  have := wrep_mk (w := m) (i.rep.vL.frameOn f (by simpa using p1.symm)) (put_rep i.rep.vR hj x) (i.rep.eq.frameOn f (by simpa using p4))
    (reps_stable _ _ _ _ _ i.rep.statics f (by simpa using p5))
  have hg : m.gates = gs := congrArg SProver.gates i.rep.toS
  rw [hg] at this
  exact ⟨this, i.apart, i.owns⟩

theorem winv_setEq {m : SProverH F} {a b c : List F} {gs : List (Gate F)} {st : List (List F)} (i : WInv own h m (newSProver a b c gs st))
    {j : Nat} (hj : j < m.eq.len) (x : F) : WInv own (h.put m.eq j x) m (newSProver a b (c.set j x) gs st) := by
  obtain ⟨⟨p1, p2, p3⟩, ⟨p4, p5⟩, p6, p7⟩ := slices_pairwise i.apart
  have f := put_frameOn (v := x) hj i.rep.eq.valid
  have := wrep_mk (w := m) (i.rep.vL.frameOn f (by simpa using p2.symm)) (i.rep.vR.frameOn f (by simpa using p4.symm))
    (put_rep i.rep.eq hj x) (reps_stable _ _ _ _ _ i.rep.statics f (by simpa using p6))
  have hg : m.gates = gs := congrArg SProver.gates i.rep.toS
  rw [hg] at this
  exact ⟨this, i.apart, i.owns⟩

theorem setIdx_lt {α : Type} {l : List α} {i : Nat} {x : α} {l' : List α} (e : setIdx l i x = .ok l') : i < l.length ∧ l' = l.set i x := by
  unfold setIdx at e
  split at e
  · cases e; exact ⟨by assumption, rfl⟩
  · cases e

/-- One message of `ConsumeMergeProvers`. -/
theorem gr_mergeMsg {m w : SProverH F} {sp : SProver F} {s : List F × List F × List F} {gs : List (Gate F)} {st : List (List F)}
    (im : WInv own h m (newSProver s.1 s.2.1 s.2.2 gs st)) (rw' : WRep h w sp) (ow : ∀ u ∈ [w.vL, w.vR, w.eq], Owns own u)
    (ap : ∀ u ∈ [w.vL, w.vR, w.eq], Apart m.vL u ∧ Apart m.vR u ∧ Apart m.eq u) {i : Nat} {K : Prog (Heap F) (MsgH F)}
    {k : List F × List F × List F → Prog Unit (Msg F)}
    (g : ∀ h' s', FrameOn h [m.vL, m.vR, m.eq] h' → WInv own h' m (newSProver s'.1 s'.2.1 s'.2.2 gs st) → GR MsgRel ro K (k s') own h') :
    GR MsgRel ro (mergeMsgP i w m.vL m.vR m.eq K) (liftGo (mergeMsg i sp s) k) own h := by
  refine gr_liftRight fun s' e => ?_
  obtain ⟨l, hl, e⟩ := bind_eq_ok.1 e
  obtain ⟨a, ha, e⟩ := bind_eq_ok.1 e
  obtain ⟨r, hr, e⟩ := bind_eq_ok.1 e
  obtain ⟨b, hb, e⟩ := bind_eq_ok.1 e
  obtain ⟨q, hq, e⟩ := bind_eq_ok.1 e
  obtain ⟨c, hc, e⟩ := bind_eq_ok.1 e
  cases e
  obtain ⟨la, rfl⟩ := setIdx_lt ha
  obtain ⟨lb, rfl⟩ := setIdx_lt hb
  obtain ⟨lc, rfl⟩ := setIdx_lt hc
  replace la : i < m.vL.len := by rw [← im.rep.vL.len]; exact la
  replace lb : i < m.vR.len := by rw [← im.rep.vR.len]; exact lb
  replace lc : i < m.eq.len := by rw [← im.rep.eq.len]; exact lc
  have ov := fun u hu => (ow u hu).mono (Set.subset_union_left (t := ro))
  have om : ∀ u ∈ [m.vL, m.vR, m.eq], Owns own u := fun u hu => im.owns u (by
    simp only [SProverH.slices, List.mem_cons, List.not_mem_nil, or_false] at hu ⊢
    tauto)
  obtain ⟨l1, rfl⟩ := idx_get rw'.vL hl
  have f1 := put_frameOn (v := h.get w.vL 0) la im.rep.vL.valid
  have i1 := winv_setVL im la (h.get w.vL 0)
  refine gr_load l1 rw'.vL.valid.len (ov _ (by simp)) (gr_store la im.rep.vL.valid.len (om _ (by simp)) ?_)
  have r1 := rw'.vR.frameOn f1 (by simpa using (ap w.vR (by simp)).1)
  have e1 := rw'.eq.frameOn f1 (by simpa using (ap w.eq (by simp)).1)
  obtain ⟨l2, rfl⟩ := idx_get r1 hr
  generalize h.put m.vL i (h.get w.vL 0) = h1 at *
  have f2 := put_frameOn (v := h1.get w.vR 0) lb i1.rep.vR.valid
  have i2 := winv_setVR i1 lb (h1.get w.vR 0)
  refine gr_load l2 rw'.vR.valid.len (ov _ (by simp)) (gr_store lb im.rep.vR.valid.len (om _ (by simp)) ?_)
  have e2 := e1.frameOn f2 (by simpa using (ap w.eq (by simp)).2.1)
  obtain ⟨l3, rfl⟩ := idx_get e2 hq
  generalize h1.put m.vR i (h1.get w.vR 0) = h2 at *
  have f3 := put_frameOn (v := h2.get w.eq 0) lc i2.rep.eq.valid
  have i3 := winv_setEq i2 lc (h2.get w.eq 0)
  refine gr_load l3 rw'.eq.valid.len (ov _ (by simp)) (gr_store lc im.rep.eq.valid.len (om _ (by simp)) ?_)
  refine g _ (_, _, _) ?_ i3
  exact ((f1.mono (by simp)).trans_cov f2 (Cov.of_subset (by simp))).trans_cov f3 (Cov.of_subset (by simp))

theorem gr_consumeMerge {ch n : Nat} {K : SProverH F → Prog (Heap F) (MsgH F)} {k : SProver F → Prog Unit (Msg F)}
    (g : ∀ own' h' w sp, WInv own' h' w sp → GR MsgRel ro (K w) (k sp) own' h') :
    GR MsgRel ro (consumeMergeProversPH ch n K) (consumeMergeProversP ch n k) own h := by
  refine gr_make fun ha aga => ?_
  obtain ⟨ra, oa, fa⟩ := make_rep ha n
  refine gr_make fun hb agb => ?_
  obtain ⟨rb, ob, fb⟩ := make_rep hb n
  refine gr_make fun hc agc => ?_
  obtain ⟨rc, oc, fc⟩ := make_rep hc n
  have lab : ha.next < hb.next := (agb _ (.inl (.inl rfl))).2
  have lbc : hb.next < hc.next := (agc _ (.inl (.inl rfl))).2
  have ra3 : Rep (hc.make n).2 (ha.make n).1 (List.replicate n 0) := by
    have x1 := ra.agree (A := insert ha.next own ∪ ro) (fun _ => .inl (.inl rfl)) agb
    have x2 := (x1.frame fb).agree (A := insert hb.next (insert ha.next own) ∪ ro) (fun _ => .inl (.inr (.inl rfl))) agc
    exact x2.frame fc
  have rb3 : Rep (hc.make n).2 (hb.make n).1 (List.replicate n 0) :=
    (rb.agree (A := insert hb.next (insert ha.next own) ∪ ro) (fun _ => .inl (.inl rfl)) agc).frame fc
  generalize hown : insert hc.next (insert hb.next (insert ha.next own)) = own1
  have oA : Owns own1 (ha.make n).1 := fun _ => hown ▸ .inr (.inr (.inl rfl))
  have oB : Owns own1 (hb.make n).1 := fun _ => hown ▸ .inr (.inl rfl)
  have oC : Owns own1 (hc.make n).1 := fun _ => hown ▸ .inl rfl
  have pAB : Apart (ha.make n).1 (hb.make n).1 := fun _ _ (e : ha.next = hb.next) => by omega
  have pAC : Apart (ha.make n).1 (hc.make n).1 := fun _ _ (e : ha.next = hc.next) => by omega
  have pBC : Apart (hb.make n).1 (hc.make n).1 := fun _ _ (e : hb.next = hc.next) => by omega
  generalize (ha.make n).1 = A at *
  generalize (hb.make n).1 = B at *
  generalize (hc.make n).1 = C at *
  generalize (hc.make n).2 = h1 at *
  have crash : ∀ (s : List F × List F × List F) (q : _ → Prog Unit (Msg F)), ∃ e, liftGo (mergeMsg 0 ⟨[], [], [], [], [], 0, 0, 0⟩ s) q = .crash e :=
    fun s q => ⟨.index, rfl⟩
  refine gr_recvProver (crash _ _) fun own2 h2 i0 w0 sp0 hs2 ag2 i2 => ?_
  have ag2' := ag2.mono (Set.subset_union_left (s := own1) (t := ro))
  have hg : w0.gates = sp0.gates := congrArg SProver.gates i2.rep.toS
  have iM : WInv own2 h2 ⟨A, B, C, w0.gates, w0.statics⟩
      (newSProver (List.replicate n 0) (List.replicate n 0) (List.replicate n 0) sp0.gates sp0.statics) := by
    rw [← hg]
    refine ⟨wrep_mk (w := ⟨A, B, C, w0.gates, w0.statics⟩) (ra3.agree oA ag2') (rb3.agree oB ag2') (rc.agree oC ag2') i2.rep.statics, ?_, ?_⟩
    · have dis : ∀ x ∈ own1, x ∉ own2 \ own1 := fun x hx hy => hy.2 hx
      have od : ∀ u ∈ w0.statics, Owns (own2 \ own1) u := fun u hu => i2.owns u (by simp [SProverH.slices, hu])
      refine .cons ?_ (.cons ?_ (.cons ?_ (slices_pairwise i2.apart).2.2.2))
      · intro u hu
        rcases List.mem_cons.1 hu with rfl | hu
        · exact pAB
        · rcases List.mem_cons.1 hu with rfl | hu
          · exact pAC
          · exact oA.apart (od u hu) dis
      · intro u hu
        rcases List.mem_cons.1 hu with rfl | hu
        · exact pBC
        · exact oB.apart (od u hu) dis
      · exact fun u hu => oC.apart (od u hu) dis
    · intro u hu
      simp only [SProverH.slices, List.mem_cons] at hu
      rcases hu with rfl | rfl | rfl | hu
      · exact oA.mono hs2
      · exact oB.mono hs2
      · exact oC.mono hs2
      · exact (i2.owns u (by simp [SProverH.slices, hu])).mono fun x hx => hx.1
  have sub : ∀ (w : SProverH F), ∀ u ∈ [w.vL, w.vR, w.eq], u ∈ w.slices := by
    intro w u hu
    simp only [SProverH.slices, List.mem_cons, List.not_mem_nil, or_false] at hu ⊢
    tauto
  refine gr_mergeMsg (m := ⟨A, B, C, w0.gates, w0.statics⟩) (s := (List.replicate n 0, List.replicate n 0, List.replicate n 0)) iM i2.rep
    (fun u hu => (i2.owns u (sub _ u hu)).mono fun x hx => hx.1) ?_ ?_
  · intro u hu
    have ou := i2.owns u (sub _ u hu)
    exact ⟨oA.apart ou fun x hx hy => hy.2 hx, oB.apart ou fun x hx hy => hy.2 hx, oC.apart ou fun x hx hy => hy.2 hx⟩
  · intro h3 s3 _ i3
    refine gr_loopRel (fun _ own h _ s => WInv own h ⟨A, B, C, w0.gates, w0.statics⟩ (newSProver s.1 s.2.1 s.2.2 sp0.gates sp0.statics))
      _ _ ?_ ?_ own2 h3 () s3 i3
    · rintro _ _ _ own4 h4 _ s4 i4 P p gP
      refine gr_recvProver (crash _ _) fun own5 h5 i w sp hs5 ag5 i5 => ?_
      refine gr_mergeMsg (m := ⟨A, B, C, w0.gates, w0.statics⟩) ((i4.agree (ag5.mono Set.subset_union_left) subset_rfl).mono hs5) i5.rep
        (fun u hu => (i5.owns u (sub _ u hu)).mono fun x hx => hx.1) ?_ ?_
      · intro u hu
        have ou := i5.owns u (sub _ u hu)
        have q := fun (v : Slice) hv => (i4.owns v hv).apart ou fun x hx hy => hy.2 hx
        exact ⟨q A (by simp [SProverH.slices]), q B (by simp [SProverH.slices]), q C (by simp [SProverH.slices])⟩
      · exact fun h6 s6 _ i6 => gP _ _ _ _ i6
    · exact fun own4 h4 _ s4 i4 => g _ _ _ _ i4

theorem gr_broadcast {chs : List Nat} {r : F} {K : Prog (Heap F) (MsgH F)} {k : Prog Unit (Msg F)}
    (g : ∀ h', GR MsgRel ro K k own h') : GR MsgRel ro (broadcastH chs r K) (broadcastP chs r k) own h := by
  refine .inr fun h1 _ => ⟨_, rfl, fun wg => ?_⟩
  refine gr_loopRel (fun _ o _ _ _ => o = own) _ _ ?_ ?_ own h1 () () rfl
  · rintro i _ _ own' h' _ _ rfl P p gP
    refine gr_liftGo fun ch _ => gr_go ∅ (Set.empty_subset _) fun h2 _ => ⟨?_, ?_⟩
    · exact gr_sendPlain rfl fun h3 _ => .inr fun h4 _ => ⟨_, rfl, gr_ret trivial⟩
    · rw [Set.sdiff_empty]
      exact gP _ _ _ _ rfl
  · rintro own' h' _ _ rfl
    exact .inr fun h2 _ => ⟨_, rfl, g h2⟩

theorem gr_mapHeads {p : Prog Unit (Msg F)} : ∀ {ss : List Slice} {vs : List (List F)} {K : List F → Prog (Heap F) (MsgH F)} {ys : List F}, Reps h ss vs →
    (∀ s ∈ ss, Owns (own ∪ ro) s) → mapGo (fun t => idx t 0) vs = .ok ys → GR MsgRel ro (K ys) p own h →
    GR MsgRel ro (mapP (fun t => loadP t 0) ss K) p own h
  | [], _, K, ys, .nil, _, e, g => by cases e; exact g
  | s :: ss, _, K, ys, .cons (b := v) (l₂ := vs) r rs, o, e, g => by
    simp only [mapGo] at e
    cases e1 : idx v 0 with
    | error x => simp [e1] at e
    | ok y =>
      cases e2 : mapGo (fun t => idx t 0) vs with
      | error x => simp [e1, e2] at e
      | ok zs =>
        simp only [e1, e2] at e
        cases e
        obtain ⟨l, rfl⟩ := idx_get r e1
        refine gr_load (K := fun y => mapP (fun t => loadP t 0) ss fun ys => K (y :: ys)) l r.valid.len (o s (by simp)) ?_
        exact gr_mapHeads (K := fun ys => K (h.get s 0 :: ys)) rs (fun u hu => o u (by simp [hu])) e2 g

theorem gr_finalClaims {w : SProverH F} {sp : SProver F} (i : WInv own h w sp) {K : List F → Prog (Heap F) (MsgH F)}
    {k : List F → Prog Unit (Msg F)} (g : ∀ fc, GR MsgRel ro (K fc) (k fc) own h) :
    GR MsgRel ro (w.finalClaimsP K) (liftGo sp.finalClaims k) own h := by
  refine gr_liftRight fun fc e => ?_
  obtain ⟨l, hl, e⟩ := bind_eq_ok.1 e
  obtain ⟨r, hr, e⟩ := bind_eq_ok.1 e
  obtain ⟨q, hq, e⟩ := bind_eq_ok.1 e
  obtain ⟨ss, hs, e⟩ := bind_eq_ok.1 e
  cases e
  obtain ⟨l1, rfl⟩ := idx_get i.rep.vL hl
  obtain ⟨l2, rfl⟩ := idx_get i.rep.vR hr
  obtain ⟨l3, rfl⟩ := idx_get i.rep.eq hq
  have o := fun s hs => (i.owns s hs).mono (Set.subset_union_left (t := ro))
  refine gr_load l1 i.rep.vL.valid.len (o _ (by simp [SProverH.slices])) (gr_load l2 i.rep.vR.valid.len (o _ (by simp [SProverH.slices]))
    (gr_load l3 i.rep.eq.valid.len (o _ (by simp [SProverH.slices])) ?_))
  exact gr_mapHeads i.rep.statics (fun s hs => o s (by simp [SProverH.slices, hs])) hs (g _)

theorem gr_rounds {H : List F → F} {w : SProverH F} {sp : SProver F} (i : WInv own h w sp) {n : Nat}
    {K : SProverH F × List (List F) × List F → Prog (Heap F) (MsgH F)} {k : SProver F × List (List F) × List F → Prog Unit (Msg F)}
    (g : ∀ own' h' t u, WInv own' h' t.1 u.1 → t.2 = u.2 → GR MsgRel ro (K t) (k u) own' h') :
    GR MsgRel ro (loopP (fun _ t next =>
        t.1.readP fun sp =>
        liftGo sp.getEvalsOnHPrime fun e =>
        liftGo (interpolateOnRange e) fun c =>
        t.1.foldHPrimeP (H c) fun w => next (w, t.2.1 ++ [c], t.2.2 ++ [H c])) K 0 n (w, [], []))
      (liftGo (rounds H SProver.getEvalsOnHPrime SProver.foldHPrime n sp) k) own h := by
  refine gr_loopGo (fun own h t u => WInv own h t.1 u.1 ∧ t.2 = u.2) ?_ ?_ n 0 own h (w, [], []) (sp, [], []) ⟨i, rfl⟩
  · rintro _ own h t u ⟨i, e2⟩ P u' q e gP
    obtain ⟨ev, h1, e⟩ := bind_eq_ok.1 e
    obtain ⟨c, h2, e⟩ := bind_eq_ok.1 e
    cases e
    refine gr_readW i.rep (fun s hs => (i.owns s hs).mono Set.subset_union_left) (gr_liftLeft h1 (gr_liftLeft h2 ?_))
    refine foldHPrime_sim _ _ _ _ _ _ _ _ i fun h' w' i' _ _ => gP _ _ _ ⟨i', ?_⟩
    simp only [e2]
  · rintro own h t u ⟨i, e⟩
    exact g own h t u i e

theorem idx_map {α β : Type} (f : α → β) (l : List α) (i : Nat) : idx (l.map f) i = (idx l i).map f := by
  unfold idx
  rw [List.getElem?_map]
  cases l[i]? <;> rfl

theorem liftGo_map {α β M V : Type} (f : α → β) (x : Go α) (k : β → Prog M V) : liftGo (x.map f) k = liftGo x fun a => k (f a) := by
  cases x <;> rfl

/-- The arrays of different chunks. -/
theorem arrs_disjoint {p : MProverH F} (pw : p.base.Pairwise Apart) {i j : Nat} (hij : i < j) : ∀ a ∈ p.arrs i, a ∉ p.arrs j := by
  unfold MProverH.base at pw
  rw [List.append_assoc, List.pairwise_append, List.pairwise_append] at pw
  obtain ⟨q1, ⟨q2, q3, q4⟩, q5⟩ := pw
  rintro a ⟨s, hs, hc, rfl⟩ ⟨u, hu, hd, e⟩
  have : Apart s u := by
    rcases hs with hs | hs | hs <;> rcases hu with hu | hu | hu
    · exact pairwise_idx q1 hij hs hu
    · exact q5 _ (idx_mem hs) _ (by simp [idx_mem hu])
    · exact q5 _ (idx_mem hs) _ (by simp [idx_mem hu])
    · exact (q5 _ (idx_mem hu) _ (by simp [idx_mem hs])).symm
    · exact pairwise_idx q2 hij hs hu
    · exact q4 _ (idx_mem hs) _ (idx_mem hu)
    · exact (q5 _ (idx_mem hu) _ (by simp [idx_mem hs])).symm
    · exact (q4 _ (idx_mem hu) _ (idx_mem hs)).symm
    · exact pairwise_idx q3 hij hs hu
  exact this hc hd e.symm

theorem arrs_sub (p : MProverH F) (i : Nat) : p.arrs i ⊆ arrsOf p.base := by
  rintro a ⟨s, hs, hc, rfl⟩
  refine ⟨s, ?_, hc, rfl⟩
  rcases hs with hs | hs | hs <;> simp [MProverH.base, idx_mem hs]

theorem owns_arrsOf {ss : List Slice} {s : Slice} (hs : s ∈ ss) : Owns (arrsOf ss) s := fun hc => ⟨s, hs, hc, rfl⟩

theorem arrsOf_alloc {ss : List Slice} (hv : ∀ s ∈ ss, Valid h s) : ∀ a ∈ arrsOf ss, a < h.next := by
  rintro a ⟨s, hs, hc, rfl⟩
  exact (hv s hs).arr hc

theorem gr_prove (H : List F → F) {p : MProverH F} (hv : ∀ s ∈ p.base ++ p.statics, Valid h s) (pw : p.base.Pairwise Apart)
    (nCore : Int) : GR MsgRel (arrsOf p.statics) (p.proveP H nCore) ((p.toM h).proveP H nCore) (arrsOf p.base) h := by
  have hlen : (p.toM h).eq.length = p.eq.length := List.length_map ..
  have hs : ∀ s ∈ p.statics, Owns (arrsOf p.statics) s := fun s hs => owns_arrsOf hs
  have hn : ∀ a ∈ arrsOf p.base ∪ arrsOf p.statics, a < h.next := by
    rintro a (ha | ha)
    · exact arrsOf_alloc (fun s hs => hv s (by simp [hs])) a ha
    · exact arrsOf_alloc (fun s hs => hv s (by simp [hs])) a ha
  unfold MProverH.proveP MProver.proveP
  simp only [hlen]
  change GR _ _ _ (liftGo (idx (p.eq.map h.vals) 0) _) _ _
  rw [idx_map, liftGo_map]
  refine gr_liftGo fun eq0 _ => ?_
  change GR _ _ _ (liftGo (idx (p.vL.map h.vals) 0) _) _ _
  rw [idx_map, liftGo_map]
  refine gr_liftGo fun vL0 _ => ?_
  simp only [vals_length]
  refine gr_liftGo fun g _ => ?_
  refine gr_make' fun ec h1 a1 => gr_make' fun fc h2 a2 => gr_newSem fun sem h3 a3 => ?_
  refine gr_loopRel (fun i own h' chs chs' => chs = chs' ∧ (∀ j, i ≤ j → p.arrs j ⊆ own) ∧
    Agree (own ∪ arrsOf p.statics) h h') _ _ ?_ ?_ _ h3 [] [] ⟨rfl, fun j _ => arrs_sub p j, (a1.trans a2).trans a3⟩
  · rintro i _ _ own h' chs _ ⟨rfl, ho, ag⟩ P q gP
    refine gr_make' fun rc h4 a4 => gr_go (p.arrs i) (ho i le_rfl) fun h5 a5 => ?_
    have ag5 := (ag.trans a4).trans a5
    refine ⟨gr_runForChunk hv pw hs (ag5.mono (Set.union_subset_union_left _ (ho i le_rfl))), gP _ _ _ _ ⟨rfl, ?_, ?_⟩⟩
    · intro j hj a ha
      exact ⟨ho j (by omega) ha, fun hb => arrs_disjoint pw (show i < j by omega) a hb ha⟩
    · exact ag5.mono (Set.union_subset_union_left _ fun x hx => hx.1)
  · rintro own4 h4 chs _ ⟨rfl, _⟩
    refine gr_loopRel (fun _ _ _ s t => s = t) _ _ ?_ ?_ own4 h4 _ _ rfl
    · rintro i _ _ own5 h5 s _ rfl P q gP
      refine gr_consumeAccumulate fun own6 h6 sl xs r6 o6 => ?_
      refine gr_read r6.valid.len (o6.mono Set.subset_union_left) ?_
      rw [r6.vals]
      exact gr_liftGo fun c _ => gr_broadcast fun h7 => gP _ _ _ _ rfl
    · rintro own5 h5 s _ rfl
      refine gr_consumeMerge fun own6 h6 w sp i6 => ?_
      refine gr_rounds i6 fun own7 h7 t u i7 e7 => ?_
      refine gr_finalClaims i7 fun fcs => gr_close fun h8 _ => gr_close fun h9 _ => gr_ret ?_
      change _ = _
      rw [e7]

/-! ### GetClaim -/

theorem gr_getClaim {p : MProverH F} (hv : ∀ s ∈ p.base ++ p.statics, Valid h s) (nCore : Int) :
    GR MsgRel (arrsOf (p.base ++ p.statics)) (p.getClaimP nCore) ((p.toM h).getClaimP nCore) ∅ h := by
  have hlen : (p.toM h).eq.length = p.eq.length := List.length_map ..
  unfold MProverH.getClaimP MProver.getClaimP
  rw [hlen]
  refine gr_make' fun ec h1 a1 => gr_newSem fun sem h2 a2 => ?_
  refine gr_loopRel (fun i own h' _ _ => own = ∅ ∧ Agree (∅ ∪ arrsOf (p.base ++ p.statics)) h h') _ _ ?_ ?_ _ h2 () ()
    ⟨rfl, a1.trans a2⟩
  · rintro i _ _ _ h3 _ _ ⟨rfl, ag⟩ P q gP
    refine gr_go ∅ subset_rfl fun h4 a4 => ?_
    rw [Set.sdiff_empty]
    refine ⟨?_, gP _ _ _ _ ⟨rfl, ag.trans a4⟩⟩
    refine gr_acquire fun own5 h5 hs5 a5 hn5 => ?_
    have ho : ∀ s ∈ p.base ++ p.statics, Owns (arrsOf (p.base ++ p.statics)) s := fun s hs => owns_arrsOf hs
    refine gr_subProver hv (A := ∅) ?_ (fun s hs => ho s (by simp [hs])) hs5 hn5 ((ag.trans a4).trans a5) ?_
    · intro s hs
      refine (ho s ?_).mono Set.subset_union_right
      rcases hs with hs | hs | hs <;> simp [MProverH.base, idx_mem hs]
    · intro own6 h6 w sp hs6 hl hr he rw _ od
      refine gr_readW rw ?_ (gr_liftGo fun x _ => gr_sendPlain rfl fun h7 _ => gr_sendPlain trivial fun h8 _ => gr_ret trivial)
      intro u hu
      simp only [SProverH.slices, List.mem_cons] at hu
      rcases hu with rfl | rfl | rfl | hu
      · exact (ho _ (by simp [MProverH.base, idx_mem hl])).mono Set.subset_union_right
      · exact (ho _ (by simp [MProverH.base, idx_mem hr])).mono Set.subset_union_right
      · exact (ho _ (by simp [MProverH.base, idx_mem he])).mono Set.subset_union_right
      · exact (od u hu).mono fun x hx => .inl hx.1
  · rintro _ h3 _ _ ⟨rfl, ag⟩
    refine gr_loopRel (fun _ _ _ s t => s = t) _ _ ?_ ?_ _ h3 _ _ rfl
    · rintro i _ _ own4 h4 s _ rfl P q gP
      exact gr_recvElem fun own5 h5 x _ _ => gP _ _ _ _ rfl
    · rintro own4 h4 s _ rfl
      exact gr_ret rfl

/-! ### The start -/

open Classical in
theorem cr_startOf {C M V V' : Type} {MR : Set Nat → Heap C → V → V' → Prop} {ro : Set Nat} {h : Heap C} {m : M} {tok : V} {tok' : V'}
    (ht : ∀ o h, MR o h tok tok') {P : Prog (Heap C) V} {p : Prog M V'} {B : Set Nat} (d : ∀ a ∈ B, a ∉ ro)
    (hn : ∀ a ∈ B ∪ ro, a < h.next) (g : GR MR ro P p B h) :
    CR MR ro B h (startOf P h tok) (startOf p m tok')
      (fun a => if a ∈ ro then .ro else if a ∈ B then .g 0 else .free) fun _ => 0 where
  nG := rfl
  nC := rfl
  wgs := rfl
  nW := rfl
  alive := rfl
  alive' := rfl
  cap _ := rfl
  closed _ := rfl
  len _ := rfl
  msgs c j v v' e := by simp [startOf] at e
  progs i := by
    by_cases hi : i = 0
    · subst hi
      simp only [startOf, Function.update_self]
      convert g using 1
      ext a
      simp only [Set.mem_ofPred_eq]
      by_cases h1 : a ∈ ro
      · simp only [h1, if_true]
        exact ⟨fun e => (by cases e), fun hb => absurd h1 (d a hb)⟩
      · by_cases h2 : a ∈ B <;> simp [h1, h2]
    · simp only [startOf, Function.update_of_ne hi]
      exact .inr fun h' _ => ⟨_, rfl, ht _ _⟩
  rest i hi := ⟨tok, by simp only [startOf]; rw [Function.update_of_ne]; change 1 ≤ i at hi; omega⟩
  ro a := by
    by_cases h1 : a ∈ ro
    · simp [h1]
    · by_cases h2 : a ∈ B <;> simp [h1, h2]
  idle a i e := by
    by_cases h1 : a ∈ ro
    · simp [h1] at e
    · by_cases h2 : a ∈ B
      · simp [h1, h2] at e
        subst e
        exact Nat.one_pos
      · simp [h1, h2] at e
  flight a c n e := by
    by_cases h1 : a ∈ ro
    · simp [h1] at e
    · by_cases h2 : a ∈ B <;> simp [h1, h2] at e
  alloc a e := by
    by_cases h1 : a ∈ ro
    · exact hn a (.inr h1)
    · by_cases h2 : a ∈ B
      · exact hn a (.inl h2)
      · simp [h1, h2] at e
  next := le_rfl
  frame a _ hB := ⟨rfl, by
    by_cases h1 : a ∈ ro
    · exact .inr (by simp [h1])
    · exact .inl (by simp [h1, hB])⟩

open Classical in
theorem cr_start {P : Prog (Heap F) (MsgH F)} {p : Prog Unit (Msg F)} {B : Set Nat} (d : ∀ a ∈ B, a ∉ ro)
    (hn : ∀ a ∈ B ∪ ro, a < h.next) (g : GR MsgRel ro P p B h) :
    CR MsgRel ro B h (startOf P h .tok) (startOf p () .tok)
      (fun a => if a ∈ ro then .ro else if a ∈ B then .g 0 else .free) fun _ => 0 := cr_startOf (fun _ _ => trivial) d hn g

end GkrMimc
