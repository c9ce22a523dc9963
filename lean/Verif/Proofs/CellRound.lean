import Verif.Proofs.CellEq
import Verif.Model.Gkr

/-! The tables of a round of the prover, single accesses. -/

set_option linter.unusedSectionVars false

namespace GkrMimc

open Spec Finset

variable {F : Type} [Field F] [DecidableEq F]

theorem CellFrame.arr {h h' : Heap (Cell F)} (f : CellFrame ∅ h h') : ArrFrame ∅ h h' := f.toArr (by simp)

theorem ArrFrame.cells {h h' : Heap (Cell F)} (f : ArrFrame ∅ h h') : CellFrame ∅ h h' :=
  ⟨f.1, fun c hc _ => by rw [f.2 c.1 hc (by simp)]⟩

theorem HoldsLayers.mono {h h' : Heap (Cell F)} {s : Slice} {v : List (List (List F))} (t : HoldsLayers h s v) (hf : CellFrame ∅ h h') :
    HoldsLayers h' s v := by
  obtain ⟨hv, ds, e, hall⟩ := t
  exact ⟨hv.arrFrame hf.arr, ds, (vals_arrFrame hv hf.arr (by simp)).trans e, hall.imp fun _ _ q => q.mono hf⟩

theorem TablesAt.frame {h h' : Heap (Cell F)} {lo : Nat} {A : Set Nat} {res : Slice} {ds : List Slice} {ts : List (List F)} (T : TablesAt h lo res ds ts)
    (f : ArrFrame A h h') (h1 : 0 < res.cap → res.arr ∉ A) (h2 : ∀ d ∈ ds, 0 < d.cap → d.arr ∉ A) : TablesAt h' lo res ds ts :=
  ⟨T.valid.arrFrame f, (vals_arrFrame T.valid f h1).trans T.vals, forall₂_arrFrame T.holds f h2, T.apart, T.new⟩

theorem TablesAt.mono {h h' : Heap (Cell F)} {lo : Nat} {res : Slice} {ds : List Slice} {ts : List (List F)} (T : TablesAt h lo res ds ts)
    (f : ArrFrame ∅ h h') : TablesAt h' lo res ds ts := T.frame f (by simp) (by simp)

theorem TablesAt.lt {h : Heap (Cell F)} {lo : Nat} {res : Slice} {ds : List Slice} {ts : List (List F)} (T : TablesAt h lo res ds ts) :
    ∀ d ∈ ds, 0 < d.cap → d.arr < h.next := by
  intro d hd hc
  obtain ⟨k, hk, rfl⟩ := List.getElem_of_mem hd
  exact ((List.forall₂_iff_get.1 T.holds).2 k hk (by rw [← T.holds.length_eq]; exact hk)).1.arr hc

theorem TablesAt.of_new {h h' : Heap (Cell F)} {res : Slice} {ts : List (List F)} (t : HoldsTables h' res ts) (n : NewTables h h' res) :
    ∃ ds, TablesAt h' h.next res ds ts := by
  obtain ⟨hv, ds, e, hall⟩ := t
  obtain ⟨ds', e', hnd, hnew⟩ := n
  obtain rfl : ds = ds' := List.map_injective_iff.2 (fun a b h => by cases h; rfl) (e.symm.trans e')
  refine ⟨ds, hv, e, hall, ?_, fun d hd _ => hnew d hd⟩
  exact (List.pairwise_map.1 hnd).imp fun hne _ _ => hne

section
variable {W : Set (Nat × Nat)} {h0 h : Heap (Cell F)} {post : Conf (Heap (Cell F)) (MsgH F) → Prop} {B : Nat}

theorem prepared {h1 h2 h3 h4 h' : Heap (Cell F)} {t : RoundTables} {dl dr de ds : List Slice} {vL vR eq statics : List (List F)} {l1 l2 l3 l4 : Nat}
    (T1 : TablesAt h1 l1 t.vL dl vL) (T2 : TablesAt h2 l2 t.vR dr vR) (T3 : TablesAt h3 l3 t.eq de eq)
    (T4 : TablesAt h4 l4 t.statics ds statics) (f1 : ArrFrame ∅ h1 h') (f2 : ArrFrame ∅ h2 h') (f3 : ArrFrame ∅ h3 h') (f4 : ArrFrame ∅ h4 h')
    (i1 : h0.next ≤ l1) (i01 : l1 ≤ h1.next) (i2 : h1.next ≤ l2) (i3 : h2.next ≤ l3) (i12 : h1.next ≤ h2.next)
    (i4 : (h0.next ≤ l4 ∧ h4.next ≤ l1) ∨ h3.next ≤ l4) (i23 : h2.next ≤ h3.next) :
    PreparedTables h0 h' t vL vR eq statics := by
  refine ⟨⟨T1.valid.arrFrame f1, T2.valid.arrFrame f2, T3.valid.arrFrame f3, T4.valid.arrFrame f4⟩, dl, dr, de, ds, ?_, ?_, ?_, ?_⟩
  · exact ⟨(T1.mono f1).vals, (T2.mono f2).vals, (T3.mono f3).vals, (T4.mono f4).vals⟩
  · exact ⟨(T1.mono f1).holds, (T2.mono f2).holds, (T3.mono f3).holds, (T4.mono f4).holds⟩
  · have key : ∀ {ha hb : Heap (Cell F)} {la lb : Nat} {ra rb : Slice} {da db : List Slice} {va vb : List (List F)},
        TablesAt ha la ra da va → TablesAt hb lb rb db vb → (ha.next ≤ lb ∨ hb.next ≤ la) → ∀ x ∈ da, ∀ y ∈ db, Apart x y := by
      intro ha hb la lb ra rb da db va vb Ta Tb hor x hx y hy hcx hcy
      have a1 := Ta.lt x hx hcx
      have a2 := Ta.new x hx hcx
      have b1 := Tb.lt y hy hcy
      have b2 := Tb.new y hy hcy
      omega
    have P : ∀ {da db : List Slice}, da.Pairwise Apart → db.Pairwise Apart → (∀ x ∈ da, ∀ y ∈ db, Apart x y) → (da ++ db).Pairwise Apart :=
      fun a b c => List.pairwise_append.2 ⟨a, b, c⟩
    have m : ∀ {da db dc : List Slice}, (∀ x ∈ da, ∀ y ∈ dc, Apart x y) → (∀ x ∈ db, ∀ y ∈ dc, Apart x y) → ∀ x ∈ da ++ db, ∀ y ∈ dc, Apart x y := by
      intro da db dc a b x hx
      rcases List.mem_append.1 hx with hx | hx
      exacts [a x hx, b x hx]
    refine P (P (P T1.apart T2.apart (key T1 T2 (.inl i2))) T3.apart (m (key T1 T3 (.inl (by omega))) (key T2 T3 (.inl i3)))) T4.apart ?_
    refine m (m ?_ ?_) ?_
    all_goals rcases i4 with i4 | i4
    · exact key T1 T4 (.inr i4.2)
    · exact key T1 T4 (.inl (by omega))
    · exact key T2 T4 (.inr (by omega))
    · exact key T2 T4 (.inl (by omega))
    · exact key T3 T4 (.inr (by omega))
    · exact key T3 T4 (.inl i4)
  · intro d hd hc
    simp only [List.mem_append] at hd
    rcases hd with ((hd | hd) | hd) | hd
    · have := T1.new d hd hc; omega
    · have := T2.new d hd hc; omega
    · have := T3.new d hd hc; omega
    · have := T4.new d hd hc; omega

theorem initialTables_ga {p : GkrProverC F} {vs : List (List (List F))} {qPrime q : List F} {nCore : Int} {m : MProver F}
    {k : Layer F → RoundTables → CProg F} (hn : 1 ≤ nCore) (hf : CellFrame W h0 h) (hin : HoldsLayers h p.values vs)
    (e : (⟨p.bN, p.circuit, vs⟩ : GkrProver F).initialRound qPrime q nCore = .ok m)
    (g : ∀ h' l t, idxPred p.circuit.layers p.circuit.layers.length = .ok l → l.gates = m.gates → ArrFrame ∅ h h' →
      PreparedTables h h' t m.vL m.vR m.eq m.statics → GA W h0 post B (k l t) h' AnyX) :
    ∃ C, GA W h0 post (B + C) (p.initialTables qPrime q nCore k) h AnyX := by
  unfold GkrProver.initialRound at e
  simp only at e
  obtain ⟨l, el, e⟩ := bind_eq_ok.1 e
  obtain ⟨ss, es, e⟩ := bind_eq_ok.1 e
  obtain ⟨vL, eL, e⟩ := bind_eq_ok.1 e
  obtain ⟨vR, eR, e⟩ := bind_eq_ok.1 e
  obtain ⟨eq, ee, e⟩ := bind_eq_ok.1 e
  cases e
  unfold GkrProverC.initialTables
  simp only
  rw [el, liftGo_ok]
  refine ⟨chunkedEqSteps qPrime vL.length nCore + layerAsBKTSteps vR nCore + layerAsBKTSteps vL nCore + staticSteps l q, ?_⟩
  rw [← Nat.add_assoc, ← Nat.add_assoc, ← Nat.add_assoc]
  refine getStaticTableC_ga hf es fun h1 s1 d1 _ _ _ f1 T1 => ?_
  have c1 := f1.cells
  refine layerAsBKTWithCopyC_ga hn (hin.mono c1) eL (hf.trans' c1) fun h2 s2 c2 t2 n2 _ => ?_
  have c12 := c1.trans' c2
  refine layerAsBKTWithCopyC_ga hn (hin.mono c12) eR (hf.trans' c12) fun h3 s3 c3 t3 n3 _ => ?_
  have c13 := c12.trans' c3
  obtain ⟨d2, T2⟩ := TablesAt.of_new t2 n2
  obtain ⟨d3, T3⟩ := TablesAt.of_new t3 n3
  have hlen : s2.len = vL.length := by rw [← vals_len T2.vals]; exact T2.holds.length_eq
  rw [hlen]
  refine getChunkedEqTableC_ga hn (hf.trans' c13) ee fun h4 s4 d4 _ f4 T4 => ?_
  have c14 := c13.trans' f4.cells
  refine g h4 l ⟨s2, s3, s4, s1⟩ el rfl c14.arr ?_
  exact prepared (h1 := h2) (h2 := h3) (h3 := h4) (h4 := h1) T2 T3 T4 T1 (c3.trans' f4.cells).arr f4 (ArrFrame.refl _ _)
    ((c2.trans' c3).trans' f4.cells).arr c1.1 c2.1 le_rfl (by omega) c3.1 (.inl ⟨by omega, le_rfl⟩) f4.1

/-- The tables of two slices of tables and the result, after `i` linear combinations. -/
structure LinInv (h h' : Heap (Cell F)) (lo n : Nat) (sL sR res : Slice) (dL dR : List Slice) (tL tR out : List (List F)) (i : Nat) : Prop where
  frame : ArrFrame {a | lo ≤ a} h h'
  lt : h.next < h'.next
  vL : h'.vals sL = dL.map .hdr
  vR : h'.vals sR = dR.map .hdr
  vRes : h'.vals res = (dR.take i).map .hdr ++ List.replicate (n - i) (.hdr Slice.nil)
  restL : ∀ j a b, i ≤ j → dL[j]? = some a → tL[j]? = some b → HoldsVec h' a b
  restR : ∀ j a b, i ≤ j → dR[j]? = some a → tR[j]? = some b → HoldsVec h' a b
  done : ∀ j a b, j < i → dR[j]? = some a → out[j]? = some b → HoldsVec h' a b

/-- Where the tables are. -/
structure LinPlace (h : Heap (Cell F)) (lo : Nat) (sL sR : Slice) (dL dR : List Slice) : Prop where
  loL : lo = sL.arr
  loR : lo < sR.arr
  ltR : sR.arr < h.next
  validL : Valid h sL
  validR : Valid h sR
  fL : ∀ d ∈ dL, 0 < d.cap → lo < d.arr ∧ d.arr < sR.arr
  fR : ∀ d ∈ dR, 0 < d.cap → sR.arr < d.arr ∧ d.arr < h.next
  apL : dL.Pairwise Apart
  apR : dR.Pairwise Apart

theorem pairwise_get? {ds : List Slice} (hp : ds.Pairwise Apart) {i j : Nat} {a b : Slice} (hi : ds[i]? = some a) (hj : ds[j]? = some b) (hne : i ≠ j) :
    Apart a b := by
  obtain ⟨q1, rfl⟩ := List.getElem?_eq_some_iff.1 hi
  obtain ⟨q2, rfl⟩ := List.getElem?_eq_some_iff.1 hj
  rcases lt_or_gt_of_ne hne with hlt | hgt
  · exact List.pairwise_iff_getElem.1 hp i j q1 q2 hlt
  · exact (List.pairwise_iff_getElem.1 hp j i q2 q1 hgt).symm

/-- One linear combination, put into the result. -/
theorem LinInv.step {h h2 h3 : Heap (Cell F)} {lo n i : Nat} {sL sR : Slice} {dL dR : List Slice} {tL tR out : List (List F)} {a b : Slice} {z : List F}
    (P : LinPlace h lo sL sR dL dR) (I : LinInv h h2 lo n sL sR ⟨h.next, 0, n, n⟩ dL dR tL tR out i) (hi : i < n)
    (ha : dL[i]? = some a) (hb : dR[i]? = some b) (hz : out[i]? = some z)
    (a3 : ArrFrame {x | (x = a.arr ∧ 0 < a.cap) ∨ (x = b.arr ∧ 0 < b.cap)} h2 h3) (v3 : HoldsVec h3 b z) :
    LinInv h (h3.put ⟨h.next, 0, n, n⟩ i (.hdr b)) lo n sL sR ⟨h.next, 0, n, n⟩ dL dR tL tR out (i + 1) := by
  have ma := P.fL a (List.mem_of_getElem? ha)
  have mb := P.fR b (List.mem_of_getElem? hb)
  obtain ⟨loL, loR, ltR, vL, vR, fL, fR, apL, apR⟩ := P
  have hsep : ∀ d : Slice, (0 < d.cap → (0 < a.cap → d.arr ≠ a.arr) ∧ (0 < b.cap → d.arr ≠ b.arr)) →
      0 < d.cap → d.arr ∉ ({x | (x = a.arr ∧ 0 < a.cap) ∨ (x = b.arr ∧ 0 < b.cap)} : Set Nat) := by
    rintro d hd hc (⟨q1, q2⟩ | ⟨q1, q2⟩)
    · exact (hd hc).1 q2 q1
    · exact (hd hc).2 q2 q1
  have a23 : ArrFrame {a | lo ≤ a} h h3 := I.frame.trans a3 (by
    rintro a (⟨rfl, c⟩ | ⟨rfl, c⟩) _
    · exact (ma c).1.le
    · exact (loR.trans (mb c).1).le)
  have hput : ArrFrame {h.next} h3 (h3.put ⟨h.next, 0, n, n⟩ i (.hdr b)) := (ArrFrame.refl _ h3).put _ fun _ => rfl
  have keep : ∀ {d : Slice} {v : List F}, HoldsVec h2 d v → (0 < d.cap → (0 < a.cap → d.arr ≠ a.arr) ∧ (0 < b.cap → d.arr ≠ b.arr)) →
      (0 < d.cap → d.arr < h.next) → HoldsVec (h3.put ⟨h.next, 0, n, n⟩ i (.hdr b)) d v := fun hv hd hlt =>
    (hv.arrFrame a3 (hsep _ hd)).arrFrame hput fun hc he => (hlt hc).ne he
  have keepS : ∀ {s : Slice}, Valid h s → (0 < a.cap → s.arr ≠ a.arr) → (0 < b.cap → s.arr ≠ b.arr) → s.arr ≠ h.next →
      (h3.put ⟨h.next, 0, n, n⟩ i (.hdr b)).vals s = h2.vals s := fun v n1 n2 n3 => by
    rw [vals_arrFrame (v.arrFrame a23) hput fun _ he => n3 he, vals_arrFrame (v.arrFrame I.frame) a3 (hsep _ fun _ => ⟨n1, n2⟩)]
  have kR : ∀ j d v, j ≠ i → dR[j]? = some d → HoldsVec h2 d v → HoldsVec (h3.put ⟨h.next, 0, n, n⟩ i (.hdr b)) d v := by
    intro j d v hne hd hv
    have md := fR d (List.mem_of_getElem? hd)
    refine keep hv (fun c => ⟨fun c2 => ?_, pairwise_get? apR hd hb hne c⟩) fun c => (md c).2
    exact ((ma c2).2.trans (md c).1).ne'
  refine ⟨a23.put _ fun _ => ?_, lt_of_lt_of_le I.lt a3.1, ?_, ?_, ?_, ?_, ?_, ?_⟩
  · exact (loR.trans ltR).le
  · rw [keepS vL (fun c => loL ▸ (ma c).1.ne) (fun c => loL ▸ (loR.trans (mb c).1).ne) (loL ▸ (loR.trans ltR).ne), I.vL]
  · rw [keepS vR (fun c => (ma c).2.ne') (fun c => (mb c).1.ne) ltR.ne, I.vR]
  · have hl : i < dR.length := (List.getElem?_eq_some_iff.1 hb).1
    rw [vals_put_same, vals_arrFrame (s := ⟨h.next, 0, n, n⟩) ⟨le_rfl, fun _ => I.lt⟩ a3, I.vRes, fill_set hi (by rw [List.length_take]; omega)]
    · rw [List.take_add_one, hb]
      rfl
    · exact hsep ⟨h.next, 0, n, n⟩ fun _ => ⟨fun c => ((ma c).2.trans ltR).ne', fun c => (mb c).2.ne'⟩
  · intro j d v hj hd hv
    have md := fL d (List.mem_of_getElem? hd)
    refine keep (I.restL j d v (by omega) hd hv) (fun c => ⟨pairwise_get? apL hd ha (by omega) c, fun c2 => ?_⟩) fun c => (md c).2.trans ltR
    exact ((md c).2.trans (mb c2).1).ne
  · intro j d v hj hd hv
    exact kR j d v (by omega) hd (I.restR j d v (by omega) hd hv)
  · intro j d v hj hd hv
    rcases Nat.lt_or_ge j i with q | q
    · exact kR j d v q.ne hd (I.done j d v q hd hv)
    · obtain rfl : j = i := by omega
      rw [hb] at hd
      rw [hz] at hv
      cases hd
      cases hv
      exact v3.arrFrame hput fun c he => (mb c).2.ne he

theorem lincombs_ga {lo : Nat} {sL sR : Slice} {dL dR : List Slice} {tL tR out : List (List F)} {x y : F}
    {k : Slice → CProg F} (hf : CellFrame W h0 h) (h0l : h0.next ≤ lo) (P : LinPlace h lo sL sR dL dR)
    (TL : TablesAt h (lo + 1) sL dL tL) (TR : TablesAt h (sR.arr + 1) sR dR tR) (hlt : tL.length = tR.length) (hsl : sL.len = tL.length)
    (e : gen tL.length (fun i => do
      let a ← idx tL i
      let b ← idx tR i
      linearCombination a b x y) = .ok out)
    (g : ∀ h' res, ArrFrame {a | lo ≤ a} h h' → TablesAt h' lo res dR out → GA W h0 post B (k res) h' AnyX) :
    GA W h0 post (B + tL.length * ((tR.map List.length).sum * 7 + 3) + 1) (makeS sL.len fun statics =>
      loopP (fun i _ next =>
          loadS sL i fun a =>
          loadS sR i fun b =>
          linearCombinationC a b x y fun c =>
          storeC statics i (.hdr c) (next ()))
        (fun _ => k statics) 0 statics.len ()) h AnyX := by
  obtain ⟨hol, hoi⟩ := gen_ok_iff e
  have hdl := TL.holds.length_eq
  have hdr := TR.holds.length_eq
  refine GA.make hf ?_
  rw [hsl]
  have a1 : ArrFrame {a | lo ≤ a} h (h.alloc fun _ => (.hdr Slice.nil : Cell F)) := (ArrFrame.refl _ h).alloc _
  have TL1 := TL.mono ((ArrFrame.refl ∅ h).alloc fun _ => (.hdr Slice.nil : Cell F))
  have TR1 := TR.mono ((ArrFrame.refl ∅ h).alloc fun _ => (.hdr Slice.nil : Cell F))
  have l1 : h.next < (h.alloc fun _ => (.hdr Slice.nil : Cell F)).next := Nat.lt_succ_self _
  have v1 : (h.alloc fun _ => (.hdr Slice.nil : Cell F)).vals ⟨h.next, 0, tL.length, tL.length⟩ = List.replicate tL.length (.hdr Slice.nil) := by
    rw [vals_eq, replicate_eq_tab]
    exact tab_congr fun i _ => by simp [Heap.get, Heap.alloc]
  generalize (h.alloc fun _ => (.hdr Slice.nil : Cell F)) = h1 at a1 TL1 TR1 l1 v1 ⊢
  have get2 : ∀ {h : Heap (Cell F)} {ds : List Slice} {ts : List (List F)} {j : Nat} {a : Slice} {b : List F}, List.Forall₂ (HoldsVec h) ds ts →
      ds[j]? = some a → ts[j]? = some b → HoldsVec h a b := by
    intro h ds ts j a b f q1 q2
    obtain ⟨p1, rfl⟩ := List.getElem?_eq_some_iff.1 q1
    obtain ⟨p2, rfl⟩ := List.getElem?_eq_some_iff.1 q2
    exact (List.forall₂_iff_get.1 f).2 j p1 p2
  refine GA.loop (n := tL.length) (fun i _ h' => LinInv h h' lo tL.length sL sR ⟨h.next, 0, tL.length, tL.length⟩ dL dR tL tR out i)
    ?_ ?_ _ 0 () h1 (by simp) ⟨a1, l1, TL1.vals, TR1.vals, by simpa using v1, fun _ _ _ _ => get2 TL1.holds, fun _ _ _ _ => get2 TR1.holds, by simp⟩
  · rintro i _ h2 B next hi I hnext
    have f2 : CellFrame W h0 h2 := ArrFrame.cell hf I.frame fun a ha => h0l.trans ha
    obtain ⟨a, ha⟩ : ∃ a, dL[i]? = some a := ⟨_, List.getElem?_eq_getElem (by omega)⟩
    obtain ⟨b, hb⟩ : ∃ b, dR[i]? = some b := ⟨_, List.getElem?_eq_getElem (by omega)⟩
    obtain ⟨u, hu⟩ : ∃ u, tL[i]? = some u := ⟨_, List.getElem?_eq_getElem (by omega)⟩
    obtain ⟨v, hv⟩ : ∃ v, tR[i]? = some v := ⟨_, List.getElem?_eq_getElem (by omega)⟩
    have eo := hoi i (by omega)
    rw [idx_eq_ok.2 hu, idx_eq_ok.2 hv, ok_bind, ok_bind] at eo
    have ma := P.fL a (List.mem_of_getElem? ha)
    have mb := P.fR b (List.mem_of_getElem? hb)
    rw [show B + ((tR.map List.length).sum * 7 + 3) = B + 1 + (tR.map List.length).sum * 7 + 1 + 1 by ring]
    refine GA.loadH f2 I.vL ha ?_
    refine GA.loadH f2 I.vR hb ?_
    refine GA.mono (B := B + 1 + v.length * 7) ?_ (by
      have : v.length ≤ (tR.map List.length).sum := List.le_sum_of_mem (List.mem_map_of_mem (List.mem_of_getElem? hv))
      omega)
    refine linearCombinationC_ga f2 (I.restL i a u le_rfl ha hu) (I.restR i b v le_rfl hb hv) (fun c1 c2 => ((ma c1).2.trans (mb c2).1).ne)
      (fun c => h0l.trans (ma c).1.le) (fun c => h0l.trans (P.loR.trans (mb c).1).le) eo fun h3 a3 v3 => ?_
    have I' := I.step P hi ha hb (List.getElem?_eq_getElem (by omega)) a3 v3
    refine GA.put (ArrFrame.cell f2 a3 ?_) hi (hnext () _ I')
    rintro a (⟨rfl, c⟩ | ⟨rfl, c⟩)
    · exact h0l.trans (ma c).1.le
    · exact h0l.trans (P.loR.trans (mb c).1).le
  · rintro _ h2 I
    refine g h2 _ I.frame ⟨⟨le_rfl, fun _ => I.lt⟩, ?_, ?_, TR.apart, fun d hd hc => (P.loR.trans (P.fR d hd hc).1).le⟩
    · rw [I.vRes, Nat.sub_self, List.take_of_length_le (by omega)]
      simp
    · refine List.forall₂_iff_get.2 ⟨by omega, fun j hj hj' => ?_⟩
      exact I.done j _ _ (by omega) (List.getElem?_eq_getElem hj) (List.getElem?_eq_getElem hj')

theorem intermediateTables_ga {p : GkrProverC F} {vs : List (List (List F))} {layer : Nat} {qPrime qL qR : List F} {x y : F} {nCore : Int} {m : MProver F}
    {k : Layer F → RoundTables → CProg F} (hn : 1 ≤ nCore) (hf : CellFrame W h0 h) (hin : HoldsLayers h p.values vs)
    (e : (⟨p.bN, p.circuit, vs⟩ : GkrProver F).intermediateRound layer qPrime qL qR x y nCore = .ok m)
    (g : ∀ h' l t, idx p.circuit.layers layer = .ok l → l.gates = m.gates → ArrFrame ∅ h h' →
      PreparedTables h h' t m.vL m.vR m.eq m.statics → GA W h0 post B (k l t) h' AnyX) :
    ∃ C, GA W h0 post (B + C) (p.intermediateTables layer qPrime qL qR x y nCore k) h AnyX := by
  unfold GkrProver.intermediateRound at e
  simp only at e
  obtain ⟨vL, eL, e⟩ := bind_eq_ok.1 e
  obtain ⟨vR, eR, e⟩ := bind_eq_ok.1 e
  obtain ⟨eq, ee, e⟩ := bind_eq_ok.1 e
  obtain ⟨l, el, e⟩ := bind_eq_ok.1 e
  obtain ⟨tL, esL, e⟩ := bind_eq_ok.1 e
  obtain ⟨tR, esR, e⟩ := bind_eq_ok.1 e
  obtain ⟨ss, es, e⟩ := bind_eq_ok.1 e
  cases e
  unfold GkrProverC.intermediateTables
  refine ⟨tL.length * ((tR.map List.length).sum * 7 + 3) + 1 + staticSteps l qR + staticSteps l qL + chunkedEqSteps qPrime vL.length nCore +
    layerAsBKTSteps vR nCore + layerAsBKTSteps vL nCore, ?_⟩
  iterate 6 rw [← Nat.add_assoc]
  refine layerAsBKTWithCopyC_ga hn hin eL hf fun h2 s2 c2 t2 n2 _ => ?_
  refine layerAsBKTWithCopyC_ga hn (hin.mono c2) eR (hf.trans' c2) fun h3 s3 c3 t3 n3 _ => ?_
  have c13 := c2.trans' c3
  obtain ⟨d2, T2⟩ := TablesAt.of_new t2 n2
  obtain ⟨d3, T3⟩ := TablesAt.of_new t3 n3
  have hlen : s2.len = vL.length := by rw [← vals_len T2.vals]; exact T2.holds.length_eq
  rw [hlen]
  refine getChunkedEqTableC_ga hn (hf.trans' c13) ee fun h4 s4 d4 _ f4 T4 => ?_
  have c14 := c13.trans' f4.cells
  rw [el, liftGo_ok]
  refine getStaticTableC_ga (hf.trans' c14) esL fun h5 s5 d5 r5 l5 n5 f5 T5 => ?_
  have c15 := c14.trans' f5.cells
  refine getStaticTableC_ga (hf.trans' c15) esR fun h6 s6 d6 r6 l6 n6 f6 T6 => ?_
  have c16 := c15.trans' f6.cells
  have hlt : tL.length = tR.length := (mapGo_len esL).symm.trans (mapGo_len esR)
  have P : LinPlace h6 h4.next s5 s6 d5 d6 := by
    refine ⟨r5.symm, by omega, by omega, T5.valid.arrFrame f6, T6.valid, fun d hd hc => ⟨T5.new d hd hc, r6 ▸ T5.lt d hd hc⟩, fun d hd hc => ⟨?_, T6.lt d hd hc⟩,
      T5.apart, T6.apart⟩
    have := T6.new d hd hc
    omega
  refine lincombs_ga (hf.trans' c16) (hf.trans' c14).1 P (T5.mono f6) (r6 ▸ T6) hlt l5 es fun h7 s7 f7 T7 => ?_
  have k4 : ArrFrame ∅ h4 h7 := (f5.trans f6 (by simp)).trans f7 fun a ha hh => absurd hh (not_lt.2 ha)
  have c17 := c14.trans' k4.cells
  refine g h7 l ⟨s2, s3, s4, s7⟩ el rfl c17.arr ?_
  exact prepared (h1 := h2) (h2 := h3) (h3 := h4) (h4 := h7) T2 T3 T4 T7 ((c3.trans' f4.cells).trans' k4.cells).arr
    (f4.cells.trans' k4.cells).arr k4 (ArrFrame.refl _ _) le_rfl c2.1 le_rfl (by omega) c3.1 (.inr le_rfl) f4.1

end

end GkrMimc
