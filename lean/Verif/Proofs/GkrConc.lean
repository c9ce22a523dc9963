import Verif.Proofs.CellAvoids
import Verif.Props.Eq
import Verif.Proofs.CellRound
import Verif.Proofs.Seq
import Verif.Props.ConcHeap
import Verif.Props.ConcCell

/-! All the rounds of `gkr.Prover.Prove`, one after the other, with workers of earlier rounds still running. -/

namespace GkrMimc

open Spec

set_option linter.unusedSectionVars false

variable {F : Type} [Field F] [DecidableEq F]

/-- If the caller, alone, is about to run `P` in memory `h` then all is well, and the run is bounded. -/
def GE (h0 : Heap (Cell F)) (post : Conf (Heap (Cell F)) (MsgH F) → Prop) (P : CProg F) (h : Heap (Cell F)) : Prop :=
  ∀ s, Solo s → 1 ≤ s.nG → s.gs 0 = P → s.mem = h → ∃ B, GoodCellRun ∅ h0 post B s

variable {h0 h : Heap (Cell F)} {post : Conf (Heap (Cell F)) (MsgH F) → Prop}

theorem startOf_solo (P : CProg F) (h : Heap (Cell F)) (r : MsgH F) : Solo (startOf P h r) := by
  refine ⟨rfl, fun i hi => ⟨r, ?_⟩⟩
  simp [startOf, hi]

theorem GE.good {P : CProg F} (g : GE h0 post P h) {s : Conf (Heap (Cell F)) (MsgH F)} (h1 : Solo s) (h2 : 1 ≤ s.nG) (h3 : s.gs 0 = P)
    (h4 : s.mem = h) : Good (GM ∅ h0 post) s := by
  obtain ⟨B, hB⟩ := g s h1 h2 h3 h4
  exact good_of_bound B hB

theorem GE.of_good {P : CProg F} (g : ∀ s, Solo s → 1 ≤ s.nG → s.gs 0 = P → s.mem = h → Good (GM ∅ h0 post) s) : GE h0 post P h :=
  fun s h1 h2 h3 h4 => (g s h1 h2 h3 h4).bound (h1.rest h2)

theorem GE.ret {r : MsgH F} (hf : CellFrame ∅ h0 h) (hp : ∀ s : Conf (Heap (Cell F)) (MsgH F), s.gs 0 = .ret r → s.mem = h → post s) :
    GE h0 post (.ret r) h := fun s h1 _ h3 h4 => ⟨0, goodCell_ret h1 (h4 ▸ hf) h3 (hp s h3 h4)⟩

theorem GE.loadS {s : Slice} {i : Nat} {d : Slice} {k : Slice → CProg F} (hf : CellFrame ∅ h0 h) (hi : i < s.len) (e : (h.get s i).toHdr = d)
    (g : GE h0 post (k d) h) : GE h0 post (loadS s i k) h := by
  intro t h1 h2 h3 h4
  have e1 : t.gs 0 = .mem (.read s.arr (s.off + i)) id fun h => k (h.get s i).toHdr := by
    rw [h3]
    simp only [GkrMimc.loadS, loadC, if_pos hi]
  have e2 : exec t 0 = some { t with gs := Function.update t.gs 0 (k d), mem := t.mem } := by
    simp [exec, e1, h4, e]
  obtain ⟨B, hB⟩ := g { t with gs := Function.update t.gs 0 (k d), mem := t.mem } (h1.upd rfl rfl) h2 (by simp) h4
  exact ⟨B + 1, goodCell_cons h1 (h4 ▸ hf) e2 hB⟩

theorem GE.readHdrs {s : Slice} {ds : List Slice} {k : List Slice → CProg F} (hf : CellFrame ∅ h0 h) (e : h.vals s = ds.map Cell.hdr)
    (g : GE h0 post (k ds) h) : GE h0 post (readHdrsC s k) h := by
  have hl : s.len = ds.length := by
    have := congrArg List.length e
    simpa [Heap.vals] using this
  have key : ∀ n i, i + n = ds.length →
      GE h0 post (loopP (fun i xs next => GkrMimc.loadS s i fun x => next (xs ++ [x])) k i n (ds.take i)) h := by
    intro n
    induction n with
    | zero =>
      intro i hi
      show GE h0 post (k (ds.take i)) h
      rwa [List.take_of_length_le (by omega)]
    | succ n ih =>
      intro i hi
      have h1 : i < ds.length := by omega
      have h2 : i < s.len := by omega
      show GE h0 post (GkrMimc.loadS s i fun x => loopP _ k (i + 1) n (ds.take i ++ [x])) h
      refine GE.loadS (d := ds[i]) hf h2 ?_ ?_
      · have := congrArg (fun l => l[i]?) e
        simp only [Heap.vals, List.getElem?_map, List.getElem?_range (show i < s.len by omega), List.getElem?_eq_getElem h1, Option.map_some,
          Option.some.injEq] at this
        rw [this]
        rfl
      · have := ih (i + 1) (by omega)
        rwa [List.take_succ_eq_append_getElem h1] at this
  have := key ds.length 0 (by omega)
  rw [readHdrsC, hl]
  exact this

theorem reach_nG {M V : Type} {s s' : Conf M V} {n : Nat} (r : ReachIn s n s') : s.nG ≤ s'.nG := by
  induction r with
  | zero => exact le_rfl
  | step _ hs ih => exact ih.trans hs.nG

theorem goOn_andThen {M V : Type} {P : Prog M V} {K : V → Prog M V} {s : Conf M V} (e : s.gs 0 = P.andThen K) : (s.goOn 0 P).andThen K = s := by
  simp only [Conf.andThen, Conf.goOn, Function.update_self, Function.update_idem]
  rw [← e, Function.update_eq_self]

/-- A phase in which all the goroutines return, then the rest. -/
theorem GE.andThen {post1 : Conf (Heap (Cell F)) (MsgH F) → Prop} {B : Nat} {T : CProg F} {K : MsgH F → CProg F}
    (g : GA ∅ h0 post1 B T h AnyX) (hsolo : ∀ s, post1 s → Solo s)
    (hK : ∀ s r, s.gs 0 = .ret r → post1 s → CellFrame ∅ h0 s.mem → GE h0 post (K r) s.mem) : GE h0 post (T.andThen K) h := by
  refine GE.of_good fun s h1 h2 h3 h4 => ?_
  have ga : Good (GM ∅ h0 post1) (s.goOn 0 T) :=
    good_of_bound B (g (s.goOn 0 T) (h1.upd rfl rfl) h2 (by simp [Conf.goOn]) h4 trivial)
  rw [← goOn_andThen h3]
  refine ga.seq h2 fun n b r hr hb gm => ?_
  have p1 := gm.1.result ⟨r, hb⟩
  have hg : (s.goOn 0 T).nG ≤ b.nG := reach_nG hr
  have hg : 1 ≤ b.nG := le_trans h2 hg
  refine (hK b r hb p1 ⟨gm.1.frame.1, gm.2⟩).good ((hsolo b p1).upd rfl rfl) hg (by simp [Conf.goOn]) rfl

/-! ### One sumcheck -/

theorem msgRel_onElems : StableMsg (OnElems (F := F) MsgRel) := msgRel_stable.onElems

theorem orderly_start {M V : Type} {f : Nat} {P : Prog M V} {m : M} {tok : V} (h : Starts f 0 P) : Orderly f (startOf P m tok) := by
  refine ⟨le_rfl, by simpa [startOf] using h, fun i hi => .inr ?_⟩
  simp [startOf, hi, Quiet]

/-- `Prove` over elements and headers, started with nothing else. -/
theorem prove_cells (H : List F → F) (p : MProverH F) (h : Heap (Cell F)) (nCore : Int) (out : SumcheckOut F) (ca : ChunksApart h.elems p)
    (e : (p.toM h.elems).prove H nCore = .ok out) (ev : EvenChunks (p.toM h.elems)) :
    ∃ bound, GoodMemRun (foldedArrays p) (fun s => s.gs 0 = .ret (.out out) ∧ ∀ i, i ≠ 0 → Ended 1 (s.gs i)) bound
      (startOf (p.proveP H nCore).overCells h .tok) := by
  obtain ⟨N, g⟩ := proveP_ended e ev
  have gr := (gr_prove H ca.valid ca.apart nCore).overCells (lab_prove H p nCore)
  have c := cr_startOf (B := arrsOf p.base) (ro := arrsOf p.statics) (m := ()) (tok := MsgH.tok) (tok' := Msg.tok) (fun _ _ => trivial) ?_ ?_ gr
  · obtain ⟨B, hB⟩ := CR.goodEnded (s := startOf (p.proveP H nCore).overCells h .tok) msgRel_onElems c
      (orderly_start (starts_prove H p nCore).overCells) g
    refine ⟨B, fun n t r => ⟨(hB n t r).1, { (hB n t r).2 with result := fun hr => ?_ }⟩⟩
    obtain ⟨⟨r, o, hr, m⟩, x⟩ := (hB n t r).2.result hr
    refine ⟨?_, x⟩
    cases r with
    | out x =>
      obtain rfl : x = out := m
      exact hr
    | _ => exact m.elim
  · rintro a ⟨s, hs, hc, rfl⟩ ⟨u, hu, hc', e⟩
    exact ca.statics s hs u hu hc hc' e.symm
  · rintro a (⟨s, hs, hc, rfl⟩ | ⟨s, hs, hc, rfl⟩)
    · exact (ca.valid s (List.mem_append_left _ hs)).arr hc
    · exact (ca.valid s (List.mem_append_right _ hs)).arr hc

/-- What is left of the workers when `Prove` has returned. -/
structure Left' (out : SumcheckOut F) (s : Conf (Heap (Cell F)) (MsgH F)) : Prop where
  main : s.gs 0 = .ret (.out out)
  tails : ∀ i, i ≠ 0 → Tail s.nC (s.gs i)
  rest : ∀ i, s.nG ≤ i → Returned s i
  pos : 1 ≤ s.nG

theorem tail_shift {M V : Type} {c0 w0 n m f : Nat} {P P' : Prog M V} (r : Ren c0 w0 n m P P') (e : Ended f P) : Tail (n + c0) P' := by
  rcases e with ⟨x, rfl⟩ | ⟨c, x, rfl⟩ | ⟨c, v, c', x, _, rfl⟩
  · exact .inl ⟨x, r⟩
  · obtain ⟨k', rfl, hc, hk⟩ := r
    exact .inr (.inl ⟨c + c0, x, by omega, by rw [show k' = _ from hk]⟩)
  · obtain ⟨k', rfl, hc, k'', rfl, hc', hk⟩ := r
    exact .inr (.inr ⟨c + c0, v, c' + c0, x, by omega, by omega, by rw [show k'' = _ from hk]⟩)

theorem left_of_shifted {n0 c0 w0 : Nat} {out : SumcheckOut F} {b s : Conf (Heap (Cell F)) (MsgH F)} (h : Shifted n0 c0 w0 b s)
    (hb : b.gs 0 = .ret (.out out) ∧ ∀ i, i ≠ 0 → Ended 1 (b.gs i)) : Left' out s := by
  have h1 := h.nG
  have h2 := h.pos
  have h3 := h.posb
  refine ⟨?_, fun i hi => ?_, h.rest, by omega⟩
  · have r := h.progs 0 h.posb
    rw [hb.1] at r
    exact r
  · by_cases hn : i < n0
    · obtain ⟨r, hr⟩ := h.done i hi hn
      exact .inl ⟨r, hr⟩
    · by_cases hg : s.nG ≤ i
      · obtain ⟨r, hr⟩ := h.rest i hg
        exact .inl ⟨r, hr⟩
      · have r := h.progs (i + 1 - n0) (by omega)
        have e : newIx n0 (i + 1 - n0) = i := by
          unfold newIx
          split_ifs <;> omega
        rw [e] at r
        rw [h.nC]
        exact tail_shift r (hb.2 _ (by omega))

theorem GE.prove {H : List F → F} {p : MProverH F} {nCore : Int} {out : SumcheckOut F} {K : SumcheckOut F → CProg F}
    (hpost : ∀ s u : Conf (Heap (Cell F)) (MsgH F), s.gs 0 = u.gs 0 → s.mem = u.mem → post u → post s)
    (hf : CellFrame ∅ h0 h) (ca : ChunksApart h.elems p) (hnew : ∀ a ∈ foldedArrays p, h0.next ≤ a)
    (e : (p.toM h.elems).prove H nCore = .ok out) (ev : EvenChunks (p.toM h.elems)) (av : ∀ c0 w0, Avoids c0 w0 (K out))
    (hK : ∀ h', CellFrame ∅ h0 h' → GE h0 post (K out) h') : GE h0 post (p.proveC H nCore K) h := by
  refine GE.of_good fun s h1 h2 h3 h4 => ?_
  obtain ⟨B, hB⟩ := prove_cells H p h nCore out ca e ev
  have base : Good (GM ∅ h0 (fun s => s.gs 0 = .ret (.out out) ∧ ∀ i, i ≠ 0 → Ended 1 (s.gs i)))
      (startOf (p.proveP H nCore).overCells h .tok) := by
    refine good_of_bound B fun n t r => ⟨(hB n t r).1, ?_⟩
    have g := (hB n t r).2
    have fr : h.next ≤ t.mem.next ∧ ∀ a < h.next, a ∉ foldedArrays p → t.mem.cells a = h.cells a := g.frame
    refine ⟨{ g with frame := ⟨hf.1.trans fr.1, fun a _ ha => absurd (Set.mem_univ a) ha⟩ }, fun c hc hw => ?_⟩
    rw [fr.2 c.1 (lt_of_lt_of_le hc hf.1) fun hm => absurd (hnew _ hm) (by omega)]
    exact hf.2 c hc hw
  have h1' : Solo (s.goOn 0 (p.proveP H nCore).overCells) := h1.upd rfl rfl
  have sh : Shifted s.nG s.nC s.nW (startOf (p.proveP H nCore).overCells h .tok) (s.goOn 0 (p.proveP H nCore).overCells) :=
    shifted_start h1' h2 (by simp [Conf.goOn]) h4 (ren_overCells_prove _ _ H p nCore)
  have run : Good (GM ∅ h0 (Left' out)) (s.goOn 0 (p.proveP H nCore).overCells) := base.shift (fun b s => left_of_shifted) sh
  rw [← goOn_andThen h3]
  refine run.seq h2 fun n b r hr hb gm => ?_
  have lf := gm.1.result ⟨r, hb⟩
  obtain rfl : r = .out out := by
    have := lf.main
    rw [hb] at this
    exact Prog.ret.inj this
  have hu : Good (GM ∅ h0 post) { b with gs := fun i => if i = 0 then K out else if i < b.nG then .ret .tok else b.gs i } := by
    refine (hK b.mem ⟨gm.1.frame.1, gm.2⟩).good ⟨gm.1.alive, fun i hi => ?_⟩ lf.pos rfl rfl
    by_cases hn : i < b.nG
    · exact ⟨.tok, by simp [hi, hn]⟩
    · obtain ⟨x, hx⟩ := lf.rest i (by omega)
      exact ⟨x, by simp [hi, hn, hx]⟩
  have pr := Good.par (n0 := b.nG) (c0 := b.nC) (w0 := b.nW) hpost (run.reach hr) hu ⟨⟨_, hb⟩, lf.tails, lf.rest⟩ ?_
  · convert pr using 1
    simp only [Conf.goOn, merge, gm.1.alive, Option.or_none]
    congr 1
    · funext i
      by_cases h0' : i = 0
      · subst h0'; simp [mix]
      · by_cases hn : i < b.nG <;> simp [mix, h0', hn]
    · funext c; simp [mix]
    · funext w; simp [mix]
  · refine ⟨le_rfl, lf.pos, le_rfl, le_rfl, fun i hi => ?_, fun i hi hn => ⟨.tok, by simp [hi, hn]⟩⟩
    by_cases h0' : i = 0
    · subst h0'
      exact av _ _
    · have hn : ¬ i < b.nG := fun hn => hi ⟨h0', hn⟩
      obtain ⟨x, hx⟩ := lf.rest i (by omega)
      simp only [h0', hn, if_false, hx]
      trivial

/-! ### One round -/

theorem idx_getElem {α : Type} {l : List α} {i : Nat} (h : i < l.length) : idx l i = .ok l[i] := by simp [idx, h]

theorem even_of_lengths {m : MProver F} {n e1 e2 : Nat} (hl : m.vL.length = n) (hr : m.vR.length = n) (he : m.eq.length = n)
    (h1 : ∀ t ∈ m.vR, t.length = e1) (h2 : ∀ t ∈ m.eq, t.length = e2) : EvenChunks m := by
  have key : ∀ i < n, (m.subProver i >>= SProver.dims) = (goDiv e1 e2 >>= fun g => .ok (log2Ceil g, log2Ceil (e2 : Int))) := by
    intro i hi
    have i1 : i < m.vL.length := by omega
    have i2 : i < m.vR.length := by omega
    have i3 : i < m.eq.length := by omega
    unfold MProver.subProver
    rw [idx_getElem i1, idx_getElem i2, idx_getElem i3, ok_bind, ok_bind, ok_bind]
    change (goDiv m.vR[i].length m.eq[i].length >>= fun g => .ok (log2Ceil g, log2Ceil (m.eq[i].length : Int))) = _
    rw [h1 _ (List.getElem_mem i2), h2 _ (List.getElem_mem i3)]
  intro i hi j hj
  rw [key i (by omega), key j (by omega)]

theorem chunkedEq_even {q : List F} {k : Nat} {nCore : Int} {ts : List (List F)} (hn : 1 ≤ nCore)
    (e : getChunkedEqTable q k nCore = .ok ts) : ts.length = k ∧ ∃ n, ∀ t ∈ ts, t.length = n := by
  by_cases h : ∃ j ≤ q.length, k = 2 ^ j
  · obtain ⟨j, hj, rfl⟩ := h
    obtain ⟨_, c, _, e2, h1, h2⟩ := C06_chunkedEqTable q j hj nCore hn
    rw [e] at e2
    cases e2
    refine ⟨h1, 2 ^ (q.length - j), fun t ht => ?_⟩
    obtain ⟨i, hi, rfl⟩ := List.getElem_of_mem ht
    exact (h2 i hi).1
  · obtain ⟨_, e2⟩ := C06_chunkedEqTable_panics q k nCore (by simpa using h)
    rw [e] at e2
    cases e2

theorem layerCopy_eq {vs : List (List (List F))} {layer : Nat} {nCore : Int} {tabs : List (List F)}
    (e : layerAsBKTWithCopy vs layer nCore = .ok tabs) : tabs ∈ vs := by
  unfold layerAsBKTWithCopy at e
  obtain ⟨v, ev, e⟩ := bind_eq_ok.1 e
  obtain ⟨_, _, e⟩ := bind_eq_ok.1 e
  cases e
  unfold idx at ev
  split at ev
  · cases ev
    exact List.mem_of_getElem? (by assumption)
  · cases ev

theorem even_intermediate {p : GkrProver F} {k layer : Nat} {qPrime qL qR : List F} {x y : F} {nCore : Int} {m : MProver F} (hn : 1 ≤ nCore)
    (hev : EvenLayers k p.assignment) (e : p.intermediateRound layer qPrime qL qR x y nCore = .ok m) : EvenChunks m := by
  unfold GkrProver.intermediateRound at e
  obtain ⟨vL, eL, e⟩ := bind_eq_ok.1 e
  obtain ⟨vR, eR, e⟩ := bind_eq_ok.1 e
  obtain ⟨eq, ee, e⟩ := bind_eq_ok.1 e
  obtain ⟨l, el, e⟩ := bind_eq_ok.1 e
  obtain ⟨tL, esL, e⟩ := bind_eq_ok.1 e
  obtain ⟨tR, esR, e⟩ := bind_eq_ok.1 e
  obtain ⟨ss, es, e⟩ := bind_eq_ok.1 e
  cases e
  have a := hev _ (layerCopy_eq eL)
  have b := hev _ (layerCopy_eq eR)
  rw [a.1] at ee
  obtain ⟨c1, n2, c2⟩ := chunkedEq_even hn ee
  obtain ⟨b1, n1, b2⟩ := b
  exact even_of_lengths a.1 b1 c1 b2 c2

theorem even_initial {p : GkrProver F} {k : Nat} {qPrime q : List F} {nCore : Int} {m : MProver F} (hn : 1 ≤ nCore)
    (hev : EvenLayers k p.assignment) (e : p.initialRound qPrime q nCore = .ok m) : EvenChunks m := by
  unfold GkrProver.initialRound at e
  simp only at e
  obtain ⟨l, el, e⟩ := bind_eq_ok.1 e
  obtain ⟨ss, es, e⟩ := bind_eq_ok.1 e
  obtain ⟨vL, eL, e⟩ := bind_eq_ok.1 e
  obtain ⟨vR, eR, e⟩ := bind_eq_ok.1 e
  obtain ⟨eq, ee, e⟩ := bind_eq_ok.1 e
  cases e
  have a := hev _ (layerCopy_eq eL)
  have b := hev _ (layerCopy_eq eR)
  rw [a.1] at ee
  obtain ⟨c1, n2, c2⟩ := chunkedEq_even hn ee
  obtain ⟨b1, n1, b2⟩ := b
  exact even_of_lengths a.1 b1 c1 b2 c2

theorem prepared_prover {h h' : Heap (Cell F)} {t : RoundTables} {m : MProver F} (P : PreparedTables h h' t m.vL m.vR m.eq m.statics) :
    ∃ dl dr de ds : List Slice,
      (h'.vals t.vL = dl.map Cell.hdr ∧ h'.vals t.vR = dr.map Cell.hdr ∧ h'.vals t.eq = de.map Cell.hdr ∧ h'.vals t.statics = ds.map Cell.hdr) ∧
      MProverH.toM ⟨dl, dr, de, m.gates, ds⟩ h'.elems = m ∧ ChunksApart h'.elems ⟨dl, dr, de, m.gates, ds⟩ ∧
      ∀ a ∈ foldedArrays (F := F) ⟨dl, dr, de, m.gates, ds⟩, h.next ≤ a := by
  obtain ⟨dl, dr, de, ds, hv, ⟨f1, f2, f3, f4⟩, pw, new⟩ := P.tables
  have vals : ∀ {d : Slice} {xs : List F}, HoldsVec h' d xs → h'.elems.vals d = xs := by
    intro d xs hx
    have : h'.elems.vals d = (h'.vals d).map Cell.toElem := by simp [Heap.vals, Heap.get, Heap.elems]
    rw [this, hx.2, List.map_map]
    exact List.map_id xs
  have all : ∀ {ds : List Slice} {xss : List (List F)}, List.Forall₂ (HoldsVec h') ds xss →
      ds.map h'.elems.vals = xss ∧ ∀ d ∈ ds, Valid h'.elems d := by
    intro ds xss f
    induction f with
    | nil => simp
    | cons hx _ ih =>
      refine ⟨by rw [List.map_cons, vals hx, ih.1], fun d hd => ?_⟩
      rcases List.mem_cons.1 hd with rfl | hd
      · exact ⟨hx.1.len, hx.1.arr⟩
      · exact ih.2 d hd
  refine ⟨dl, dr, de, ds, hv, ?_, ⟨?_, ?_, ?_⟩, ?_⟩
  · show (⟨_, _, _, _, _⟩ : MProver F) = m
    rw [(all f1).1, (all f2).1, (all f3).1, (all f4).1]
  · intro s hs
    simp only [List.mem_append] at hs
    rcases hs with ((hs | hs) | hs) | hs
    · exact (all f1).2 s hs
    · exact (all f2).2 s hs
    · exact (all f3).2 s hs
    · exact (all f4).2 s hs
  · exact (List.pairwise_append.1 pw).1
  · exact fun s hs u hu => (List.pairwise_append.1 pw).2.2 s hs u hu
  · rintro a ⟨s, hs, hc, rfl⟩
    exact new s (List.mem_append_left _ hs) hc

theorem GE.round {H : List F → F} {nCore : Int} {out : SumcheckOut F} {m : MProver F} {C : Nat} {T : CProg F} {K : SumcheckOut F → CProg F}
    (hpost : ∀ s u : Conf (Heap (Cell F)) (MsgH F), s.gs 0 = u.gs 0 → s.mem = u.mem → post u → post s) (hf : CellFrame ∅ h0 h)
    (g : GA ∅ h0 (fun s => Solo s ∧ ∃ t : RoundTables, s.gs 0 = .ret (.prover 0 ⟨t.vL, t.vR, t.eq, m.gates, [t.statics]⟩) ∧
      PreparedTables h s.mem t m.vL m.vR m.eq m.statics) C T h AnyX)
    (e : m.prove H nCore = .ok out) (ev : EvenChunks m) (av : ∀ c0 w0, Avoids c0 w0 (K out))
    (hK : ∀ h', CellFrame ∅ h0 h' → GE h0 post (K out) h') : GE h0 post (thenProverC T fun mp => mp.proveC H nCore K) h := by
  refine GE.andThen g (fun s hs => hs.1) ?_
  rintro s r hr ⟨_, t, ht, P⟩ hfs
  obtain rfl : r = .prover 0 ⟨t.vL, t.vR, t.eq, m.gates, [t.statics]⟩ := by
    rw [hr] at ht
    exact Prog.ret.inj ht
  obtain ⟨dl, dr, de, ds, ⟨v1, v2, v3, v4⟩, hM, ca, new⟩ := prepared_prover P
  refine GE.readHdrs hfs v1 <| GE.readHdrs hfs v2 <| GE.readHdrs hfs v3 <| GE.readHdrs hfs v4 ?_
  exact GE.prove hpost hfs ca (fun a ha => hf.1.trans (new a ha)) (by rw [hM]; exact e) (by rw [hM]; exact ev) av hK

/-! ### All the rounds -/

theorem GA.retSolo {W : Set (Nat × Nat)} {h0 h : Heap (Cell F)} {post : Conf (Heap (Cell F)) (MsgH F) → Prop} {r : MsgH F}
    (hf : CellFrame W h0 h) (hp : ∀ s : Conf (Heap (Cell F)) (MsgH F), Solo s → s.gs 0 = .ret r → s.mem = h → post s) :
    GA W h0 post 0 (.ret r) h AnyX := fun s h1 _ h3 h4 _ => goodCell_ret h1 (h4 ▸ hf) h3 (hp s h1 h3 h4)

theorem GE.proveLayers {H : List F → F} {p : GkrProverC F} {vs : List (List (List F))} {nCore : Int} {k : Nat}
    (hpost : ∀ s u : Conf (Heap (Cell F)) (MsgH F), s.gs 0 = u.gs 0 → s.mem = u.mem → post u → post s) (hn : 1 ≤ nCore)
    (hin : HoldsLayers h0 p.values vs) (hev : EvenLayers k vs) :
    ∀ (layer : Nat) (out : SumcheckOut F) (outs : List (SumcheckOut F)) (K : List (SumcheckOut F) → CProg F) (h : Heap (Cell F)),
      CellFrame ∅ h0 h → (⟨p.bN, p.circuit, vs⟩ : GkrProver F).proveLayers H nCore layer out = .ok outs →
      (∀ l c0 w0, Avoids c0 w0 (K l)) → (∀ h', CellFrame ∅ h0 h' → GE h0 post (K outs) h') →
      GE h0 post (p.proveLayersC H nCore layer out K) h
  | 0, out, outs, K, h, hf, e, _, hK => by
    cases e
    exact hK h hf
  | layer + 1, out, outs, K, h, hf, e, av, hK => by
    unfold GkrProver.proveLayers at e
    obtain ⟨cl, ecl, e⟩ := bind_eq_ok.1 e
    obtain ⟨cr, ecr, e⟩ := bind_eq_ok.1 e
    obtain ⟨m, em, e⟩ := bind_eq_ok.1 e
    obtain ⟨out', eo, e⟩ := bind_eq_ok.1 e
    obtain ⟨rest, er, e⟩ := bind_eq_ok.1 e
    cases e
    unfold GkrProverC.proveLayersC
    rw [ecl, ecr, liftGo_ok, liftGo_ok]
    obtain ⟨C, g⟩ := intermediateTables_ga (B := 0) hn hf (hin.mono hf) em (k := returnTables)
      (post := fun s => Solo s ∧ ∃ t : RoundTables, s.gs 0 = .ret (.prover 0 ⟨t.vL, t.vR, t.eq, m.gates, [t.statics]⟩) ∧
        PreparedTables h s.mem t m.vL m.vR m.eq m.statics) fun h' l t _ hg f P => GA.retSolo (hf.trans' f.cells) fun s h1 h3 h4 =>
          ⟨h1, t, hg ▸ h3, h4 ▸ P⟩
    refine GE.round hpost hf g eo (even_intermediate hn hev em) (fun c0 w0 => av_proveLayers _ _ _ _ _ fun _ => av _ _ _) fun h' hf' => ?_
    exact GE.proveLayers hpost hn hin hev layer out' rest _ h' hf' er (fun _ => av _) hK

theorem GE.gkr {H : List F → F} {p : GkrProverC F} {vs : List (List (List F))} {nCore : Int} {k : Nat} {proof : GkrProof F}
    (hf : CellFrame ∅ h0 h) (hn : 1 ≤ nCore) (hin : HoldsLayers h0 p.values vs) (hev : EvenLayers k vs)
    (e : (⟨p.bN, p.circuit, vs⟩ : GkrProver F).prove H nCore = .ok proof) :
    GE h0 (fun s => s.gs 0 = .ret (.proof proof) ∧ HoldsLayers s.mem p.values vs) (p.proveC H nCore) h := by
  unfold GkrProver.prove at e
  simp only at e
  obtain ⟨l, el, e⟩ := bind_eq_ok.1 e
  obtain ⟨m, em, e⟩ := bind_eq_ok.1 e
  obtain ⟨out, eo, e⟩ := bind_eq_ok.1 e
  obtain ⟨rest, er, e⟩ := bind_eq_ok.1 e
  obtain ⟨cl, ecl, e⟩ := bind_eq_ok.1 e
  obtain ⟨cr, ecr, e⟩ := bind_eq_ok.1 e
  cases e
  unfold GkrProverC.proveC
  simp only
  rw [el, liftGo_ok]
  have hpost : ∀ s u : Conf (Heap (Cell F)) (MsgH F), s.gs 0 = u.gs 0 → s.mem = u.mem →
      (u.gs 0 = .ret (.proof ⟨(rest ++ [out]).map (·.polyCoeffs), cl, cr⟩) ∧ HoldsLayers u.mem p.values vs) →
      s.gs 0 = .ret (.proof ⟨(rest ++ [out]).map (·.polyCoeffs), cl, cr⟩) ∧ HoldsLayers s.mem p.values vs := by
    intro s u h1 h2 h3
    rw [h1, h2]
    exact h3
  obtain ⟨C, g⟩ := initialTables_ga (B := 0) hn hf (hin.mono hf) em (k := returnTables)
    (post := fun s => Solo s ∧ ∃ t : RoundTables, s.gs 0 = .ret (.prover 0 ⟨t.vL, t.vR, t.eq, m.gates, [t.statics]⟩) ∧
      PreparedTables h s.mem t m.vL m.vR m.eq m.statics) fun h' l t _ hg f P => GA.retSolo (hf.trans' f.cells) fun s h1 h3 h4 =>
        ⟨h1, t, hg ▸ h3, h4 ▸ P⟩
  refine GE.round hpost hf g eo (even_initial hn hev em) (fun c0 w0 => av_proveLayers _ _ _ _ _ fun _ => ?_) fun h' hf' => ?_
  · exact av_liftGo fun _ => av_liftGo fun _ => trivial
  refine GE.proveLayers hpost hn hin hev _ out rest _ h' hf' er (fun _ _ _ => av_liftGo fun _ => av_liftGo fun _ => trivial) fun h2 hf2 => ?_
  rw [ecl, ecr, liftGo_ok, liftGo_ok]
  exact GE.ret hf2 fun s h3 h4 => ⟨h3, h4 ▸ hin.mono hf2⟩

theorem GE.mono {P : CProg F} {post' : Conf (Heap (Cell F)) (MsgH F) → Prop} (g : GE h post' P h) (hf : CellFrame ∅ h0 h)
    (hp : ∀ s, post' s → CellFrame ∅ h s.mem → post s) : GE h0 post P h := by
  intro s h1 h2 h3 h4
  obtain ⟨B, hB⟩ := g s h1 h2 h3 h4
  refine ⟨B, fun n u hu => ?_⟩
  obtain ⟨a, b, c⟩ := hB n u hu
  refine ⟨a, ⟨b.norace, b.alive, b.live, fun he => hp _ (b.result he) ⟨b.frame.1, c⟩, b.sends, hf.1.trans b.frame.1, fun _ _ h2' => (h2' trivial).elim⟩,
    fun x hx hx' => ?_⟩
  rw [c x (lt_of_lt_of_le hx hf.1) hx']
  exact hf.2 x hx hx'

theorem holds_get {β : Type} {R : Heap (Cell F) → Slice → β → Prop} {s : Slice} {ds : List Slice} {ys : List β} {i : Nat} {y : β} (e : h.vals s = ds.map Cell.hdr)
    (f : List.Forall₂ (R h) ds ys) (hy : idx ys i = .ok y) : ∃ d, i < s.len ∧ (h.get s i).toHdr = d ∧ R h d y := by
  rw [idx_eq_ok] at hy
  have hl : i < ds.length := by
    rw [f.length_eq]
    by_contra hc
    rw [List.getElem?_eq_none (by omega)] at hy
    cases hy
  obtain ⟨y', hy', r⟩ := forall₂_get f (List.getElem?_eq_getElem hl)
  rw [hy] at hy'
  cases hy'
  obtain ⟨h1, h2⟩ := vals_get e (List.getElem?_eq_getElem hl)
  exact ⟨ds[i], h1, by rw [h2]; rfl, r⟩

/-- `NewProver` and `Prove` on values that are in memory. -/
theorem GE.newProver {H : List F → F} {c : Circuit F} {values : Slice} {vs : List (List (List F))} {nCore : Int} {k : Nat} {p : GkrProver F}
    {proof : GkrProof F} (hn : 1 ≤ nCore) (hin : HoldsLayers h values vs) (hev : EvenLayers k vs) (ep : newGkrProver c vs = .ok p)
    (e : p.prove H nCore = .ok proof) :
    GE h (fun s => s.gs 0 = .ret (.proof proof) ∧ HoldsLayers s.mem values vs) (newGkrProverC c values fun p => p.proveC H nCore) h := by
  unfold newGkrProver at ep
  obtain ⟨v0, e0, ep⟩ := bind_eq_ok.1 ep
  obtain ⟨v00, e00, ep⟩ := bind_eq_ok.1 ep
  obtain ⟨l0, el, ep⟩ := bind_eq_ok.1 ep
  obtain ⟨_, ds, e1, f1⟩ := id hin
  obtain ⟨d0, a1, a2, _, ds0, e2, f2⟩ := holds_get e1 f1 e0
  obtain ⟨d00, b1, b2, hd⟩ := holds_get e2 f2 e00
  have l0' : d0.len = v0.length := by rw [← vals_len e2, f2.length_eq]
  simp only at ep
  split at ep
  · cases ep
  next hlt =>
    cases ep
    refine GE.loadS (CellFrame.refl _ _) a1 a2 <| GE.loadS (CellFrame.refl _ _) a1 a2 <| GE.loadS (CellFrame.refl _ _) b1 b2 ?_
    rw [el, liftGo_ok]
    simp only
    rw [l0', ← hd.length, if_neg hlt]
    exact GE.gkr (CellFrame.refl _ _) hn hin hev e

theorem GE.assignProve {H : List F → F} {c : Circuit F} {inputs : Slice} {ins : List (List F)} {vs : List (List (List F))} {nCore : Int} {k : Nat}
    {p : GkrProver F} {proof : GkrProof F} (hn : 1 ≤ nCore) (hin : HoldsTables h inputs ins) (ea : c.assign ins nCore = .ok vs)
    (hev : EvenLayers k vs) (ep : newGkrProver c vs = .ok p) (e : p.prove H nCore = .ok proof) :
    GE h (fun s => s.gs 0 = .ret (.proof proof) ∧ HoldsTables s.mem inputs ins) (assignProveC H c inputs nCore) h := by
  have g := assignC_ga (B := 0) (k := fun values => .ret (.slice values)) hn hin ea (CellFrame.refl ∅ h)
    (post := fun s => Solo s ∧ ∃ values, s.gs 0 = .ret (.slice values) ∧ HoldsLayers s.mem values vs ∧ HoldsTables s.mem inputs ins)
    fun h' A hf hl _ => GA.retSolo hf fun s h1 h3 h4 => ⟨h1, A, h3, h4 ▸ hl, h4 ▸ hin.mono hf⟩
  refine GE.andThen g (fun s hs => hs.1) ?_
  rintro s r hr ⟨_, values, hv, hl, hi⟩ hf
  obtain rfl : r = .slice values := by
    rw [hr] at hv
    exact Prog.ret.inj hv
  exact GE.mono (GE.newProver hn hl hev ep e) hf fun u hu hf' => ⟨hu.1, hi.mono hf'⟩

end GkrMimc
