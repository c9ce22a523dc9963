import Verif.Proofs.MachGkr
import Verif.Props.Mimc

/-! The whole pipeline on 64 bits. -/

namespace GkrMimc

set_option linter.unusedSectionVars false

variable {F : Type} [Field F] [DecidableEq F]

theorem newLayer_wiresIn (ws : List (Wire F)) : WiresIn (newLayer ws) := newLayer_inRange ws

theorem evaluateChunk_length {l : Layer F} {inp out : List F} (h : evaluateChunk l inp = .ok out) :
    out.length = inp.length / 2 ^ l.bGInputs * 2 ^ l.bGOutputs := by
  unfold evaluateChunk at h
  dsimp only at h
  refine forEach_inv_ok (fun s => s.length = inp.length / 2 ^ l.bGInputs * 2 ^ l.bGOutputs) ?_ ?_ h
  · simp [Nat.shiftLeft_eq]
  · intro w _ s s' hs hb
    refine forN_inv_ok (fun _ s => s.length = inp.length / 2 ^ l.bGInputs * 2 ^ l.bGOutputs) hs ?_ hb
    intro i _ s s' hs hb
    obtain ⟨_, _, hb⟩ := bind_inv_go hb
    obtain ⟨_, _, hb⟩ := bind_inv_go hb
    rw [modIdx_length' hb, hs]

theorem mapGo_length' {α β : Type _} {f : α → Go β} : ∀ {xs : List α} {ys : List β}, mapGo f xs = .ok ys → ys.length = xs.length
  | [], ys, h => by cases h; rfl
  | x :: xs, ys, h => by
    rw [mapGo] at h
    cases h1 : f x with
    | error e => rw [h1] at h; cases h
    | ok z =>
    cases h2 : mapGo f xs with
    | error e => rw [h1, h2] at h; cases h
    | ok zs =>
    rw [h1, h2] at h
    cases h
    simp [mapGo_length' h2]

theorem evaluate_chunked {l : Layer F} {k m : Nat} {inputs outs : List (List F)} {nCore : Int} (hin : WellChunked k (l.bGInputs + m) inputs)
    (h : l.evaluate inputs nCore = .ok outs) : WellChunked k (l.bGOutputs + m) outs := by
  unfold Layer.evaluate at h
  obtain ⟨_, _, h⟩ := bind_inv_go h
  refine ⟨(mapGo_length' h).trans hin.1, fun c hc => ?_⟩
  obtain ⟨i, hi, he⟩ := mapGo_mem h c hc
  rw [evaluateChunk_length he, hin.2 i hi, pow_add, Nat.mul_div_cancel_left _ (by positivity), ← pow_add, Nat.add_comm]

theorem valuesFit_of {lim k g m : Nat} (hl : lim ≤ 2 ^ 61) {v : List (List F)} (h : WellChunked k (g + m) v) (hb : 2 ^ (g + m + k) ≤ lim) :
    ValuesFit lim v where
  n := by
    rw [h.1]
    exact le_trans (Nat.pow_le_pow_right (by norm_num) (by omega)) (le_trans hb hl)
  le := fun t ht => by
    rw [h.2 t ht]
    exact le_trans (Nat.pow_le_pow_right (by norm_num) (by omega)) hb
  tot := fun t ht => by
    rw [h.1, h.2 t ht, ← pow_add]
    exact le_trans (Nat.pow_le_pow_right (by norm_num) (by omega)) (le_trans hb hl)

theorem pow_le_of {a b lim : Nat} (h : 2 ^ a ≤ lim) (hb : b ≤ a) : 2 ^ b ≤ lim :=
  le_trans (Nat.pow_le_pow_right (by norm_num) hb) h

theorem exp_le_61 {a lim : Nat} (hl : lim ≤ 2 ^ 61) (h : 2 ^ a ≤ lim) : a ≤ 61 :=
  (Nat.pow_le_pow_iff_right (by norm_num : 1 < 2)).1 (le_trans h hl)

/-- `Assign` on 64 bits, and the sizes of what it returns. -/
theorem assignFromW_eq {lim k m : Nat} (hl : lim ≤ 2 ^ 61) (nCore : Int) : ∀ (layers : List (Layer F)) (G : Nat) (cur : List (List F)),
    Chained G layers → WellChunked k (G + m) cur → 2 ^ (G + m + k) ≤ lim →
    (∀ l ∈ layers, WiresIn l ∧ 2 ^ (l.bGOutputs + 2 * l.bGInputs + m + k) ≤ lim ∧ ∀ w ∈ l.wires, w.R * 2 ^ m * 2 ^ m ≤ 2 ^ 62) →
    assignFromW lim nCore layers cur = assignFrom nCore layers cur ∧
    ∀ vs, assignFrom nCore layers cur = .ok vs → ∀ v ∈ vs, ∃ g, WellChunked k (g + m) v ∧ 2 ^ (g + m + k) ≤ lim
  | [], G, cur, _, hc, hb, _ => ⟨rfl, fun vs h v hv => by
      cases h
      rw [List.mem_singleton.mp hv]
      exact ⟨G, hc, hb⟩⟩
  | l :: ls, G, cur, hG, hc, hb, h => by
    obtain ⟨rfl, hG⟩ := hG
    obtain ⟨h1, h2, h3⟩ := h l (by simp)
    have e61 := exp_le_61 hl h2
    have ev : l.evaluateW lim cur nCore = l.evaluate cur nCore := by
      refine evaluateW_eq hl l cur nCore h1 (by omega) (by omega) (fun inps hi => ?_)
      have hlen := hc.2 inps hi
      have hN : inps.length / 2 ^ l.bGInputs = 2 ^ m := by rw [hlen, pow_add, Nat.mul_div_cancel_left _ (by positivity)]
      rw [hN]
      refine ⟨?_, ?_, h3⟩
      · rw [hlen]; exact le_trans (pow_le_of hb (by omega)) hl
      · rw [← pow_add]; exact pow_le_of h2 (by omega)
    have ih := fun nxt (hn : l.evaluate cur nCore = .ok nxt) => assignFromW_eq hl nCore ls l.bGOutputs nxt hG (evaluate_chunked hc hn)
      (pow_le_of h2 (by omega)) (fun l' hl' => h l' (by simp [hl']))
    constructor
    · rw [assignFromW, assignFrom, ev]
      refine bind_congr_go (fun nxt hn => ?_)
      rw [(ih nxt hn).1]
    · intro vs hvs v hv
      rw [assignFrom] at hvs
      obtain ⟨nxt, hn, hvs⟩ := bind_inv_go hvs
      obtain ⟨rest, hr, hvs⟩ := bind_inv_go hvs
      cases hvs
      rcases List.mem_cons.mp hv with rfl | hv
      · exact ⟨_, hc, hb⟩
      · exact (ih nxt hn).2 rest hr v hv

/-- The number of polynomials in the output of a prover that fits. -/
theorem mprove_polys {lim : Nat} (hl : lim ≤ 2 ^ 61) {H : List F → F} {p : MProver F} (hf : MFits lim p) {nCore : Int} {out : SumcheckOut F}
    (h : p.prove H nCore = .ok out) : out.polyCoeffs.length ≤ 2 ^ 61 := by
  unfold MProver.prove at h
  dsimp only at h
  obtain ⟨eq0, h1, h⟩ := bind_inv_go h
  obtain ⟨vL0, h2, h⟩ := bind_inv_go h
  obtain ⟨g, h3, h⟩ := bind_inv_go h
  obtain ⟨hn, hg⟩ := goDiv_val h3
  have t1 := hf.tot _ (idx_mem_go h1)
  have t2 := hf.totL _ (idx_mem_go h2)
  have t3 := hf.n
  have hg' : g ≤ 2 ^ 61 := by rw [hg]; exact le_trans (Nat.div_le_self _ _) t2
  obtain ⟨_, _, h⟩ := bind_inv_go h
  obtain ⟨ws, _, h⟩ := bind_inv_go h
  obtain ⟨ds, _, h⟩ := bind_inv_go h
  split at h
  · cases h
  · obtain ⟨s, h4, h⟩ := bind_inv_go h
    obtain ⟨q, _, h⟩ := bind_inv_go h
    obtain ⟨x, h5, h⟩ := bind_inv_go h
    obtain ⟨fc, _, h⟩ := bind_inv_go h
    cases h
    have l1 : s.2.1.length = 2 * log2Ceil (g : Int) + log2Ceil ((p.eq.length * eq0.length : Nat) : Int) - log2Ceil (p.eq.length : Int) := by
      refine forN_inv_ok (fun i (s : List (SProver F) × List (List F) × List F) => s.2.1.length = i) rfl ?_ h4
      intro i _ s s' hs hb
      obtain ⟨_, _, hb⟩ := bind_inv_go hb
      obtain ⟨_, _, hb⟩ := bind_inv_go hb
      obtain ⟨c, _, hb⟩ := bind_inv_go hb
      cases hb
      simp [hs]
    have l2 : x.2.1.length = log2Ceil (p.eq.length : Int) := by
      unfold rounds at h5
      refine forN_inv_ok (fun i (s : SProver F × List (List F) × List F) => s.2.1.length = i) rfl ?_ h5
      intro i _ s s' hs hb
      obtain ⟨e, _, hb⟩ := bind_inv_go hb
      obtain ⟨c, _, hb⟩ := bind_inv_go hb
      cases hb
      simp [hs]
    have b1 : log2Ceil (g : Int) ≤ 63 := log2Ceil_le (by omega)
    have b2 : log2Ceil ((p.eq.length * eq0.length : Nat) : Int) ≤ 63 := log2Ceil_le (by omega)
    have b3 : log2Ceil (p.eq.length : Int) ≤ 63 := log2Ceil_le (by omega)
    show (s.2.1 ++ x.2.1).length ≤ _
    rw [List.length_append, l1, l2]
    omega

theorem proveLayers_polys {lim : Nat} (hl : lim ≤ 2 ^ 61) (H : List F → F) {p : GkrProver F} (h : GFits lim p) {nCore : Int}
    (hc : IsInt nCore) : ∀ (k : Nat) (out : SumcheckOut F) (outs : List (SumcheckOut F)), out.qPrime.length ≤ p.bN →
    p.proveLayers H nCore k out = .ok outs → ∀ o ∈ outs, o.polyCoeffs.length ≤ 2 ^ 61
  | 0, _, outs, _, ho, o, hm => by cases ho; cases hm
  | k + 1, out, outs, hq, ho, o, hm => by
    unfold GkrProver.proveLayers at ho
    obtain ⟨cl, _, ho⟩ := bind_inv_go ho
    obtain ⟨cr, _, ho⟩ := bind_inv_go ho
    dsimp only at ho
    obtain ⟨mp, h1, ho⟩ := bind_inv_go ho
    obtain ⟨out', h2, ho⟩ := bind_inv_go ho
    obtain ⟨rest, h3, ho⟩ := bind_inv_go ho
    cases ho
    obtain ⟨f1, f2⟩ := (intermediateRoundW_eq hl h hc hq k out.qL out.qR 1 (H [cl, cr])).2 mp h1
    rcases List.mem_append.mp hm with hm | hm
    · exact proveLayers_polys hl H h hc k out' rest (le_trans (f2 H out' h2) hq) h3 o hm
    · rw [List.mem_singleton.mp hm]
      exact mprove_polys hl f1 h2

theorem gkrProve_polys {lim : Nat} (hl : lim ≤ 2 ^ 61) (H : List F → F) {p : GkrProver F} (h : GFits lim p) {nCore : Int}
    (hc : IsInt nCore) {proof : GkrProof F} (hp : p.prove H nCore = .ok proof) : ∀ s ∈ proof.sumcheckProofs, s.length ≤ 2 ^ 61 := by
  unfold GkrProver.prove at hp
  dsimp only at hp
  obtain ⟨l, h1, hp⟩ := bind_inv_go hp
  obtain ⟨mp, h2, hp⟩ := bind_inv_go hp
  obtain ⟨out, h3, hp⟩ := bind_inv_go hp
  obtain ⟨rest, h4, hp⟩ := bind_inv_go hp
  obtain ⟨cl, _, hp⟩ := bind_inv_go hp
  obtain ⟨cr, _, hp⟩ := bind_inv_go hp
  cases hp
  have hq : (getInitialQPrimeAndQ (F := F) p.bN l.bGOutputs).1.length ≤ p.bN := by simp [getInitialQPrimeAndQ]
  obtain ⟨f1, f2⟩ := (initialRoundW_eq hl h hc hq (getInitialQPrimeAndQ (F := F) p.bN l.bGOutputs).2).2 mp h2
  intro s hs
  obtain ⟨o, ho, rfl⟩ := List.mem_map.mp hs
  rcases List.mem_append.mp ho with ho | ho
  · exact proveLayers_polys hl H h hc _ out rest (le_trans (f2 H out h3) hq) h4 o ho
  · rw [List.mem_singleton.mp ho]
    exact mprove_polys hl f1 h3

theorem newGkrProver_ok {c : Circuit F} {a : List (List (List F))} {p : GkrProver F} (h : newGkrProver c a = .ok p) :
    ∃ v0 v00 l0, idx a 0 = .ok v0 ∧ idx v0 0 = .ok v00 ∧ idx c.layers 0 = .ok l0 ∧
      p = ⟨log2Ceil ((v0.length * v00.length : Nat) : Int) - l0.bGInputs, c, a⟩ := by
  unfold newGkrProver at h
  obtain ⟨v0, h0, h⟩ := bind_inv_go h
  obtain ⟨v00, h1, h⟩ := bind_inv_go h
  obtain ⟨l0, h2, h⟩ := bind_inv_go h
  dsimp only at h
  split at h
  · cases h
  · cases h
    exact ⟨v0, v00, l0, h0, h1, h2, rfl⟩

theorem newCircuitW_eq (wiring : List (List (Wire F))) (h : ∀ ws ∈ wiring, ∀ w ∈ ws, w.L ≤ 2 ^ 62 ∧ w.R ≤ 2 ^ 62 ∧ w.O ≤ 2 ^ 62) :
    newCircuitW wiring = .ok (newCircuit wiring) := by
  have : mapGo newLayerW wiring = .ok (wiring.map newLayer) := by
    induction wiring with
    | nil => rfl
    | cons ws wss ih =>
      rw [mapGo, newLayerW_eq ws (h ws (by simp)), ih (fun w hw => h w (by simp [hw]))]
      rfl
  unfold newCircuitW
  rw [this]
  rfl

end GkrMimc
