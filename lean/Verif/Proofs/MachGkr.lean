import Verif.Proofs.MachSumcheck

/-! The GKR prover and the GKR verifier on 64 bits. -/

namespace GkrMimc

set_option linter.unusedSectionVars false

variable {F : Type} [Field F] [DecidableEq F]

theorem bind_inv_go {α β : Type _} {x : Go α} {f : α → Go β} {b : β} (h : (x >>= f) = .ok b) : ∃ a, x = .ok a ∧ f a = .ok b := by
  cases x with
  | error e => cases h
  | ok a => exact ⟨a, rfl, h⟩

theorem forN_inv_ok {σ : Type _} {body : Nat → σ → Go σ} (P : Nat → σ → Prop) {n : Nat} {s s' : σ} (h0 : P 0 s)
    (hstep : ∀ i < n, ∀ s s', P i s → body i s = .ok s' → P (i + 1) s') (h : forN n s body = .ok s') : P n s' := by
  induction n generalizing s' with
  | zero => rw [forN_zero] at h; exact (Except.ok.inj h) ▸ h0
  | succ n ih =>
    rw [forN_succ] at h
    obtain ⟨t, h1, h2⟩ := bind_inv_go h
    exact hstep n (by omega) t s' (ih (fun i hi => hstep i (by omega)) h1) h2

theorem chunkedEqStep_length {k i j : Nat} {r : F} {nCore : Int} {res res' : List (Table F)}
    (h : chunkedEqStep k i r nCore j res = .ok res') : res'.length = res.length := by
  unfold chunkedEqStep at h
  dsimp only at h
  obtain ⟨_, _, h⟩ := bind_inv_go h
  obtain ⟨_, _, h⟩ := bind_inv_go h
  obtain ⟨_, _, h⟩ := bind_inv_go h
  obtain ⟨_, h4, h⟩ := bind_inv_go h
  obtain ⟨_, _, h⟩ := bind_inv_go h
  obtain ⟨_, _, h⟩ := bind_inv_go h
  obtain ⟨_, _, h⟩ := bind_inv_go h
  rw [setIdx_length' h, setIdx_length' h4]

theorem getChunkedEqTable_length {q : List F} {n : Nat} {nCore : Int} {ts : List (Table F)} (h : getChunkedEqTable q n nCore = .ok ts) :
    ts.length = n ∧ log2Ceil (n : Int) ≤ q.length := by
  unfold getChunkedEqTable at h
  dsimp only at h
  obtain ⟨cut, h1, h⟩ := bind_inv_go h
  obtain ⟨_, _, h⟩ := bind_inv_go h
  obtain ⟨res, h3, h⟩ := bind_inv_go h
  obtain ⟨_, _, h⟩ := bind_inv_go h
  constructor
  · refine forN_inv_ok (fun _ s => s.length = n) ?_ ?_ h
    · rw [setIdx_length' h3, List.length_replicate]
    · intro i _ s s' hs hb
      obtain ⟨r, _, hb⟩ := bind_inv_go hb
      exact forN_inv_ok (fun _ s => s.length = n) hs (fun j _ s s' hs hb => by rw [chunkedEqStep_length hb, hs]) hb
  · unfold goSubBound at h1
    split at h1
    · assumption
    · cases h1

theorem rounds_length {H : List F → F} {ev : SProver F → Go (List F)} {foldX : SProver F → F → SProver F} {k : Nat} {p : SProver F}
    {x : SProver F × List (List F) × List F} (h : rounds H ev foldX k p = .ok x) : x.2.2.length = k := by
  unfold rounds at h
  refine forN_inv_ok (fun i (s : SProver F × List (List F) × List F) => s.2.2.length = i) rfl ?_ h
  intro i _ s s' hs hb
  obtain ⟨e, _, hb⟩ := bind_inv_go hb
  obtain ⟨c, _, hb⟩ := bind_inv_go hb
  cases hb
  simp [hs]

/-- The number of challenges `qPrime` that `Prove` returns. -/
theorem mprove_qPrime {H : List F → F} {p : MProver F} {nCore : Int} {out : SumcheckOut F} (h : p.prove H nCore = .ok out) :
    ∃ eq0, idx p.eq 0 = .ok eq0 ∧ 0 < p.eq.length * eq0.length ∧
      out.qPrime.length = log2Ceil ((p.eq.length * eq0.length : Nat) : Int) := by
  unfold MProver.prove at h
  dsimp only at h
  obtain ⟨eq0, h1, h⟩ := bind_inv_go h
  obtain ⟨vL0, h2, h⟩ := bind_inv_go h
  obtain ⟨g, h3, h⟩ := bind_inv_go h
  obtain ⟨hn, _⟩ := goDiv_val h3
  refine ⟨eq0, h1, hn, ?_⟩
  obtain ⟨_, _, h⟩ := bind_inv_go h
  obtain ⟨ws, _, h⟩ := bind_inv_go h
  obtain ⟨ds, _, h⟩ := bind_inv_go h
  split at h
  · cases h
  · obtain ⟨s, h4, h⟩ := bind_inv_go h
    obtain ⟨q, _, h⟩ := bind_inv_go h
    obtain ⟨x, h5, h⟩ := bind_inv_go h
    obtain ⟨fc, _, h⟩ := bind_inv_go h
    cases h
    have hpos : 0 < p.eq.length := List.length_pos_of_mem (idx_mem_go h1)
    have hmono : log2Ceil (p.eq.length : Int) ≤ log2Ceil ((p.eq.length * eq0.length : Nat) : Int) := by
      refine log2Ceil_mono hpos ?_
      exact Nat.le_mul_of_pos_right _ (Nat.pos_of_ne_zero (fun h0 => by rw [h0] at hn; omega))
    have l1 : s.2.2.length = 2 * log2Ceil (g : Int) + log2Ceil ((p.eq.length * eq0.length : Nat) : Int) - log2Ceil (p.eq.length : Int) := by
      refine forN_inv_ok (fun i (s : List (SProver F) × List (List F) × List F) => s.2.2.length = i) rfl ?_ h4
      intro i _ s s' hs hb
      obtain ⟨_, _, hb⟩ := bind_inv_go hb
      obtain ⟨_, _, hb⟩ := bind_inv_go hb
      obtain ⟨c, _, hb⟩ := bind_inv_go hb
      cases hb
      simp [hs]
    have l2 := rounds_length h5
    show (s.2.2.drop _ ++ x.2.2).length = _
    rw [List.length_append, List.length_drop, l1, l2]
    omega

theorem modIdx_length' {α : Type} {xs ys : List α} {i : Nat} {f : α → α} (h : modIdx xs i f = .ok ys) : ys.length = xs.length := by
  unfold modIdx at h
  split at h
  · cases h; simp
  · cases h

theorem forEach_inv_ok {α σ : Type _} {f : α → σ → Go σ} (P : σ → Prop) {xs : List α} {s s' : σ} (h0 : P s)
    (hstep : ∀ x ∈ xs, ∀ s s', P s → f x s = .ok s' → P s') (h : forEach xs s f = .ok s') : P s' :=
  (forEach_congr_inv (f := f) (g := f) P xs s h0 hstep (fun _ _ _ _ => rfl)).2 s' h

theorem foldl_fold_length (q : List F) : ∀ (t : Table F), (q.foldl fold t).length ≤ t.length := by
  induction q with
  | nil => intro t; exact le_refl _
  | cons r q ih =>
    intro t
    rw [List.foldl_cons]
    refine le_trans (ih _) ?_
    rw [fold_length]; exact Nat.div_le_self _ _

theorem mapGo_mem {α β : Type _} {f : α → Go β} : ∀ {xs : List α} {ys : List β}, mapGo f xs = .ok ys → ∀ y ∈ ys, ∃ x ∈ xs, f x = .ok y
  | [], ys, h, y, hy => by cases h; cases hy
  | x :: xs, ys, h, y, hy => by
    rw [mapGo] at h
    cases h1 : f x with
    | error e => rw [h1] at h; cases h
    | ok z =>
    cases h2 : mapGo f xs with
    | error e => rw [h1, h2] at h; cases h
    | ok zs =>
    rw [h1, h2] at h
    cases h
    rcases List.mem_cons.mp hy with rfl | hy
    · exact ⟨x, by simp, h1⟩
    · obtain ⟨w, hw, e⟩ := mapGo_mem h2 y hy
      exact ⟨w, by simp [hw], e⟩

theorem getStaticTable_le {l : Layer F} {q : List F} {ts : List (Table F)} (h : getStaticTable l q = .ok ts) :
    ∀ t ∈ ts, t.length ≤ 2 ^ l.bGOutputs * 2 ^ (2 * l.bGInputs) := by
  intro t ht
  obtain ⟨g, _, hg⟩ := mapGo_mem h t ht
  obtain ⟨tb, h1, h2⟩ := bind_inv_go hg
  cases h2
  refine le_trans (foldl_fold_length q tb) (le_of_eq ?_)
  unfold rawStaticTable at h1
  dsimp only at h1
  refine forEach_inv_ok (fun s => s.length = 2 ^ l.bGOutputs * 2 ^ (2 * l.bGInputs)) ?_ ?_ h1
  · simp [Nat.shiftLeft_eq]
  · intro w _ s s' hs hb
    split at hb
    · rw [modIdx_length' hb, hs]
    · cases hb; exact hs

theorem linearCombination_length {a b c : Table F} {x y : F} (h : linearCombination a b x y = .ok c) : c.length = b.length :=
  genM_length _ _ _ h

/-- A layer of a circuit that fits the machine, for chunks totalling `2^bN` instances. -/
structure LayerFits (lim bN : Nat) (l : Layer F) : Prop where
  wires : WiresIn l
  gates : GatesFit lim l.gates
  size : 2 ^ l.bGOutputs * 2 ^ (2 * l.bGInputs) ≤ lim
  prod : 2 ^ l.bGOutputs * 2 ^ (2 * l.bGInputs) * 2 ^ bN ≤ 2 ^ 61

/-- The values of a layer fit the machine. -/
structure ValuesFit (lim : Nat) (v : List (List F)) : Prop where
  n : v.length ≤ 2 ^ 61
  le : TabLe lim v
  tot : ∀ t ∈ v, v.length * t.length ≤ 2 ^ 61

theorem log2Ceil_le_pos {a k : Nat} (ha : 1 ≤ a) (h : a ≤ 2 ^ k) : log2Ceil (a : Int) ≤ k := by
  rcases Nat.eq_zero_or_pos k with h0 | h0
  · subst h0
    have : a = 1 := by simp at h; omega
    subst this
    exact le_of_eq (log2Ceil_pow 0)
  · exact log2Ceil_le_of_le h0 h

theorem layerAsBKT_val {vs : List (List (List F))} {l : Nat} {nCore : Int} {v : List (List F)} (h : layerAsBKTWithCopy vs l nCore = .ok v) :
    idx vs l = .ok v := by
  unfold layerAsBKTWithCopy at h
  obtain ⟨a, h1, h⟩ := bind_inv_go h
  obtain ⟨_, _, h⟩ := bind_inv_go h
  cases h
  exact h1

/-- The eq tables of a round, on 64 bits, and the prover built from them. -/
theorem eqW {lim bN : Nat} (hl : lim ≤ 2 ^ 61) (hN : 2 ^ bN ≤ lim) {q : List F} (hq : q.length ≤ bN) {v : List (List F)} (hv : ValuesFit lim v)
    {nCore : Int} (hc : IsInt nCore) :
    getChunkedEqTableW lim q v.length nCore = getChunkedEqTable q v.length nCore ∧
    ∀ ts, getChunkedEqTable q v.length nCore = .ok ts → ts.length = v.length ∧ (∀ t ∈ ts, t.length ≤ 2 ^ bN) ∧
      ∀ t ∈ ts, v.length * t.length ≤ 2 ^ q.length := by
  have h1 : 2 ^ q.length ≤ 2 ^ bN := Nat.pow_le_pow_right (by norm_num) hq
  have h2 : 2 ^ (q.length - log2Ceil (v.length : Int)) ≤ 2 ^ q.length := Nat.pow_le_pow_right (by norm_num) (by omega)
  have hq2 : q.length ≤ 2 ^ 61 := le_trans (le_of_lt Nat.lt_two_pow_self) (by omega)
  refine ⟨(getChunkedEqTableW_eq hl q hc hv.n hq2 (by omega)).1, fun ts hts => ?_⟩
  obtain ⟨a, b⟩ := getChunkedEqTable_length hts
  have c := (getChunkedEqTableW_eq (lim := 2 ^ (q.length - log2Ceil (v.length : Int))) (by omega) q hc hv.n hq2 (le_refl _)).2 ts hts
  refine ⟨a, fun t ht => le_trans (c t ht) (by omega), fun t ht => ?_⟩
  rcases Nat.eq_zero_or_pos v.length with h0 | h0
  · rw [h0]; simp
  · calc v.length * t.length ≤ 2 ^ log2Ceil (v.length : Int) * 2 ^ (q.length - log2Ceil (v.length : Int)) :=
          Nat.mul_le_mul (le_pow_log2Ceil h0) (c t ht)
      _ = 2 ^ q.length := by rw [← pow_add]; congr 1; omega

/-- A prover built in a round fits, and its output has no more challenges. -/
theorem round_fits {lim bN : Nat} (hl : lim ≤ 2 ^ 61) (hN : 2 ^ bN ≤ lim) {q : List F} (hq : q.length ≤ bN) {v : List (List F)}
    (hv : ValuesFit lim v) {nCore : Int} (hc : IsInt nCore) {l : Layer F} (hf : LayerFits lim bN l) {ts st : List (Table F)}
    (hts : getChunkedEqTable q v.length nCore = .ok ts) (hst : ∀ s ∈ st, s.length ≤ 2 ^ l.bGOutputs * 2 ^ (2 * l.bGInputs)) :
    MFits lim (newMProver v v ts l.gates st) ∧
    ∀ H out, (newMProver v v ts l.gates st).prove H nCore = .ok out → out.qPrime.length ≤ q.length := by
  obtain ⟨a, b, c⟩ := (eqW hl hN hq hv hc).2 ts hts
  have h1 : 2 ^ q.length ≤ 2 ^ bN := Nat.pow_le_pow_right (by norm_num) hq
  constructor
  · refine ⟨?_, hv.le, hv.le, fun t ht => le_trans (b t ht) hN, fun t ht => ?_, fun t ht => ?_, fun s hs => le_trans (hst s hs) hf.size,
      fun s hs e he => ?_, hf.gates⟩
    · show ts.length ≤ _; rw [a]; exact hv.n
    · show ts.length * _ ≤ _; rw [a]; exact le_trans (c t ht) (by omega)
    · show ts.length * _ ≤ _; rw [a]; exact hv.tot t ht
    · exact le_trans (Nat.mul_le_mul (hst s hs) (b e he)) hf.prod
  · intro H out ho
    obtain ⟨eq0, h2, h3, h4⟩ := mprove_qPrime ho
    have h2' : idx ts 0 = .ok eq0 := h2
    have h3' : 0 < ts.length * eq0.length := h3
    have h4' : out.qPrime.length = log2Ceil ((ts.length * eq0.length : Nat) : Int) := h4
    rw [h4']
    refine log2Ceil_le_pos h3' ?_
    rw [a]
    exact c _ (idx_mem_go h2')

theorem idx_wSub_pred {α : Type} (xs : List α) (h : xs.length < 2 ^ 63) : idx xs (wSub xs.length 1) = idxPred xs xs.length := by
  unfold idxPred
  split
  · rename_i h0
    have : xs = [] := List.length_eq_zero_iff.mp h0
    subst this
    rfl
  · rw [wSub_eq (by omega) h]

theorem idxPred_ok {α : Type} {xs : List α} {n : Nat} {x : α} (h : idxPred xs n = .ok x) : 1 ≤ n ∧ idx xs (n - 1) = .ok x := by
  unfold idxPred at h
  split at h
  · cases h
  · exact ⟨by omega, h⟩

/-- The prover fits the machine. -/
structure GFits (lim : Nat) (p : GkrProver F) : Prop where
  nL : p.circuit.layers.length ≤ 2 ^ 61
  bN : 2 ^ p.bN ≤ lim
  layers : ∀ l ∈ p.circuit.layers, LayerFits lim p.bN l
  values : ∀ v ∈ p.assignment, ValuesFit lim v

theorem bGO_le {lim bN : Nat} {l : Layer F} (h : LayerFits lim bN l) : l.bGOutputs ≤ lim := by
  refine le_trans (le_of_lt Nat.lt_two_pow_self) (le_trans ?_ h.size)
  exact Nat.le_mul_of_pos_right _ (by positivity)

theorem bGI_le {lim bN : Nat} {l : Layer F} (h : LayerFits lim bN l) : 2 * l.bGInputs ≤ lim := by
  refine le_trans (le_of_lt Nat.lt_two_pow_self) (le_trans ?_ h.size)
  exact Nat.le_mul_of_pos_left _ (by positivity)

theorem initialRoundW_eq {lim : Nat} (hl : lim ≤ 2 ^ 61) {p : GkrProver F} (h : GFits lim p) {nCore : Int} (hc : IsInt nCore)
    {qPrime : List F} (hq : qPrime.length ≤ p.bN) (q : List F) :
    p.initialRoundW lim qPrime q nCore = p.initialRound qPrime q nCore ∧
    ∀ mp, p.initialRound qPrime q nCore = .ok mp → MFits lim mp ∧
      ∀ H out, mp.prove H nCore = .ok out → out.qPrime.length ≤ qPrime.length := by
  have hL := h.nL
  constructor
  · unfold GkrProver.initialRoundW GkrProver.initialRound
    dsimp only
    rw [idx_wSub_pred _ (by omega)]
    refine bind_congr_go (fun l hl0 => ?_)
    obtain ⟨h1, h2⟩ := idxPred_ok hl0
    have hf := h.layers l (idx_mem_go h2)
    rw [getStaticTableW_eq hl l q hf.wires hf.size, wSub_eq h1 (by omega)]
    refine bind_congr_go (fun st _ => bind_congr_go (fun vL hv => bind_congr_go (fun vR hv' => ?_)))
    rw [(eqW hl h.bN hq (h.values vL (idx_mem_go (layerAsBKT_val hv))) hc).1]
  · intro mp hmp
    unfold GkrProver.initialRound at hmp
    dsimp only at hmp
    obtain ⟨l, h1, hmp⟩ := bind_inv_go hmp
    obtain ⟨st, h2, hmp⟩ := bind_inv_go hmp
    obtain ⟨vL, h3, hmp⟩ := bind_inv_go hmp
    obtain ⟨vR, h4, hmp⟩ := bind_inv_go hmp
    obtain ⟨ts, h5, hmp⟩ := bind_inv_go hmp
    have e : vR = vL := by
      have := (layerAsBKT_val h3).symm.trans (layerAsBKT_val h4)
      exact (Except.ok.inj this).symm
    subst e
    cases hmp
    exact round_fits hl h.bN hq (h.values vR (idx_mem_go (layerAsBKT_val h3))) hc (h.layers l (idx_mem_go (idxPred_ok h1).2)) h5 (getStaticTable_le h2)

theorem intermediateRoundW_eq {lim : Nat} (hl : lim ≤ 2 ^ 61) {p : GkrProver F} (h : GFits lim p) {nCore : Int} (hc : IsInt nCore)
    {qPrime : List F} (hq : qPrime.length ≤ p.bN) (layer : Nat) (qL qR : List F) (a b : F) :
    p.intermediateRoundW lim layer qPrime qL qR a b nCore = p.intermediateRound layer qPrime qL qR a b nCore ∧
    ∀ mp, p.intermediateRound layer qPrime qL qR a b nCore = .ok mp → MFits lim mp ∧
      ∀ H out, mp.prove H nCore = .ok out → out.qPrime.length ≤ qPrime.length := by
  constructor
  · unfold GkrProver.intermediateRoundW GkrProver.intermediateRound
    refine bind_congr_go (fun vL hv => bind_congr_go (fun vR hv' => ?_))
    rw [(eqW hl h.bN hq (h.values vL (idx_mem_go (layerAsBKT_val hv))) hc).1]
    refine bind_congr_go (fun ts _ => bind_congr_go (fun l hl0 => ?_))
    have hf := h.layers l (idx_mem_go hl0)
    rw [getStaticTableW_eq hl l qL hf.wires hf.size, getStaticTableW_eq hl l qR hf.wires hf.size]
  · intro mp hmp
    unfold GkrProver.intermediateRound at hmp
    obtain ⟨vL, h3, hmp⟩ := bind_inv_go hmp
    obtain ⟨vR, h4, hmp⟩ := bind_inv_go hmp
    obtain ⟨ts, h5, hmp⟩ := bind_inv_go hmp
    obtain ⟨l, h1, hmp⟩ := bind_inv_go hmp
    obtain ⟨sL, h6, hmp⟩ := bind_inv_go hmp
    obtain ⟨sR, h7, hmp⟩ := bind_inv_go hmp
    obtain ⟨st, h8, hmp⟩ := bind_inv_go hmp
    have e : vR = vL := by
      have := (layerAsBKT_val h3).symm.trans (layerAsBKT_val h4)
      exact (Except.ok.inj this).symm
    subst e
    cases hmp
    refine round_fits hl h.bN hq (h.values vR (idx_mem_go (layerAsBKT_val h3))) hc (h.layers l (idx_mem_go h1)) h5 (fun s hs => ?_)
    obtain ⟨i, hi⟩ := genM_mem _ _ _ h8 s hs
    obtain ⟨x, h9, hi⟩ := bind_inv_go hi
    obtain ⟨y, h10, hi⟩ := bind_inv_go hi
    rw [linearCombination_length hi]
    exact getStaticTable_le h7 y (idx_mem_go h10)

theorem proveLayersW_eq {lim : Nat} (hl : lim ≤ 2 ^ 61) (hl' : 256 ≤ lim) (H : List F → F) {p : GkrProver F} (h : GFits lim p) {nCore : Int}
    (hc : IsInt nCore) : ∀ (k : Nat) (out : SumcheckOut F), out.qPrime.length ≤ p.bN →
    p.proveLayersW lim H nCore k out = p.proveLayers H nCore k out
  | 0, _, _ => rfl
  | k + 1, out, ho => by
    unfold GkrProver.proveLayersW GkrProver.proveLayers
    refine bind_congr_go (fun cl _ => bind_congr_go (fun cr _ => ?_))
    dsimp only
    obtain ⟨h1, h2⟩ := intermediateRoundW_eq hl h hc ho k out.qL out.qR 1 (H [cl, cr])
    rw [h1]
    refine bind_congr_go (fun mp hmp => ?_)
    obtain ⟨h3, h4⟩ := h2 mp hmp
    rw [mproveW_eq hl hl' H h3 nCore]
    refine bind_congr_go (fun out' hout => ?_)
    rw [proveLayersW_eq hl hl' H h hc k out' (le_trans (h4 H out' hout) ho)]

/-- The GKR prover on 64 bits. -/
theorem gkrProveW_eq {lim : Nat} (hl : lim ≤ 2 ^ 61) (hl' : 256 ≤ lim) (H : List F → F) {p : GkrProver F} (h : GFits lim p) {nCore : Int}
    (hc : IsInt nCore) : p.proveW lim H nCore = p.prove H nCore := by
  have hL := h.nL
  have hb := h.bN
  unfold GkrProver.proveW GkrProver.prove
  dsimp only
  rw [idx_wSub_pred _ (by omega)]
  refine bind_congr_go (fun l hl0 => ?_)
  obtain ⟨h1, h2⟩ := idxPred_ok hl0
  have hf := h.layers l (idx_mem_go h2)
  rw [wMake_eq (by omega) (le_trans (le_of_lt Nat.lt_two_pow_self) hb), wMake_eq (by omega) (bGO_le hf)]
  simp only [ok_bind]
  have hq : (getInitialQPrimeAndQ (F := F) p.bN l.bGOutputs).1.length ≤ p.bN := by simp [getInitialQPrimeAndQ]
  obtain ⟨h3, h4⟩ := initialRoundW_eq hl h hc hq (getInitialQPrimeAndQ (F := F) p.bN l.bGOutputs).2
  rw [h3]
  refine bind_congr_go (fun mp hmp => ?_)
  obtain ⟨h5, h6⟩ := h4 mp hmp
  rw [mproveW_eq hl hl' H h5 nCore]
  refine bind_congr_go (fun out hout => ?_)
  have e : (sgn (wSub p.circuit.layers.length 2) + 1).toNat = p.circuit.layers.length - 1 := by
    rw [sgn_wSub (by omega) (by omega)]; omega
  rw [e, proveLayersW_eq hl hl' H h hc _ out (le_trans (h6 H out hout) hq)]

/-- `NewProver` on 64 bits. -/
theorem newGkrProverW_eq (c : Circuit F) (a : List (List (List F)))
    (hc : ∀ l ∈ c.layers, l.bGInputs ≤ 2 ^ 61)
    (ha : ∀ v ∈ a, v.length ≤ 2 ^ 61 ∧ ∀ t ∈ v, t.length ≤ 2 ^ 61 ∧ v.length * t.length ≤ 2 ^ 61) :
    newGkrProverW c a = newGkrProver c a := by
  unfold newGkrProverW newGkrProver
  refine bind_congr_go (fun v0 h0 => bind_congr_go (fun v00 h1 => bind_congr_go (fun l0 h2 => ?_)))
  obtain ⟨h3, h4⟩ := ha _ (idx_mem_go h0)
  obtain ⟨h5, h6⟩ := h4 _ (idx_mem_go h1)
  have h7 := hc _ (idx_mem_go h2)
  rw [wMul_eq (by omega) (by omega) (by omega), log2CeilW_nat (by omega)]
  simp only [ok_bind]
  have h8 : log2Ceil ((v0.length * v00.length : Nat) : Int) ≤ 63 := log2Ceil_le (by omega)
  generalize log2Ceil ((v0.length * v00.length : Nat) : Int) = lg at *
  rw [sgn_wSub (by omega) (by omega)]
  by_cases hlt : lg < l0.bGInputs
  · rw [if_pos (by omega), if_pos hlt]
  · rw [if_neg (by omega), if_neg hlt, wSub_eq (by omega) (by omega)]

theorem evaluateStaticTablesW_eq {lim : Nat} (hl : lim ≤ 2 ^ 61) {l : Layer F} (hw : WiresIn l)
    (hs : 2 ^ l.bGOutputs * 2 ^ (2 * l.bGInputs) ≤ lim) (q a b : List F) :
    evaluateStaticTablesW lim l q a b = evaluateStaticTables l q a b := by
  unfold evaluateStaticTablesW evaluateStaticTables
  rw [getStaticTableW_eq hl l q hw hs]

theorem evaluateStaticTablesLinCombsW_eq {lim : Nat} (hl : lim ≤ 2 ^ 61) {l : Layer F} (hw : WiresIn l)
    (hs : 2 ^ l.bGOutputs * 2 ^ (2 * l.bGInputs) ≤ lim) (qL qR a b : List F) (x y : F) :
    evaluateStaticTablesLinCombsW lim l qL qR a b x y = evaluateStaticTablesLinCombs l qL qR a b x y := by
  unfold evaluateStaticTablesLinCombsW evaluateStaticTablesLinCombs
  rw [getStaticTableW_eq hl l qL hw hs, getStaticTableW_eq hl l qR hw hs]

theorem sumcheckVerifyLoop_length (H : List F → F) : ∀ (pc : List (List F)) (claim : F) (x : List F × F),
    sumcheckVerifyLoop H pc claim = .ok (some x) → x.1.length = pc.length
  | [], _, x, h => by cases h; rfl
  | c :: cs, claim, x, h => by
    rw [sumcheckVerifyLoop] at h
    obtain ⟨a0, _, h⟩ := bind_inv_go h
    obtain ⟨a1, _, h⟩ := bind_inv_go h
    split at h
    · cases h
    · obtain ⟨e, _, h⟩ := bind_inv_go h
      obtain ⟨r, hr, h⟩ := bind_inv_go h
      cases r with
      | none => cases h
      | some y =>
        cases h
        have := sumcheckVerifyLoop_length H cs e y hr
        simp [this]

theorem sumcheckVerify_qPrime {H : List F → F} {claim : F} {pc : List (List F)} {bG : Nat} {v : SumcheckVerdict F}
    (h : sumcheckVerify H claim pc bG = .ok (some v)) : v.qPrime.length ≤ pc.length := by
  unfold sumcheckVerify at h
  obtain ⟨r, hr, h⟩ := bind_inv_go h
  cases r with
  | none => cases h
  | some x =>
    obtain ⟨a, _, h⟩ := bind_inv_go h
    obtain ⟨b, _, h⟩ := bind_inv_go h
    obtain ⟨d, hd, h⟩ := bind_inv_go h
    cases h
    rw [← sumcheckVerifyLoop_length H pc claim x hr]
    unfold sliceFrom at hd
    split at hd
    · cases hd
      show (x.1.drop _).length ≤ _
      rw [List.length_drop]; omega
    · cases hd

/-- What the verifier is given fits the machine. -/
structure VFits (lim : Nat) (c : Circuit F) (proof : GkrProof F) (inputs outputs : List (List F)) : Prop where
  nL : c.layers.length ≤ 2 ^ 61
  wires : ∀ l ∈ c.layers, WiresIn l
  size : ∀ l ∈ c.layers, 2 ^ l.bGOutputs * 2 ^ (2 * l.bGInputs) ≤ lim
  proofs : ∀ s ∈ proof.sumcheckProofs, s.length ≤ 2 ^ 61
  nIn : inputs.length ≤ 2 ^ 61
  inp : TabLe (2 ^ 61) inputs
  nOut : outputs.length ≤ 2 ^ 61
  out : TabLe (2 ^ 61) outputs

theorem size_exps {lim a b : Nat} (hl : lim ≤ 2 ^ 61) (h : 2 ^ a * 2 ^ (2 * b) ≤ lim) : a ≤ lim ∧ a ≤ 61 ∧ b ≤ 2 ^ 61 := by
  have h1 : 2 ^ a ≤ lim := le_trans (Nat.le_mul_of_pos_right _ (by positivity)) h
  have h2 : 2 ^ (2 * b) ≤ lim := le_trans (Nat.le_mul_of_pos_left _ (by positivity)) h
  have h3 : 2 * b < 2 ^ (2 * b) := Nat.lt_two_pow_self
  have h4 : a < 2 ^ a := Nat.lt_two_pow_self
  refine ⟨by omega, ?_, by omega⟩
  exact (Nat.pow_le_pow_iff_right (by norm_num : 1 < 2)).1 (le_trans h1 hl)

theorem verifyLayersW_eq {lim : Nat} (hl : lim ≤ 2 ^ 61) (H : List F → F) {c : Circuit F} {proof : GkrProof F} {inputs outputs : List (List F)}
    (h : VFits lim c proof inputs outputs) : ∀ (k : Nat) (v : SumcheckVerdict F), k ≤ 2 ^ 61 → v.qPrime.length ≤ 2 ^ 61 →
    verifyLayersW lim H c proof inputs k v = verifyLayers H c proof inputs k v
  | 0, v, _, hv => by
    unfold verifyLayersW verifyLayers verifyInputsW verifyInputs
    rw [evaluateMixedChunkedW_eq _ _ _ h.nIn (le_refl _) h.inp hv]
  | k + 1, v, hk, hv => by
    unfold verifyLayersW verifyLayers
    rw [wAdd_eq (by omega)]
    refine bind_congr_go (fun cl _ => bind_congr_go (fun cr _ => ?_))
    dsimp only
    refine bind_congr_go (fun sp hsp => bind_congr_go (fun l hl0 => ?_))
    have hw := h.wires l (idx_mem_go hl0)
    have hs := h.size l (idx_mem_go hl0)
    rw [sumcheckVerifyW_eq _ _ _ _ (size_exps hl hs).2.2]
    refine bind_congr_go (fun res hres => ?_)
    cases res with
    | none => rfl
    | some v' =>
      have hv' : v'.qPrime.length ≤ 2 ^ 61 := le_trans (sumcheckVerify_qPrime hres) (h.proofs sp (idx_mem_go hsp))
      dsimp only
      rw [evaluateStaticTablesLinCombsW_eq hl hw hs, verifyLayersW_eq hl H h k v' (by omega) hv']

/-- The GKR verifier on 64 bits. -/
theorem gkrVerifyW_eq {lim : Nat} (hl : lim ≤ 2 ^ 61) (H : List F → F) {bN : Nat} {c : Circuit F} {proof : GkrProof F}
    {inputs outputs : List (List F)} (h : VFits lim c proof inputs outputs) (hb : bN ≤ lim) (hb' : bN + 61 ≤ 2 ^ 61) :
    gkrVerifyW lim H bN c proof inputs outputs = gkrVerify H bN c proof inputs outputs := by
  have hL := h.nL
  unfold gkrVerifyW gkrVerify
  dsimp only
  rw [idx_wSub_pred _ (by omega)]
  refine bind_congr_go (fun l hl0 => ?_)
  obtain ⟨h1, h2⟩ := idxPred_ok hl0
  have hw := h.wires l (idx_mem_go h2)
  have hs := h.size l (idx_mem_go h2)
  obtain ⟨s1, s2, s3⟩ := size_exps hl hs
  rw [wMake_eq (by omega) hb, wMake_eq (by omega) s1]
  simp only [ok_bind]
  rw [evaluateChunkedW_eq _ h.nOut (le_refl _) h.out (by simp [getInitialQPrimeAndQ]; omega), wSub_eq h1 (by omega)]
  refine bind_congr_go (fun claim _ => bind_congr_go (fun sp hsp => ?_))
  rw [sumcheckVerifyW_eq _ _ _ _ s3]
  refine bind_congr_go (fun res hres => ?_)
  cases res with
  | none => rfl
  | some v =>
    have hv : v.qPrime.length ≤ 2 ^ 61 := le_trans (sumcheckVerify_qPrime hres) (h.proofs sp (idx_mem_go hsp))
    have e : (sgn (wSub c.layers.length 2) + 1).toNat = c.layers.length - 1 := by
      rw [sgn_wSub (by omega) (by omega)]; omega
    dsimp only
    rw [evaluateStaticTablesW_eq hl hw hs, e, verifyLayersW_eq hl H h _ v (by omega) hv]

end GkrMimc
