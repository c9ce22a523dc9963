import Verif.Proofs.MachLayers

/-! The sumcheck provers and the sumcheck verifier on 64 bits. -/

namespace GkrMimc

set_option linter.unusedSectionVars false

variable {F : Type} [Field F] [DecidableEq F]

/-- The tables and the degrees of a prover fit the machine: no table longer than `lim`, the sumcheck over the static tables and
the chunk no longer than `2^61`. -/
structure Fits (lim : Nat) (p : SProver F) : Prop where
  vL : p.vL.length ≤ lim
  vR : p.vR.length ≤ lim
  eq : p.eq.length ≤ lim
  st : ∀ s ∈ p.statics, s.length ≤ lim
  prod : ∀ s ∈ p.statics, s.length * p.eq.length ≤ 2 ^ 61
  dL : p.degreeHL + 1 ≤ lim
  dR : p.degreeHR + 1 ≤ lim
  dP : p.degreeHPrime + 1 ≤ lim

theorem Fits.foldHL {lim : Nat} {p : SProver F} (h : Fits lim p) (r : F) : Fits lim (p.foldHL r) where
  vL := by have := h.vL; show (fold p.vL r).length ≤ lim; rw [fold_length]; omega
  vR := h.vR
  eq := h.eq
  st := by
    intro s hs
    obtain ⟨t, ht, rfl⟩ := List.mem_map.mp hs
    have := h.st t ht
    rw [fold_length]; omega
  prod := by
    intro s hs
    obtain ⟨t, ht, rfl⟩ := List.mem_map.mp hs
    rw [fold_length]
    exact le_trans (Nat.mul_le_mul_right _ (Nat.div_le_self _ _)) (h.prod t ht)
  dL := h.dL
  dR := h.dR
  dP := h.dP

theorem Fits.foldHR {lim : Nat} {p : SProver F} (h : Fits lim p) (r : F) : Fits lim (p.foldHR r) where
  vL := h.vL
  vR := by have := h.vR; show (fold p.vR r).length ≤ lim; rw [fold_length]; omega
  eq := h.eq
  st := by
    intro s hs
    obtain ⟨t, ht, rfl⟩ := List.mem_map.mp hs
    have := h.st t ht
    rw [fold_length]; omega
  prod := by
    intro s hs
    obtain ⟨t, ht, rfl⟩ := List.mem_map.mp hs
    rw [fold_length]
    exact le_trans (Nat.mul_le_mul_right _ (Nat.div_le_self _ _)) (h.prod t ht)
  dL := h.dL
  dR := h.dR
  dP := h.dP

theorem Fits.foldHPrime {lim : Nat} {p : SProver F} (h : Fits lim p) (r : F) : Fits lim (p.foldHPrime r) where
  vL := by have := h.vL; show (fold p.vL r).length ≤ lim; rw [fold_length]; omega
  vR := by have := h.vR; show (fold p.vR r).length ≤ lim; rw [fold_length]; omega
  eq := by have := h.eq; show (fold p.eq r).length ≤ lim; rw [fold_length]; omega
  st := h.st
  prod := by
    intro s hs
    show s.length * (fold p.eq r).length ≤ _
    rw [fold_length]
    exact le_trans (Nat.mul_le_mul_left _ (Nat.div_le_self _ _)) (h.prod s hs)
  dL := h.dL
  dR := h.dR
  dP := h.dP

theorem goDiv_val {a b c : Nat} (h : goDiv a b = .ok c) : 0 < b ∧ c = a / b := by
  unfold goDiv at h
  split at h
  · cases h
  · exact ⟨by omega, (Except.ok.inj h).symm⟩

theorem lt_div_mul {a n i : Nat} (hi : i < a / n) : i * n + n ≤ a := by
  have : (i + 1) * n ≤ a / n * n := Nat.mul_le_mul_right _ hi
  have := Nat.div_mul_le_self a n
  nlinarith

/-- `GetClaim` on 64 bits. -/
theorem getClaimW_eq {lim : Nat} (hl : lim ≤ 2 ^ 61) (p : SProver F) (hvL : p.vL.length ≤ 2 ^ 61) (heq : p.eq.length ≤ 2 ^ 61)
    (hg : (p.vL.length / p.eq.length) * (p.vL.length / p.eq.length) ≤ lim) : p.getClaimW lim = p.getClaim := by
  unfold SProver.getClaimW SProver.getClaim
  dsimp only
  rw [wDiv_eq (by omega) (by omega)]
  refine bind_congr_go (fun g hgo => ?_)
  obtain ⟨hn, rfl⟩ := goDiv_val hgo
  have hg1 : p.vL.length / p.eq.length ≤ p.vL.length := Nat.div_le_self _ _
  generalize hG : p.vL.length / p.eq.length = g at *
  rw [wMul_eq (a := g) (b := g) (by omega) (by omega) (by omega), wMake_eq (by omega) hg, wIter_eq (by omega), wIter_eq (by omega)]
  simp only [ok_bind]
  refine bind_congr_go (fun nz _ => bind_congr_go_left ?_)
  refine forN_congr _ _ (fun k hk s => bind_congr_go (fun e _ => forN_congr _ _ (fun i hi s => ?_)))
  have hi' := lt_div_mul (hG ▸ hi)
  rw [wMul_eq (by omega) (by omega) (by omega), wAdd_eq (by omega)]
  refine bind_congr_go (fun v _ => forN_congr _ _ (fun j hj s => ?_))
  have hj' := lt_div_mul (hG ▸ hj)
  have hij : i * g + g ≤ g * g := by nlinarith
  rw [wMul_eq (b := p.eq.length) (by omega) (by omega) (by omega), wAdd_eq (by omega),
    wMul_eq (b := g) (by omega) (by omega) (by omega), wAdd_eq (by omega)]

theorem preEvalStaticsW_eq {lim size nEvals : Nat} (hl : lim < 2 ^ 63) (hs : size ≤ lim) (hn : nEvals ≤ lim)
    (statics : List (Table F)) : preEvalStaticsW lim statics size nEvals = preEvalStatics statics size nEvals := by
  unfold preEvalStaticsW preEvalStatics
  rw [wMake_eq hl hs, wMake_eq hl hn]
  rfl

theorem accumulateEvalsOnHLW_eq {lim : Nat} (hl : lim ≤ 2 ^ 61) {p : SProver F} (h : Fits lim p) (ev : List (List (List F)))
    (nz : List (List Bool)) : p.accumulateEvalsOnHLW lim ev nz = p.accumulateEvalsOnHL ev nz := by
  have h1 := h.vL
  have h2 := h.vR
  have h3 := h.eq
  have h4 := h.dL
  unfold SProver.accumulateEvalsOnHLW SProver.accumulateEvalsOnHL
  dsimp only
  rw [wDiv_eq (by omega) (by omega)]
  refine bind_congr_go (fun g hgo => bind_congr_go (fun st0 hst => ?_))
  obtain ⟨hn, rfl⟩ := goDiv_val hgo
  have hg1 : p.vR.length / p.eq.length ≤ p.vR.length := Nat.div_le_self _ _
  have hs1 := h.st st0 (idx_mem_go hst)
  have hs2 := h.prod st0 (idx_mem_go hst)
  generalize hG : p.vR.length / p.eq.length = g at *
  rw [wDiv_eq (by omega) (by omega)]
  refine bind_congr_go (fun len hlen => ?_)
  obtain ⟨hg0, rfl⟩ := goDiv_val hlen
  have hd1 : st0.length / g * g ≤ st0.length := Nat.div_mul_le_self _ _
  have hd2 : st0.length / g ≤ st0.length := Nat.div_le_self _ _
  have hd3 : st0.length / g * p.eq.length ≤ 2 ^ 61 := le_trans (Nat.mul_le_mul_right _ hd2) hs2
  generalize hLen : st0.length / g = len at *
  rw [wAdd_eq (by omega), wMake_eq (by omega) h4]
  simp only [ok_bind]
  rw [wMul_eq (a := len) (b := g) (by omega) (by omega) (by omega), wHalf_eq (by omega), wMake_eq (by omega) (by omega),
    wHalf_eq (a := p.vL.length) (by omega), wHalf_eq (a := len) (by omega), wIter_eq (by omega), wIter_eq (by omega)]
  simp only [ok_bind]
  refine bind_congr_go_left ?_
  refine forN_congr _ _ (fun k hk s => bind_congr_go (fun e _ => forN_congr _ _ (fun i hi s => ?_)))
  have hi' : i < len := by omega
  have hi1 : i * p.eq.length + p.eq.length ≤ 2 ^ 61 := by nlinarith
  have hi2 : i * g + g ≤ lim := by nlinarith
  rw [wMul_eq (b := p.eq.length) (by omega) (by omega) (by omega), wAdd_eq (a := i * p.eq.length) (by omega), wAdd_eq (by omega)]
  refine bind_congr_go (fun v0 _ => bind_congr_go (fun v1 _ => forN_congr _ _ (fun j hj s => ?_)))
  have hj' := lt_div_mul (hG ▸ hj)
  rw [wMul_eq (b := p.eq.length) (by omega) (by omega) (by omega), wAdd_eq (by omega),
    wMul_eq (b := g) (by omega) (by omega) (by omega), wAdd_eq (by omega)]

theorem getEvalsOnHLW_eq {lim : Nat} (hl : lim ≤ 2 ^ 61) {p : SProver F} (h : Fits lim p) : p.getEvalsOnHLW lim = p.getEvalsOnHL := by
  have h1 := h.vL
  have h2 := h.vR
  have h3 := h.eq
  have h4 := h.dL
  unfold SProver.getEvalsOnHLW SProver.getEvalsOnHL
  dsimp only
  rw [wDiv_eq (by omega) (by omega)]
  refine bind_congr_go (fun g hgo => bind_congr_go (fun st0 hst => ?_))
  obtain ⟨hn, rfl⟩ := goDiv_val hgo
  have hg1 : p.vR.length / p.eq.length ≤ p.vR.length := Nat.div_le_self _ _
  have hs1 := h.st st0 (idx_mem_go hst)
  generalize hG : p.vR.length / p.eq.length = g at *
  rw [wDiv_eq (by omega) (by omega)]
  refine bind_congr_go (fun len hlen => ?_)
  obtain ⟨hg0, rfl⟩ := goDiv_val hlen
  have hd1 : st0.length / g * g ≤ st0.length := Nat.div_mul_le_self _ _
  have hd2 : st0.length / g ≤ st0.length := Nat.div_le_self _ _
  generalize hLen : st0.length / g = len at *
  rw [wMul_eq (a := len) (b := g) (by omega) (by omega) (by omega), wHalf_eq (by omega), wAdd_eq (by omega),
    preEvalStaticsW_eq (by omega) (by omega) h4]
  refine bind_congr_go (fun x _ => ?_)
  exact accumulateEvalsOnHLW_eq hl h _ _

theorem accumulateEvalsOnHRW_eq {lim : Nat} (hl : lim ≤ 2 ^ 61) {p : SProver F} (h : Fits lim p) (ev : List (List (List F)))
    (nz : List (List Bool)) : p.accumulateEvalsOnHRW lim nz ev = p.accumulateEvalsOnHR nz ev := by
  have h2 := h.vR
  have h3 := h.eq
  have h4 := h.dR
  unfold SProver.accumulateEvalsOnHRW SProver.accumulateEvalsOnHR
  dsimp only
  rw [wDiv_eq (by omega) (by omega)]
  refine bind_congr_go (fun g hgo => ?_)
  obtain ⟨hn, rfl⟩ := goDiv_val hgo
  have hg1 : p.vR.length / p.eq.length ≤ p.vR.length := Nat.div_le_self _ _
  generalize hG : p.vR.length / p.eq.length = g at *
  rw [wAdd_eq (by omega), wMake_eq (by omega) h4]
  simp only [ok_bind]
  rw [wHalf_eq (a := g) (by omega), wMake_eq (by omega) (by omega), wHalf_eq (by omega), wIter_eq (by omega)]
  simp only [ok_bind]
  refine bind_congr_go_left ?_
  refine forN_congr _ _ (fun k hk s => bind_congr_go (fun e _ => bind_congr_go (fun e _ => forN_congr _ _ (fun i hi s => ?_))))
  have hi' : i < g := by omega
  have hi1 := lt_div_mul (hG ▸ hi')
  rw [wMul_eq (b := p.eq.length) (by omega) (by omega) (by omega), wAdd_eq (a := i * p.eq.length) (by omega), wAdd_eq (by omega)]

theorem getEvalsOnHRW_eq {lim : Nat} (hl : lim ≤ 2 ^ 61) {p : SProver F} (h : Fits lim p) : p.getEvalsOnHRW lim = p.getEvalsOnHR := by
  have h2 := h.vR
  have h3 := h.eq
  have h4 := h.dR
  unfold SProver.getEvalsOnHRW SProver.getEvalsOnHR
  dsimp only
  rw [wDiv_eq (by omega) (by omega)]
  refine bind_congr_go (fun g hgo => ?_)
  obtain ⟨hn, rfl⟩ := goDiv_val hgo
  have hg1 : p.vR.length / p.eq.length ≤ p.vR.length := Nat.div_le_self _ _
  generalize hG : p.vR.length / p.eq.length = g at *
  rw [wHalf_eq (by omega), wAdd_eq (by omega), preEvalStaticsW_eq (by omega) (by omega) h4]
  refine bind_congr_go (fun x _ => ?_)
  exact accumulateEvalsOnHRW_eq hl h _ _

theorem getEvalsOnHPrimeW_eq {lim : Nat} (hl : lim ≤ 2 ^ 61) {p : SProver F} (h3 : p.eq.length ≤ 2 ^ 61) (h4 : p.degreeHPrime + 1 ≤ lim) :
    p.getEvalsOnHPrimeW lim = p.getEvalsOnHPrime := by
  unfold SProver.getEvalsOnHPrimeW SProver.getEvalsOnHPrime SProver.accumulateEvalsOnHPrimeW SProver.accumulateEvalsOnHPrime
  dsimp only
  refine bind_congr_go (fun sv _ => ?_)
  rw [wAdd_eq (by omega), wMake_eq (by omega) h4]
  simp only [ok_bind]
  rw [wHalf_eq (by omega), wIter_eq (by omega)]
  refine bind_congr_go_left ?_
  refine forN_congr _ _ (fun k hk s => ?_)
  rw [wAdd_eq (by omega)]

/-- Rounds with methods that agree on the states reached. -/
theorem rounds_congr (H : List F → F) {ev ev' : SProver F → Go (List F)} {foldX : SProver F → F → SProver F}
    (P : SProver F → Prop) (hf : ∀ p r, P p → P (foldX p r)) (he : ∀ p, P p → ev p = ev' p) (k : Nat) (p : SProver F) (hp : P p) :
    rounds H ev foldX k p = rounds H ev' foldX k p ∧ ∀ x, rounds H ev' foldX k p = .ok x → P x.1 := by
  unfold rounds
  refine forN_congr_inv (fun s : SProver F × List (List F) × List F => P s.1) k _ hp ?_ ?_
  · intro i _ s s' hs h
    cases h1 : ev' s.1 with
    | error e => rw [h1] at h; cases h
    | ok e =>
      rw [h1] at h
      simp only [ok_bind] at h
      cases h2 : interpolateOnRange e with
      | error e => rw [h2] at h; cases h
      | ok c =>
        rw [h2] at h
        cases h
        exact hf _ _ hs
  · intro i _ s hs
    rw [he _ hs]

theorem le_pow_log2Ceil {b : Nat} (hb : 1 ≤ b) : b ≤ 2 ^ log2Ceil (b : Int) := by
  obtain ⟨h1, h2⟩ := log2Floor_spec_nat b hb
  unfold log2Ceil
  dsimp only
  split
  · exact le_of_lt h2
  · rename_i hne
    rw [Nat.shiftLeft_eq, one_mul, not_not] at hne
    exact le_of_eq (by exact_mod_cast hne)

theorem log2Ceil_mono {a b : Nat} (ha : 1 ≤ a) (h : a ≤ b) : log2Ceil (a : Int) ≤ log2Ceil (b : Int) := by
  rcases Nat.eq_zero_or_pos (log2Ceil (b : Int)) with h0 | h0
  · have := le_pow_log2Ceil (le_trans ha h)
    rw [h0, pow_zero] at this
    have e : a = b := by omega
    rw [e]
  · exact log2Ceil_le_of_le h0 (le_trans h (le_pow_log2Ceil (le_trans ha h)))

theorem sgn_diff {a b : Nat} (ha : a < 2 ^ 63) (hb : b < 2 ^ 63) : (sgn a - sgn b).toNat = a - b := by
  rw [sgn_nat ha, sgn_nat hb]; omega

/-- `SingleThreadedProver.Prove` on 64 bits. -/
theorem sproveW_eq {lim : Nat} (hl : lim ≤ 2 ^ 61) (hl' : 256 ≤ lim) (H : List F → F) {p : SProver F} (h : Fits lim p) :
    p.proveW lim H = p.prove H := by
  have h2 := h.vR
  have h3 := h.eq
  unfold SProver.proveW SProver.prove
  dsimp only
  rw [wDiv_eq (by omega) (by omega)]
  refine bind_congr_go (fun g hgo => ?_)
  obtain ⟨hn, rfl⟩ := goDiv_val hgo
  have hg1 : p.vR.length / p.eq.length ≤ p.vR.length := Nat.div_le_self _ _
  generalize hG : p.vR.length / p.eq.length = g at *
  rw [log2CeilW_nat (by omega), log2CeilW_nat (by omega)]
  simp only [ok_bind]
  have hb1 : log2Ceil (p.eq.length : Int) ≤ 63 := log2Ceil_le (by omega)
  have hb2 : log2Ceil (g : Int) ≤ 63 := log2Ceil_le (by omega)
  generalize log2Ceil (p.eq.length : Int) = bN at *
  generalize log2Ceil (g : Int) = bG at *
  rw [wMul_eq (by omega) (by omega) (by omega), wAdd_eq (by omega), wMake_eq (by omega) (by omega), wIter_eq (by omega),
    sgn_diff (by omega) (by omega), sgn_diff (by omega) (by omega)]
  simp only [ok_bind]
  have e1 : 2 * bG - bG = bG := by omega
  have e2 : bN + 2 * bG - 2 * bG = bN := by omega
  rw [e1, e2]
  obtain ⟨r1, f1⟩ := rounds_congr H (Fits lim) (fun p r hp => hp.foldHL r) (fun p hp => getEvalsOnHLW_eq hl hp) bG p h
  rw [r1]
  refine bind_congr_go (fun x hx => ?_)
  obtain ⟨r2, f2⟩ := rounds_congr H (Fits lim) (fun p r hp => hp.foldHR r) (fun p hp => getEvalsOnHRW_eq hl hp) bG x.1 (f1 x hx)
  rw [r2]
  refine bind_congr_go (fun y hy => ?_)
  obtain ⟨r3, _⟩ := rounds_congr H (Fits lim) (fun p r hp => hp.foldHPrime r)
    (fun p hp => getEvalsOnHPrimeW_eq hl (le_trans hp.eq hl) hp.dP) bN y.1 (f2 y hy)
  rw [r3]

/-- The degrees of the gates fit: two more than each is a possible length. -/
def GatesFit (lim : Nat) (gates : List (Gate F)) : Prop :=
  2 ≤ lim ∧ ∀ g ∈ gates, g.degHL + 2 ≤ lim ∧ g.degHR + 2 ≤ lim ∧ g.degHPrime + 2 ≤ lim

theorem foldl_max_le_fits (f : Gate F → Nat) (m : Nat) : ∀ (gs : List (Gate F)) (d : Nat), d ≤ m → (∀ g ∈ gs, f g ≤ m) →
    gs.foldl (fun d g => max d (f g)) d ≤ m
  | [], _, hd, _ => hd
  | g :: gs, d, hd, h => by
    rw [List.foldl_cons]
    exact foldl_max_le_fits f m gs _ (max_le hd (h g (by simp))) (fun x hx => h x (by simp [hx]))

theorem newSProver_degrees {lim : Nat} {gates : List (Gate F)} (h : GatesFit lim gates) (vL vR eq : Table F) (st : List (Table F)) :
    (newSProver vL vR eq gates st).degreeHL + 1 ≤ lim ∧ (newSProver vL vR eq gates st).degreeHR + 1 ≤ lim ∧
      (newSProver vL vR eq gates st).degreeHPrime + 1 ≤ lim := by
  obtain ⟨h0, h⟩ := h
  have a := foldl_max_le_fits (F := F) (fun g => g.degHL) (lim - 2) gates 0 (by omega) (fun g hg => by have := (h g hg).1; omega)
  have b := foldl_max_le_fits (F := F) (fun g => g.degHR) (lim - 2) gates 0 (by omega) (fun g hg => by have := (h g hg).2.1; omega)
  have c := foldl_max_le_fits (F := F) (fun g => g.degHPrime) (lim - 2) gates 0 (by omega) (fun g hg => by have := (h g hg).2.2; omega)
  unfold newSProver
  dsimp only at a b c ⊢
  omega

/-- The tables of a multi-threaded prover fit the machine. -/
structure MFits (lim : Nat) (p : MProver F) : Prop where
  n : p.eq.length ≤ 2 ^ 61
  vL : TabLe lim p.vL
  vR : TabLe lim p.vR
  eq : TabLe lim p.eq
  tot : ∀ t ∈ p.eq, p.eq.length * t.length ≤ 2 ^ 61
  totL : ∀ t ∈ p.vL, p.eq.length * t.length ≤ 2 ^ 61
  st : ∀ s ∈ p.statics, s.length ≤ lim
  prod : ∀ s ∈ p.statics, ∀ e ∈ p.eq, s.length * e.length ≤ 2 ^ 61
  gates : GatesFit lim p.gates

theorem subProver_ok {p : MProver F} {i : Nat} {sp : SProver F} (h : p.subProver i = .ok sp) :
    ∃ vL vR eq, idx p.vL i = .ok vL ∧ idx p.vR i = .ok vR ∧ idx p.eq i = .ok eq ∧ sp = newSProver vL vR eq p.gates p.statics := by
  unfold MProver.subProver at h
  cases h1 : idx p.vL i with
  | error e => rw [h1] at h; cases h
  | ok vL =>
    rw [h1] at h
    simp only [ok_bind] at h
    cases h2 : idx p.vR i with
    | error e => rw [h2] at h; cases h
    | ok vR =>
      rw [h2] at h
      simp only [ok_bind] at h
      cases h3 : idx p.eq i with
      | error e => rw [h3] at h; cases h
      | ok eq =>
        rw [h3] at h
        cases h
        exact ⟨_, _, _, rfl, rfl, rfl, rfl⟩

theorem subProver_fits {lim : Nat} {p : MProver F} (h : MFits lim p) {i : Nat} {sp : SProver F} (hs : p.subProver i = .ok sp) :
    Fits lim sp ∧ sp.gates = p.gates := by
  obtain ⟨vL, vR, eq, h1, h2, h3, rfl⟩ := subProver_ok hs
  obtain ⟨d1, d2, d3⟩ := newSProver_degrees h.gates vL vR eq p.statics
  exact ⟨⟨h.vL _ (idx_mem_go h1), h.vR _ (idx_mem_go h2), h.eq _ (idx_mem_go h3), h.st, fun s hs => h.prod s hs _ (idx_mem_go h3), d1, d2, d3⟩, rfl⟩

theorem dimsW_eq {lim : Nat} (hl : lim ≤ 2 ^ 61) {sp : SProver F} (h : Fits lim sp) : sp.dimsW = sp.dims := by
  have h2 := h.vR
  have h3 := h.eq
  unfold SProver.dimsW SProver.dims
  dsimp only
  rw [wDiv_eq (by omega) (by omega)]
  refine bind_congr_go (fun g hgo => ?_)
  obtain ⟨hn, rfl⟩ := goDiv_val hgo
  have hg1 : sp.vR.length / sp.eq.length ≤ sp.vR.length := Nat.div_le_self _ _
  rw [log2CeilW_nat (by omega), log2CeilW_nat (by omega)]
  rfl

theorem workerEvalsW_eq {lim : Nat} (hl : lim ≤ 2 ^ 61) {sp : SProver F} (h : Fits lim sp) (bG k : Nat) :
    workerEvalsW lim bG k sp = workerEvals bG k sp := by
  unfold workerEvalsW workerEvals
  rw [getEvalsOnHLW_eq hl h, getEvalsOnHRW_eq hl h, getEvalsOnHPrimeW_eq hl (le_trans h.eq hl) h.dP]

theorem workerFold_fits {lim : Nat} {sp : SProver F} (h : Fits lim sp) (bG k : Nat) (r : F) :
    Fits lim (workerFold bG k sp r) ∧ (workerFold bG k sp r).gates = sp.gates := by
  unfold workerFold
  split
  · exact ⟨h.foldHL r, rfl⟩
  · split
    · exact ⟨h.foldHR r, rfl⟩
    · exact ⟨h.foldHPrime r, rfl⟩

theorem setIdx_length' {α : Type} {xs ys : List α} {i : Nat} {x : α} (h : setIdx xs i x = .ok ys) : ys.length = xs.length := by
  unfold setIdx at h
  split at h
  · cases h; simp
  · cases h

theorem merge_fits {n : Nat} {l : List (Nat × SProver F)} {q : SProver F} (h : consumeMergeProvers n l = .ok q) :
    ∃ m ∈ l, ∃ vL vR eq, vL.length = n ∧ vR.length = n ∧ eq.length = n ∧ q = newSProver vL vR eq m.2.gates m.2.statics := by
  cases l with
  | nil => cases h
  | cons m ms =>
    refine ⟨m, by simp, ?_⟩
    unfold consumeMergeProvers at h
    dsimp only at h
    revert h
    refine fun h => ?_
    have inv := (forEach_congr_inv (f := fun (ip : Nat × SProver F) (s : List F × List F × List F) => (do
          let l ← idx ip.2.vL 0
          let a ← setIdx s.1 ip.1 l
          let r ← idx ip.2.vR 0
          let b ← setIdx s.2.1 ip.1 r
          let e ← idx ip.2.eq 0
          let c ← setIdx s.2.2 ip.1 e
          return (a, b, c) : Go (List F × List F × List F)))
        (g := fun (ip : Nat × SProver F) (s : List F × List F × List F) => (do
          let l ← idx ip.2.vL 0
          let a ← setIdx s.1 ip.1 l
          let r ← idx ip.2.vR 0
          let b ← setIdx s.2.1 ip.1 r
          let e ← idx ip.2.eq 0
          let c ← setIdx s.2.2 ip.1 e
          return (a, b, c)))
        (fun s => s.1.length = n ∧ s.2.1.length = n ∧ s.2.2.length = n) (m :: ms)
        (List.replicate n (0 : F), List.replicate n (0 : F), List.replicate n (0 : F)) (by simp) (by
          intro ip _ s s' hs hb
          cases h1 : idx ip.2.vL 0 with
          | error e => rw [h1] at hb; cases hb
          | ok l =>
          rw [h1] at hb; simp only [ok_bind] at hb
          cases h2 : setIdx s.1 ip.1 l with
          | error e => rw [h2] at hb; cases hb
          | ok a =>
          rw [h2] at hb; simp only [ok_bind] at hb
          cases h3 : idx ip.2.vR 0 with
          | error e => rw [h3] at hb; cases hb
          | ok r =>
          rw [h3] at hb; simp only [ok_bind] at hb
          cases h4 : setIdx s.2.1 ip.1 r with
          | error e => rw [h4] at hb; cases hb
          | ok b =>
          rw [h4] at hb; simp only [ok_bind] at hb
          cases h5 : idx ip.2.eq 0 with
          | error e => rw [h5] at hb; cases hb
          | ok e =>
          rw [h5] at hb; simp only [ok_bind] at hb
          cases h6 : setIdx s.2.2 ip.1 e with
          | error e => rw [h6] at hb; cases hb
          | ok c =>
          rw [h6] at hb
          cases hb
          exact ⟨(setIdx_length' h2).trans hs.1, (setIdx_length' h4).trans hs.2.1, (setIdx_length' h6).trans hs.2.2⟩)
        (fun _ _ _ _ => rfl)).2
    cases hf : forEach (m :: ms) (List.replicate n (0 : F), List.replicate n (0 : F), List.replicate n (0 : F))
        (fun (ip : Nat × SProver F) (s : List F × List F × List F) => (do
          let l ← idx ip.2.vL 0
          let a ← setIdx s.1 ip.1 l
          let r ← idx ip.2.vR 0
          let b ← setIdx s.2.1 ip.1 r
          let e ← idx ip.2.eq 0
          let c ← setIdx s.2.2 ip.1 e
          return (a, b, c))) with
    | error e => rw [hf] at h; cases h
    | ok s =>
      rw [hf] at h
      cases h
      obtain ⟨a, b, c⟩ := inv s hf
      exact ⟨_, _, _, a, b, c, rfl⟩

/-- `MultiThreadedProver.Prove` on 64 bits. -/
theorem mproveW_eq {lim : Nat} (hl : lim ≤ 2 ^ 61) (hl' : 256 ≤ lim) (H : List F → F) {p : MProver F} (h : MFits lim p) (nCore : Int) :
    p.proveW lim H nCore = p.prove H nCore := by
  have hn := h.n
  unfold MProver.proveW MProver.prove
  dsimp only
  refine bind_congr_go (fun eq0 he => ?_)
  have t1 := h.tot _ (idx_mem_go he)
  have t2 := h.eq _ (idx_mem_go he)
  have hpos : 0 < p.eq.length := List.length_pos_of_mem (idx_mem_go he)
  rw [wMul_eq (a := p.eq.length) (b := eq0.length) (by omega) (by omega) (by omega)]
  refine bind_congr_go (fun vL0 hv => ?_)
  have t3 := h.totL _ (idx_mem_go hv)
  have t4 := h.vL _ (idx_mem_go hv)
  rw [wMul_eq (a := p.eq.length) (b := vL0.length) (by omega) (by omega) (by omega), wDiv_eq (by omega) (by omega)]
  refine bind_congr_go (fun g hgo => ?_)
  obtain ⟨hn0, rfl⟩ := goDiv_val hgo
  have hg1 : p.eq.length * vL0.length / (p.eq.length * eq0.length) ≤ p.eq.length * vL0.length := Nat.div_le_self _ _
  have hmono : log2Ceil (p.eq.length : Int) ≤ log2Ceil ((p.eq.length * eq0.length : Nat) : Int) := by
    refine log2Ceil_mono hpos ?_
    have : p.eq.length * 1 ≤ p.eq.length * eq0.length := Nat.mul_le_mul_left _ (by
      rcases Nat.eq_zero_or_pos eq0.length with h0 | h0
      · rw [h0] at hn0; omega
      · exact h0)
    omega
  generalize hG : p.eq.length * vL0.length / (p.eq.length * eq0.length) = g at *
  rw [log2CeilW_nat (by omega), log2CeilW_nat (by omega), log2CeilW_nat (by omega)]
  simp only [ok_bind]
  have hb1 : log2Ceil ((p.eq.length * eq0.length : Nat) : Int) ≤ 63 := log2Ceil_le (by omega)
  have hb2 : log2Ceil (g : Int) ≤ 63 := log2Ceil_le (by omega)
  generalize log2Ceil ((p.eq.length * eq0.length : Nat) : Int) = bN at *
  generalize log2Ceil (g : Int) = bG at *
  generalize log2Ceil (p.eq.length : Int) = lc at *
  rw [wMul_eq (by omega) (by omega) (by omega), wAdd_eq (a := bN) (by omega), wAdd_eq (a := 2 * bG) (by omega),
    wSub_eq (by omega) (by omega), wMake_eq (by omega) (by omega), wIter_eq (a := bG) (by omega), wIter_eq (by omega),
    wIter_eq (by omega), sgn_diff (by omega) (by omega)]
  simp only [ok_bind]
  have e1 : bN + 2 * bG - (2 * bG + bN - lc) = lc := by omega
  rw [e1]
  refine bind_congr_go (fun _ _ => bind_congr_go (fun ws hws => ?_))
  have hW : ∀ w ∈ ws, Fits lim w ∧ w.gates = p.gates := by
    intro w hw
    obtain ⟨i, hi⟩ := genM_mem _ _ _ hws w hw
    exact subProver_fits h hi
  rw [mapGo_congr (fun w hw => dimsW_eq hl (hW w hw).1)]
  refine bind_congr_go (fun ds _ => ?_)
  split
  · rfl
  · obtain ⟨r1, f1⟩ := forN_congr_inv (fun s : List (SProver F) × List (List F) × List F => ∀ w ∈ s.1, Fits lim w ∧ w.gates = p.gates)
      (2 * bG + bN - lc) (ws, ([] : List (List F)), ([] : List F)) hW
      (body := fun k s => (do
        let msgs ← mapGo (fun x => workerEvalsW lim x.2.1 k x.1) (s.1.zip ds)
        let evals ← consumeAccumulate msgs
        let c ← interpolateOnRange evals
        let r := H c
        return ((s.1.zip ds).map (fun x => workerFold x.2.1 k x.1 r), s.2.1 ++ [c], s.2.2 ++ [r])))
      (body' := fun k s => (do
        let msgs ← mapGo (fun x => workerEvals x.2.1 k x.1) (s.1.zip ds)
        let evals ← consumeAccumulate msgs
        let c ← interpolateOnRange evals
        let r := H c
        return ((s.1.zip ds).map (fun x => workerFold x.2.1 k x.1 r), s.2.1 ++ [c], s.2.2 ++ [r])))
      (by
        intro k _ s s' hs hb
        cases h1 : mapGo (fun x : SProver F × (Nat × Nat) => workerEvals x.2.1 k x.1) (s.1.zip ds) with
        | error e => rw [h1] at hb; cases hb
        | ok msgs =>
        rw [h1] at hb; simp only [ok_bind] at hb
        cases h2 : consumeAccumulate msgs with
        | error e => rw [h2] at hb; cases hb
        | ok evals =>
        rw [h2] at hb; simp only [ok_bind] at hb
        cases h3 : interpolateOnRange evals with
        | error e => rw [h3] at hb; cases hb
        | ok c =>
        rw [h3] at hb
        cases hb
        intro w hw
        obtain ⟨x, hx, rfl⟩ := List.mem_map.mp hw
        obtain ⟨a, b⟩ := hs x.1 (List.of_mem_zip hx).1
        obtain ⟨c, d⟩ := workerFold_fits a x.2.1 k _
        exact ⟨c, d.trans b⟩)
      (by
        intro k _ s hs
        rw [mapGo_congr (fun x hx => workerEvalsW_eq hl (hs x.1 (List.of_mem_zip hx).1).1 x.2.1 k)])
    rw [r1]
    refine bind_congr_go (fun s hs => bind_congr_go (fun q hq => ?_))
    obtain ⟨m, hm, vL, vR, eq, l1, l2, l3, rfl⟩ := merge_fits hq
    have hgm := (f1 s hs m.2 (List.of_mem_zip hm).2).2
    obtain ⟨d1, d2, d3⟩ := newSProver_degrees h.gates vL vR eq m.2.statics
    rw [← hgm] at d3
    obtain ⟨r2, _⟩ := rounds_congr H (fun q => q.eq.length ≤ 2 ^ 61 ∧ q.degreeHPrime + 1 ≤ lim)
      (foldX := SProver.foldHPrime)
      (fun p r hp => ⟨by show (fold p.eq r).length ≤ _; rw [fold_length]; have := hp.1; omega, hp.2⟩)
      (fun p hp => getEvalsOnHPrimeW_eq hl hp.1 hp.2) lc (newSProver vL vR eq m.2.gates m.2.statics) ⟨by show eq.length ≤ _; omega, d3⟩
    rw [r2]

theorem mgetClaimW_eq {lim : Nat} (hl : lim ≤ 2 ^ 61) {p : MProver F} (h : MFits lim p) (nCore : Int)
    (hg : ∀ i v e, idx p.vL i = .ok v → idx p.eq i = .ok e → (v.length / e.length) * (v.length / e.length) ≤ lim) :
    p.getClaimW lim nCore = p.getClaim nCore := by
  unfold MProver.getClaimW MProver.getClaim
  dsimp only
  refine bind_congr_go (fun _ _ => forN_congr _ _ (fun i _ s => bind_congr_go (fun sp hs => ?_)))
  have hf := (subProver_fits h hs).1
  obtain ⟨vL, vR, eq, h1, h2, h3, rfl⟩ := subProver_ok hs
  rw [getClaimW_eq hl _ (le_trans hf.vL hl) (le_trans hf.eq hl) (hg i _ _ h1 h3)]

/-- `sumcheck.Verifier.Verify` on 64 bits. -/
theorem sumcheckVerifyW_eq (H : List F → F) (claim : F) (pc : List (List F)) (bG : Nat) (h : bG ≤ 2 ^ 61) :
    sumcheckVerifyW H claim pc bG = sumcheckVerify H claim pc bG := by
  unfold sumcheckVerifyW sumcheckVerify
  rw [wMul_eq (by omega) (by omega) (by omega)]
  rfl

end GkrMimc
