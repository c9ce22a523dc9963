import Verif.Proofs.MachPipeline

/-! C63: Go's `int` has 64 bits. -/

namespace GkrMimc

open Spec

set_option linter.unusedSectionVars false

theorem sgn_bv {a : Nat} (ha : a < 2 ^ 64) : sgn a = (BitVec.ofNat 64 a).toInt := by
  rw [BitVec.toInt_eq_toNat_cond]
  simp only [BitVec.toNat_ofNat]
  unfold sgn
  rw [Nat.mod_eq_of_lt ha]
  split <;> split <;> omega

theorem reg_bv (x : Int) : reg x = (BitVec.ofInt 64 x).toNat := by
  rw [BitVec.toNat_ofInt]; rfl

theorem bv_ofInt_toInt_add (x y : BitVec 64) : BitVec.ofInt 64 (x.toInt + y.toInt) = x + y := by
  rw [BitVec.ofInt_add, BitVec.ofInt_toInt, BitVec.ofInt_toInt]
theorem bv_ofInt_toInt_mul (x y : BitVec 64) : BitVec.ofInt 64 (x.toInt * y.toInt) = x * y := by
  rw [BitVec.ofInt_mul, BitVec.ofInt_toInt, BitVec.ofInt_toInt]
theorem bv_ofInt_toInt_sub (x y : BitVec 64) : BitVec.ofInt 64 (x.toInt - y.toInt) = x - y := by
  apply BitVec.eq_of_toInt_eq
  rw [BitVec.toInt_ofInt, BitVec.toInt_sub]
theorem bv_ofInt_toInt_div (x y : BitVec 64) : BitVec.ofInt 64 (x.toInt.tdiv y.toInt) = x.sdiv y := by
  apply BitVec.eq_of_toInt_eq
  rw [BitVec.toInt_ofInt, BitVec.toInt_sdiv]
theorem bv_shl (x : BitVec 64) (k : Nat) : BitVec.ofInt 64 (x.toInt * 2 ^ k) = x <<< k := by
  rw [BitVec.ofInt_mul, BitVec.ofInt_toInt, BitVec.shiftLeft_eq_mul_twoPow]
  congr 1
  apply BitVec.eq_of_toNat_eq
  rw [BitVec.toNat_ofInt, BitVec.toNat_twoPow]
  have : ((2 : Int) ^ k) = ((2 ^ k : Nat) : Int) := by push_cast; rfl
  rw [this]
  rfl
theorem bv_shr (x : BitVec 64) : BitVec.ofInt 64 (x.toInt >>> 1) = x.sshiftRight 1 := by
  rw [BitVec.sshiftRight]

/-- C63, the arithmetic: the register operations of the model are those of 64-bit vectors in two's complement. -/
theorem C63_arith (a b : Nat) (ha : a < 2 ^ 64) (hb : b < 2 ^ 64) :
    sgn a = (BitVec.ofNat 64 a).toInt ∧
    wAdd a b = (BitVec.ofNat 64 a + BitVec.ofNat 64 b).toNat ∧
    wSub a b = (BitVec.ofNat 64 a - BitVec.ofNat 64 b).toNat ∧
    wMul a b = (BitVec.ofNat 64 a * BitVec.ofNat 64 b).toNat ∧
    (b ≠ 0 → wDiv a b = .ok ((BitVec.ofNat 64 a).sdiv (BitVec.ofNat 64 b)).toNat) ∧
    (b = 0 → wDiv a b = .error .divZero) ∧
    (b < 2 ^ 63 → wShl a b = .ok (BitVec.ofNat 64 a <<< b).toNat) ∧
    wShr1 a = ((BitVec.ofNat 64 a).sshiftRight 1).toNat := by
  refine ⟨sgn_bv ha, ?_, ?_, ?_, ?_, ?_, ?_, ?_⟩
  · unfold wAdd; rw [sgn_bv ha, sgn_bv hb, reg_bv, bv_ofInt_toInt_add]
  · unfold wSub; rw [sgn_bv ha, sgn_bv hb, reg_bv, bv_ofInt_toInt_sub]
  · unfold wMul; rw [sgn_bv ha, sgn_bv hb, reg_bv, bv_ofInt_toInt_mul]
  · intro h0
    unfold wDiv
    have : sgn b ≠ 0 := by unfold sgn; split <;> omega
    rw [if_neg this, sgn_bv ha, sgn_bv hb, reg_bv, bv_ofInt_toInt_div]
  · intro h0; subst h0; rfl
  · intro hb'
    unfold wShl
    rw [sgn_nat hb', if_neg (by omega), sgn_bv ha, reg_bv, Int.toNat_natCast, bv_shl]
  · unfold wShr1; rw [sgn_bv ha, reg_bv, bv_shr]

example : wAdd (2 ^ 63 - 1) 1 = 2 ^ 63 ∧ sgn (2 ^ 63) = -2 ^ 63 ∧ wSub 0 1 = 2 ^ 64 - 1 ∧ wMul (2 ^ 32) (2 ^ 32) = 0 := by decide

/-- C63. `make` of an `int`: it panics exactly when the number is negative as a signed 64-bit one or above the limit. -/
theorem C63_make (lim n : Nat) (hn : n < 2 ^ 64) :
    wMake lim n = (if 0 ≤ (BitVec.ofNat 64 n).toInt ∧ (BitVec.ofNat 64 n).toInt ≤ lim then .ok (BitVec.ofNat 64 n).toInt.toNat
      else .error .makeNeg) ∧
    wMake0 n = (if 0 ≤ (BitVec.ofNat 64 n).toInt then .ok (BitVec.ofNat 64 n).toInt.toNat else .error .makeNeg) := by
  unfold wMake wMake0
  rw [sgn_bv hn]
  constructor <;> split <;> split <;> first | rfl | omega

/-- `1 << 63` is negative, and a limit of `2^40` elements excludes `1 << 41`. -/
example : wMake (2 ^ 40) (2 ^ 63) = .error .makeNeg ∧ wMake (2 ^ 40) (2 ^ 41) = .error .makeNeg ∧
    wMake (2 ^ 40) (2 ^ 40) = .ok (2 ^ 40) ∧ wMake0 (2 ^ 63) = .error .makeNeg := by decide +kernel

/-- C63, package common: `Log2Floor` and `Log2Ceil` are right for every `int`, negative ones included; `IntoChunkRanges` is right
for every core count up to lengths of almost `2^62`. -/
theorem C63_common :
    (∀ a, log2FloorW a = log2Floor (sgn a)) ∧ (∀ a, log2CeilW a = .ok (log2Ceil (sgn a))) ∧
    ∀ (nCore : Int) (N : Nat), IsInt nCore → N ≤ 2 ^ 62 - 4096 → intoChunkRangesW (reg nCore) N = intoChunkRanges nCore N :=
  ⟨log2FloorW_eq, log2CeilW_eq, fun _ _ h hN => intoChunkRangesW_eq h.1 h.2 hN⟩

example : intoChunkRangesW (reg 3) 100000 = .ok [⟨0, 33333⟩, ⟨33333, 66666⟩, ⟨66666, 99999⟩, ⟨99999, 100000⟩] := by
  rw [intoChunkRangesW_eq (by norm_num) (by norm_num) (by norm_num)]; rfl

/-- Beyond the bound of `C63_common` the two differ: on two cores `2^63 - 1` items are cut into three ranges and the last one ends at a
negative number, so that the last item belongs to no range. -/
theorem C63_chunks_overflow :
    intoChunkRangesW (reg 2) (2 ^ 63 - 1) =
      .ok [⟨0, 2 ^ 62 - 1⟩, ⟨2 ^ 62 - 1, 2 ^ 63 - 2⟩, ⟨2 ^ 63 - 2, reg (-2 ^ 62 - 3)⟩] ∧
    sgn (reg (-2 ^ 62 - 3)) < 0 ∧
    intoChunkRanges 2 (2 ^ 63 - 1 : Nat) = .ok [⟨0, 2 ^ 62 - 1⟩, ⟨2 ^ 62 - 1, 2 ^ 63 - 2⟩, ⟨2 ^ 63 - 2, 2 ^ 63 - 1⟩] := by
  refine ⟨?_, ?_, ?_⟩ <;> decide +kernel

variable {F : Type} [Field F] [DecidableEq F]

/-- C63, package polynomial: the eq tables and the chunked evaluations. -/
theorem C63_tables (lim : Nat) (hl : lim ≤ 2 ^ 61) :
    (∀ q : List F, 2 ^ q.length ≤ lim → getFoldedEqTableW lim q = getFoldedEqTable q) ∧
    (∀ (q : List F) (nChunks : Nat) (nCore : Int), IsInt nCore → nChunks ≤ 2 ^ 61 → q.length ≤ 2 ^ 61 →
      2 ^ (q.length - log2Ceil (nChunks : Int)) ≤ lim → getChunkedEqTableW lim q nChunks nCore = getChunkedEqTable q nChunks nCore) ∧
    (∀ (bkts : List (Table F)) (q : List F), bkts.length ≤ 2 ^ 61 → (∀ t ∈ bkts, t.length ≤ 2 ^ 61) → q.length ≤ 2 ^ 61 →
      evaluateChunkedW bkts q = evaluateChunked bkts q) ∧
    (∀ (bkts : List (Table F)) (hP hL hR : List F), bkts.length ≤ 2 ^ 61 → (∀ t ∈ bkts, t.length ≤ 2 ^ 61) → hP.length ≤ 2 ^ 61 →
      evaluateMixedChunkedW bkts hP hL hR = evaluateMixedChunked bkts hP hL hR) :=
  ⟨fun q h => getFoldedEqTableW_eq (by omega) q h, fun q _ _ hc hn hq h => (getChunkedEqTableW_eq hl q hc hn hq h).1,
    fun _ q hb h hq => evaluateChunkedW_eq q hb (le_refl _) h hq, fun _ hP hL hR hb h hq => evaluateMixedChunkedW_eq hP hL hR hb (le_refl _) h hq⟩

/-- C63, package circuit: a circuit whose wire indices are at most `2^62`, its static tables and its values. `Evaluate` computes
`w.R*N*N`, which has to fit as well. -/
theorem C63_circuit (lim : Nat) (hl : lim ≤ 2 ^ 61) :
    (∀ wiring : List (List (Wire F)), (∀ ws ∈ wiring, ∀ w ∈ ws, w.L ≤ 2 ^ 62 ∧ w.R ≤ 2 ^ 62 ∧ w.O ≤ 2 ^ 62) →
      newCircuitW wiring = .ok (newCircuit wiring)) ∧
    (∀ (ws : List (Wire F)) (q : List F), 2 ^ (newLayer ws).bGOutputs * 2 ^ (2 * (newLayer ws).bGInputs) ≤ lim →
      getStaticTableW lim (newLayer ws) q = getStaticTable (newLayer ws) q) ∧
    (∀ (ws : List (Wire F)) (inputs : List (List F)) (nCore : Int), (newLayer ws).bGInputs ≤ 61 → (newLayer ws).bGOutputs ≤ 61 →
      (∀ inp ∈ inputs, inp.length ≤ 2 ^ 61 ∧ inp.length / 2 ^ (newLayer ws).bGInputs * 2 ^ (newLayer ws).bGOutputs ≤ lim ∧
        ∀ w ∈ ws, w.R * (inp.length / 2 ^ (newLayer ws).bGInputs) * (inp.length / 2 ^ (newLayer ws).bGInputs) ≤ 2 ^ 62) →
      (newLayer ws).evaluateW lim inputs nCore = (newLayer ws).evaluate inputs nCore) :=
  ⟨newCircuitW_eq, fun ws q h => getStaticTableW_eq hl _ q (newLayer_wiresIn ws) h,
    fun ws inputs nCore h1 h2 h => evaluateW_eq hl _ inputs nCore (newLayer_wiresIn ws) h1 h2 h⟩

theorem forN_error_first {σ : Type _} {body : Nat → σ → Go σ} {n : Nat} {s : σ} {e : Abort} (hn : 0 < n) (h : body 0 s = .error e) :
    forN n s body = .error e := by
  induction n with
  | zero => omega
  | succ n ih =>
    rw [forN_succ]
    rcases Nat.eq_zero_or_pos n with h0 | h0
    · subst h0; rw [forN_zero, ok_bind, h]
    · rw [ih h0]; rfl

/-- Beyond the bound of `C63_circuit`: one wire with right input 1 and `2^32` instances. The index `w.R*N*N` of the source is `2^64`, which
is `0` in a register. Without the limit of 64 bits `Evaluate` panics; with it, it returns the values of a wrong circuit, in
which the right input is read at 0. -/
theorem C63_evaluate_wraps (lim : Nat) (hl : 2 ^ 32 ≤ lim) (hl' : lim < 2 ^ 63) (g : Gate F) (inp : List F) (hi : inp.length = 2 ^ 33) :
    evaluateChunk (newLayer [⟨0, 1, 0, g⟩]) inp = .error .index ∧
    evaluateChunkW lim (newLayer [⟨0, 1, 0, g⟩]) inp = .ok ((List.range (2 ^ 32)).map fun h => g.eval (inp.getD h 0) (inp.getD h 0)) := by
  have e1 : (newLayer [(⟨0, 1, 0, g⟩ : Wire F)]).bGInputs = 1 := log2Ceil_two
  have e2 : (newLayer [(⟨0, 1, 0, g⟩ : Wire F)]).bGOutputs = 0 := log2Ceil_one
  have e3 : (newLayer [(⟨0, 1, 0, g⟩ : Wire F)]).wires = [⟨0, 1, 0, g⟩] := rfl
  obtain ⟨N, hN⟩ : ∃ N, N = 2 ^ 32 := ⟨_, rfl⟩
  have hlen : inp.length = 2 * N := by rw [hi, hN]; norm_num
  have hb : N < 2 ^ 33 := by rw [hN]; norm_num
  have h0 : wMul N N = 0 := by rw [hN]; decide +kernel
  have hNN : 2 * N ≤ N * N := by rw [hN]; norm_num
  have hpos : 0 < N := by rw [hN]; norm_num
  rw [← hN] at hl ⊢
  have hd : inp.length / 1 <<< 1 = N := by rw [hlen, Nat.shiftLeft_eq]; omega
  constructor
  · unfold evaluateChunk
    rw [e1, e2, e3]
    dsimp only
    rw [hd, forEach_cons, forN_error_first hpos]
    · rfl
    · dsimp only
      rw [idx_ok (by omega), ok_bind]
      have : idx inp (1 * N * N + 0) = .error .index := by
        unfold idx
        rw [List.getElem?_eq_none (by rw [one_mul]; omega)]
      rw [this]; rfl
  · have hw := evaluateChunk_wired (F := F) { wires := [⟨0, 0, 0, g⟩], gates := [g], bGInputs := 1, bGOutputs := 0 } (by intro w hw; rw [List.mem_singleton.mp hw]; simp) inp N (by simpa using hlen)
      (fun w hw => .inl (by rw [List.mem_singleton.mp hw]))
    have heq : evaluateChunkW lim (newLayer [⟨0, 1, 0, g⟩]) inp = evaluateChunk ({ wires := [⟨0, 0, 0, g⟩], gates := [g], bGInputs := 1, bGOutputs := 0 } : Layer F) inp := by
      unfold evaluateChunkW evaluateChunk
      rw [e1, e2, e3]
      have s1 : wShl 1 1 = .ok 2 := by decide
      have s2 : wShl 1 0 = .ok 1 := by decide
      dsimp only
      rw [s1, s2]
      simp only [ok_bind]
      rw [hd, wDiv_eq (by omega) (by omega), goDiv_ok (by omega)]
      simp only [ok_bind]
      rw [hlen, Nat.mul_div_cancel_left _ (by omega), wMul_eq (a := N) (b := 1) (by omega) (by omega) (by omega), mul_one, wMake_eq hl' hl]
      simp only [ok_bind]
      rw [forEach_cons, forEach_cons, wMul_eq (a := 0) (by omega) (by omega) (by omega), wMul_eq (a := 1) (by omega) (by omega) (by omega),
        one_mul, h0, wIter_eq (by omega)]
      congr 1
      · rw [Nat.shiftLeft_eq, pow_zero, mul_one, mul_one]
        refine forN_congr _ _ (fun i hi s => ?_)
        rw [Nat.zero_mul, Nat.zero_mul, wAdd_eq (by omega)]
    rw [heq, hw]
    congr 1
    unfold wiredOutputs
    dsimp only
    rw [pow_zero, one_mul]
    refine List.map_congr_left (fun h hh => ?_)
    rw [List.mem_range] at hh
    rw [Nat.div_eq_of_lt hh, Nat.mod_eq_of_lt hh]
    simp [wiredOutput]

/-- Beyond the bound of `C63_circuit`: a wire with output `2^63 - 1`. `res+1` is negative in a register, so that the layer is given
two outputs. Without the limit of 64 bits it has `2^63`. -/
theorem C63_layer_wraps (g : Gate F) : ∃ l, newLayerW [⟨0, 0, 2 ^ 63 - 1, g⟩] = .ok l ∧ l.bGOutputs = 1 ∧
    (newLayer [⟨0, 0, 2 ^ 63 - 1, g⟩]).bGOutputs = 63 := by
  have h : bGOutputsOfW [(⟨0, 0, 2 ^ 63 - 1, g⟩ : Wire F)] = .ok 1 := by
    unfold bGOutputsOfW
    simp only [List.foldl_cons, List.foldl_nil]
    decide +kernel
  refine ⟨{ wires := [⟨0, 0, 2 ^ 63 - 1, g⟩], gates := gatesOf [⟨0, 0, 2 ^ 63 - 1, g⟩], bGInputs := 0, bGOutputs := 1 }, ?_, rfl, ?_⟩
  · have h' : bGInputsOfW [(⟨0, 0, 2 ^ 63 - 1, g⟩ : Wire F)] = .ok 0 := by
      unfold bGInputsOfW
      simp only [List.foldl_cons, List.foldl_nil]
      decide +kernel
    unfold newLayerW
    rw [h, h']
    rfl
  · have e : bGOutputsOf [(⟨0, 0, 2 ^ 63 - 1, g⟩ : Wire F)] = 63 := by
      unfold bGOutputsOf
      simp only [List.foldl_cons, List.foldl_nil]
      decide +kernel
    exact e

/-- C63, package sumcheck: both provers and the verifier. -/
theorem C63_sumcheck (lim : Nat) (hl : lim ≤ 2 ^ 61) (hl' : 256 ≤ lim) (H : List F → F) :
    (∀ p : SProver F, Fits lim p → p.proveW lim H = p.prove H) ∧
    (∀ (p : MProver F) (nCore : Int), MFits lim p → p.proveW lim H nCore = p.prove H nCore) ∧
    (∀ p : SProver F, p.vL.length ≤ 2 ^ 61 → p.eq.length ≤ 2 ^ 61 →
      (p.vL.length / p.eq.length) * (p.vL.length / p.eq.length) ≤ lim → p.getClaimW lim = p.getClaim) ∧
    (∀ (claim : F) (polys : List (List F)) (bG : Nat), bG ≤ 2 ^ 61 → sumcheckVerifyW H claim polys bG = sumcheckVerify H claim polys bG) :=
  ⟨fun _ h => sproveW_eq hl hl' H h, fun _ nCore h => mproveW_eq hl hl' H h nCore, fun p h1 h2 h3 => getClaimW_eq hl p h1 h2 h3,
    fun claim polys bG h => sumcheckVerifyW_eq H claim polys bG h⟩

/-- C63, the remaining functions of the tables and of the provers: one chunk of a table, and the claim computed chunk by chunk. -/
theorem C63_chunks (lim : Nat) (hl : lim ≤ 2 ^ 61) :
    (∀ (bkt : Table F) (on nChunk : Nat), bkt.length + on < 2 ^ 63 → nChunk < 2 ^ 63 →
      interleavedChunkW bkt on nChunk = interleavedChunk bkt on nChunk) ∧
    (∀ (p : MProver F) (nCore : Int), MFits lim p →
      (∀ (i : Nat) (v e : Table F), p.vL[i]? = some v → p.eq[i]? = some e → (v.length / e.length) * (v.length / e.length) ≤ lim) →
      p.getClaimW lim nCore = p.getClaim nCore) := by
  refine ⟨fun bkt on n h hn => interleavedChunkW_eq bkt on n h hn, fun p nCore h hg => mgetClaimW_eq hl h nCore fun i v e h1 h2 => ?_⟩
  have key : ∀ {l : List (Table F)} {x : Table F}, idx l i = .ok x → l[i]? = some x := by
    intro l x hx
    unfold idx at hx
    split at hx
    · next y hy => rw [hy, Except.ok.inj hx]
    · cases hx
  exact hg i v e (key h1) (key h2)

/-- C63, package gkr: the prover on every assignment that fits, the verifier on every proof, true or false, that fits. -/
theorem C63_gkr (lim : Nat) (hl : lim ≤ 2 ^ 61) (hl' : 256 ≤ lim) (H : List F → F) :
    (∀ (p : GkrProver F) (nCore : Int), IsInt nCore → GFits lim p → p.proveW lim H nCore = p.prove H nCore) ∧
    (∀ (bN : Nat) (c : Circuit F) (proof : GkrProof F) (inputs outputs : List (List F)), bN ≤ lim → bN + 61 ≤ 2 ^ 61 →
      VFits lim c proof inputs outputs → gkrVerifyW lim H bN c proof inputs outputs = gkrVerify H bN c proof inputs outputs) :=
  ⟨fun _ _ hc h => gkrProveW_eq hl hl' H h hc, fun _ _ _ _ _ hb hb' h => gkrVerifyW_eq hl H h hb hb'⟩

/-- C63, the whole pipeline `NewCircuit`, `Assign`, `NewProver`, `Prove`, `Verify` on 64 bits: it accepts whenever the largest
static table times the number of instances is a possible length (with the restrictions of C12 and C22: the right inputs of the
wires, two chunks at least). -/
theorem C63_complete [SmallCasts F] (lim : Nat) (hl : lim ≤ 2 ^ 61) (hl' : 256 ≤ lim) (H : List F → F) (wiring : List (List (Wire F)))
    (hne : wiring ≠ []) (hnl : wiring.length ≤ 2 ^ 61)
    (hw : ∀ ws ∈ wiring, GoodWires ws) (G k m : Nat) (hk : 1 ≤ k) (hG : Chained G (newCircuit wiring).layers)
    (hR : ∀ ws ∈ wiring, ∀ w ∈ ws, w.R = 0 ∨ 2 ^ m = 1)
    (hfit : ∀ ws ∈ wiring, 2 ^ ((newLayer ws).bGOutputs + 2 * (newLayer ws).bGInputs + m + k) ≤ lim)
    (inputs : List (List F)) (hin : WellChunked k (G + m) inputs) (nCore nCore' : Int) (hc : 1 ≤ nCore)
    (hc' : 1 ≤ nCore') (hi : IsInt nCore') :
    ∃ c values outputs p proof, newCircuitW wiring = .ok c ∧ c.assignW lim inputs nCore = .ok values ∧
      values.getLast? = some outputs ∧ newGkrProverW c values = .ok p ∧ p.proveW lim H nCore' = .ok proof ∧
      gkrVerifyW lim H (m + k) c proof inputs outputs = .ok true := by
  obtain ⟨values, outputs, p, proof, h1, h2, h3, h4, h5⟩ := C22_complete_assign_partial H wiring hne hw G k m hk hG hR inputs hin
    nCore nCore' hc hc'
  have hlay : ∀ l ∈ (newCircuit wiring).layers, ∃ ws ∈ wiring, newLayer ws = l := fun l hl => List.mem_map.mp hl
  have hGb : 2 ^ (G + m + k) ≤ lim := by
    cases wiring with
    | nil => exact absurd rfl hne
    | cons ws wss =>
      have := hfit ws (by simp)
      have e : (newLayer ws).bGInputs = G := hG.1
      exact pow_le_of this (by omega)
  have hwb : ∀ ws ∈ wiring, ∀ w ∈ ws, w.L ≤ 2 ^ 61 ∧ w.R ≤ 2 ^ 61 ∧ w.O ≤ 2 ^ 61 := by
    intro ws hws w hww
    obtain ⟨a, b, c⟩ := newLayer_wiresIn ws w hww
    have h := hfit ws hws
    have h1 := pow_le_of (b := (newLayer ws).bGInputs) h (by omega)
    have h2 := pow_le_of (b := (newLayer ws).bGOutputs) h (by omega)
    omega
  have hcirc := newCircuitW_eq wiring (fun ws hws w hww => by obtain ⟨a, b, c⟩ := hwb ws hws w hww; omega)
  obtain ⟨a1, a2⟩ := assignFromW_eq hl nCore (newCircuit wiring).layers G inputs hG hin hGb (by
    intro l hll
    obtain ⟨ws, hws, rfl⟩ := hlay l hll
    refine ⟨newLayer_wiresIn ws, hfit ws hws, fun w hww => ?_⟩
    rcases hR ws hws w hww with h | h
    · rw [h]; simp
    · have := (hwb ws hws w hww).2.1
      rw [h]; omega)
  have hval : ∀ v ∈ values, ∃ g, WellChunked k (g + m) v ∧ 2 ^ (g + m + k) ≤ lim := a2 values h1
  have hv : ∀ v ∈ values, ValuesFit lim v := fun v hv => by
    obtain ⟨g, b1, b2⟩ := hval v hv
    exact valuesFit_of hl b1 b2
  have hout := hv outputs (List.mem_of_getLast? h2)
  obtain ⟨v0, v00, l0, i0, i1, i2, rfl⟩ := newGkrProver_ok h3
  have hfirst : v0 = inputs := by
    have : values.head? = some inputs := by
      cases hls : (newCircuit wiring).layers with
      | nil =>
        have h1' : assignFrom nCore (newCircuit wiring).layers inputs = .ok values := h1
        rw [hls] at h1'; cases h1'; rfl
      | cons l ls =>
        have h1' : assignFrom nCore (newCircuit wiring).layers inputs = .ok values := h1
        rw [hls, assignFrom] at h1'
        obtain ⟨_, _, h1'⟩ := bind_inv_go h1'
        obtain ⟨_, _, h1'⟩ := bind_inv_go h1'
        cases h1'; rfl
    cases values with
    | nil => cases this
    | cons x xs => cases this; cases i0; rfl
  subst hfirst
  have hb0 : l0.bGInputs = G := by
    cases hls : (newCircuit wiring).layers with
    | nil => rw [hls] at i2; cases i2
    | cons l ls =>
      rw [hls] at i2 hG
      cases i2
      exact hG.1
  have hbN : log2Ceil ((v0.length * v00.length : Nat) : Int) - l0.bGInputs = m + k := by
    rw [hin.1, hin.2 v00 (idx_mem_go i1), ← pow_add, log2Ceil_pow, hb0]; omega
  have gf : GFits lim (⟨log2Ceil ((v0.length * v00.length : Nat) : Int) - l0.bGInputs, newCircuit wiring, values⟩ : GkrProver F) := by
    rw [hbN]
    refine ⟨by simpa [newCircuit] using hnl, pow_le_of (b := m + k) hGb (by omega), fun l hll => ?_, hv⟩
    obtain ⟨ws, hws, rfl⟩ := hlay l hll
    have h := hfit ws hws
    refine ⟨newLayer_wiresIn ws, ⟨by omega, fun g hg => ?_⟩, ?_, ?_⟩
    · rw [show (newLayer ws).gates = _ from gatesOf_eq ws] at hg
      obtain ⟨w, hww, rfl⟩ := List.mem_map.mp hg
      obtain ⟨d1, d2, d3⟩ := (hw ws hws).degrees w hww
      omega
    · rw [← pow_add]; exact pow_le_of h (by omega)
    · show 2 ^ _ * 2 ^ _ * 2 ^ (m + k) ≤ 2 ^ 61
      rw [← pow_add, ← pow_add]; exact le_trans (pow_le_of h (by omega)) hl
  have vf : VFits lim (newCircuit wiring) proof v0 outputs := by
    have hiv := hv v0 (idx_mem_go i0)
    refine ⟨by simpa [newCircuit] using hnl, fun l hll => ?_, fun l hll => (gf.layers l hll).size, gkrProve_polys hl H gf hi h4,
      hiv.n, fun t ht => le_trans (hiv.le t ht) hl, hout.n, fun t ht => le_trans (hout.le t ht) hl⟩
    exact (gf.layers l hll).wires
  have hkb : m + k ≤ lim ∧ m + k + 61 ≤ 2 ^ 61 := by
    have := exp_le_61 hl hGb
    omega
  refine ⟨_, values, outputs, _, proof, hcirc, a1.trans h1, h2, ?_, (gkrProveW_eq hl hl' H gf hi).trans h4,
    (gkrVerifyW_eq hl H vf hkb.1 hkb.2).trans h5⟩
  rw [newGkrProverW_eq _ _ (fun l hll => ?_) (fun v hvm => ?_)]
  · exact h3
  · obtain ⟨ws, hws, rfl⟩ := hlay l hll
    have := exp_le_61 hl (hfit ws hws)
    omega
  · exact ⟨(hv v hvm).n, fun t ht => ⟨le_trans ((hv v hvm).le t ht) hl, (hv v hvm).tot t ht⟩⟩

/-- C63 for the MiMC circuit with the real constants and the real challenge function: on a 64-bit machine the whole pipeline accepts
up to `2^58` instances, as long as eight times the number of instances is a possible length. -/
theorem C63_mimc (lim k m : Nat) (hl : lim ≤ 2 ^ 61) (hl' : 256 ≤ lim) (hk : 1 ≤ k) (hfit : 2 ^ (3 + m + k) ≤ lim)
    (inputs : List (List Fr)) (hin : WellChunked k (1 + m) inputs)
    (nCore nCore' : Int) (hc : 1 ≤ nCore) (hc' : 1 ≤ nCore') (hi : IsInt nCore') :
    ∃ c values outputs p proof, newCircuitW (mimcWiring frString (arks.take 91)) = .ok c ∧ createMimcCircuit frString arks = .ok c ∧
      c.assignW lim inputs nCore = .ok values ∧ values.getLast? = some outputs ∧ newGkrProverW c values = .ok p ∧
      p.proveW lim mimcHash nCore' = .ok proof ∧ gkrVerifyW lim mimcHash (m + k) c proof inputs outputs = .ok true := by
  have hlen : (arks.take 91).length = 91 := by
    have := arks_length
    rw [List.length_take]; omega
  have hne : mimcWiring frString (arks.take 91) ≠ [] := by
    cases h : arks.take 91 with
    | nil => rw [h] at hlen; cases hlen
    | cons c cs => cases cs <;> simp [mimcWiring]
  have hcirc := mimc_circuit
  obtain ⟨c, values, outputs, p, proof, h1, h2, h3, h4, h5, h6⟩ := C63_complete lim hl hl' mimcHash
    (mimcWiring frString (arks.take 91)) hne
    (by
      have : ∀ cs : List Fr, (mimcWiring frString cs).length = cs.length := by
        intro cs
        induction cs with
        | nil => rfl
        | cons c cs ih =>
          cases cs with
          | nil => rfl
          | cons d cs => simp only [mimcWiring, List.length_cons] at ih ⊢; omega
      rw [this, hlen]; norm_num)
    (mimcWiring_good _ _) 1 k m hk (mimcWiring_chained _ _)
    (fun ws h w hw => .inl (mimcWiring_R _ _ ws h w hw))
    (mimcWiring_forall frString _ (fun c => by rw [mid_bGOutputs, mid_bGInputs]; exact pow_le_of hfit (by omega))
      (fun c => by rw [last_bGOutputs, last_bGInputs]; exact pow_le_of hfit (by omega)) _)
    inputs hin nCore nCore' hc hc' hi
  have e : c = newCircuit (mimcWiring frString (arks.take 91)) := by
    rw [newCircuitW_eq] at h1
    · exact (Except.ok.inj h1).symm
    · refine mimcWiring_forall frString _ (fun c w hw => ?_) (fun c w hw => ?_) _
      · simp only [mimcMidWires, List.mem_cons, List.not_mem_nil, or_false] at hw
        rcases hw with rfl | rfl <;> norm_num
      · simp only [mimcLastWires, List.mem_cons, List.not_mem_nil, or_false] at hw
        subst hw; norm_num
  subst e
  exact ⟨_, values, outputs, p, proof, h1, hcirc, h2, h3, h4, h5, h6⟩

example : ∃ c values outputs p proof, newCircuitW (mimcWiring frString (arks.take 91)) = .ok c ∧ createMimcCircuit frString arks = .ok c ∧
    c.assignW (2 ^ 42) [[1, 2, 3, 4], [5, 6, 7, 8]] 8 = .ok values ∧ values.getLast? = some outputs ∧ newGkrProverW c values = .ok p ∧
    p.proveW (2 ^ 42) mimcHash 8 = .ok proof ∧ gkrVerifyW (2 ^ 42) mimcHash 2 c proof [[1, 2, 3, 4], [5, 6, 7, 8]] outputs = .ok true :=
  C63_mimc (2 ^ 42) 1 1 (by norm_num) (by norm_num) (by norm_num) (by norm_num) _ ⟨rfl, by simp⟩ 8 8 (by norm_num) (by norm_num)
    (by constructor <;> norm_num)

/-- A sumcheck prover that fits: eight static coefficients, chunks of four. -/
example : Fits (2 ^ 42) (newSProver [1, 2, 3, 4, 5, 6, 7, 8] [1, 2, 3, 4, 5, 6, 7, 8] [1, 2, 3, 4] [copyGate] [[1, 0, 0, 1]] : SProver Fr) where
  vL := by simp [newSProver]
  vR := by simp [newSProver]
  eq := by simp [newSProver]
  st := by simp [newSProver]
  prod := by simp [newSProver]
  dL := by simp [newSProver, copyGate]
  dR := by simp [newSProver, copyGate]
  dP := by simp [newSProver, copyGate]

example : (interleavedChunkW [1, 2, 3, 4, 5, (6 : Fr)] 1 2) = .ok [2, 4, 6] ∧
    (newMProver [[1, 2, 3, 4], [5, 6, 7, 8]] [[1, 2, 3, 4], [5, 6, 7, 8]] [[1, 2], [3, 4]] [copyGate] [[1, 0, 0, 1]] : MProver Fr).getClaimW
      (2 ^ 42) 3 =
    (newMProver [[1, 2, 3, 4], [5, 6, 7, 8]] [[1, 2, 3, 4], [5, 6, 7, 8]] [[1, 2], [3, 4]] [copyGate] [[1, 0, 0, 1]] : MProver Fr).getClaim 3 := by
  refine ⟨?_, (C63_chunks (F := Fr) (2 ^ 42) (by norm_num)).2 _ 3 ?_ ?_⟩
  · rw [(C63_chunks (F := Fr) 0 (by norm_num)).1 _ _ _ (by norm_num) (by norm_num)]
    decide +kernel
  · constructor <;> simp [newMProver, GatesFit, copyGate, TabLe]
  · intro i v e hv he
    rcases i with _ | _ | i <;> simp [newMProver] at hv he
    all_goals subst hv he; norm_num

example : (newSProver [1, 2, 3, 4, 5, 6, 7, 8] [1, 2, 3, 4, 5, 6, 7, 8] [1, 2, 3, 4] [copyGate] [[1, 0, 0, 1]] : SProver Fr).getClaimW (2 ^ 42) =
    (newSProver [1, 2, 3, 4, 5, 6, 7, 8] [1, 2, 3, 4, 5, 6, 7, 8] [1, 2, 3, 4] [copyGate] [[1, 0, 0, 1]] : SProver Fr).getClaim :=
  (C63_sumcheck (2 ^ 42) (by norm_num) (by norm_num) mimcHash).2.2.1 _ (by simp [newSProver]) (by simp [newSProver]) (by simp [newSProver])

example : getChunkedEqTableW (2 ^ 42) ([3, 5, 7] : List Fr) 2 4 = getChunkedEqTable [3, 5, 7] 2 4 :=
  (C63_tables (2 ^ 42) (by norm_num)).2.1 _ _ _ (by constructor <;> norm_num) (by norm_num) (by simp) (by
    rw [show ((2 : Nat) : Int) = ((2 ^ 1 : Nat) : Int) by norm_num, log2Ceil_pow]; simp)

end GkrMimc
