import Verif.Model.UnitTests

/-! Model of what the gadgets under `snark/` give to gnark when a circuit is compiled, i.e. without any value: variables are linear
expressions in numbered wires, `cs.Mul` makes a new wire with one constraint, `cs.AssertIsEqual` one assertion. (gnark is outside of
/repo; the closing multiplication by 1, snark/polynomial/univariate.go:48, suggests that multiplying by a constant makes a wire too;
this is an assumption.) -/

namespace GkrMimc

variable {F : Type} [Field F]

/-- A linear expression: a constant and terms (coefficient and wire). -/
structure Lin (F : Type) where
  const : F
  terms : List (F × Nat)

/-- A constraint `l * r = o`. -/
structure R1C (F : Type) where
  l : Lin F
  r : Lin F
  o : Lin F

/-- The code of a gadget at compile time: given the number of the next wire it panics, or returns a result, the number of the next
wire, the constraints of the multiplications and the assertions. -/
def Bld (F α : Type) : Type := Nat → Except Abort (α × Nat × List (R1C F) × List (R1C F))

namespace Bld

/-- Returns `a`. -/
protected def pure {α : Type} (a : α) : Bld F α := fun n => .ok (a, n, [], [])

/-- One piece of code after another. -/
protected def bind {α β : Type} (x : Bld F α) (f : α → Bld F β) : Bld F β := fun n =>
  match x n with
  | .error e => .error e
  | .ok (a, n, gs, cs) =>
    match f a n with
    | .error e => .error e
    | .ok (b, n, gs', cs') => .ok (b, n, gs ++ gs', cs ++ cs')

instance : Monad (Bld F) where
  pure := Bld.pure
  bind := Bld.bind

/-- Go code outside the constraint system. -/
def go {α : Type} (x : Go α) : Bld F α := fun n =>
  match x with
  | .error e => .error e
  | .ok a => .ok (a, n, [], [])

/-- `for i := 0; i < n; i++ { s = body(i, s) }`. -/
def forN {σ : Type} (n : Nat) (s : σ) (body : Nat → σ → Bld F σ) : Bld F σ :=
  (List.range n).foldlM (fun s i => body i s) s

end Bld

/-- `cs.Constant(x)`. -/
def Lin.ofConst (x : F) : Lin F := ⟨x, []⟩

/-- The variable of a wire. -/
def Lin.wire (i : Nat) : Lin F := ⟨0, [(1, i)]⟩

/-- `cs.Add(a, b)`. -/
def Lin.add (a b : Lin F) : Lin F := ⟨a.const + b.const, a.terms ++ b.terms⟩

/-- `cs.Add(a, b, more...)`. -/
def Lin.adds (a b : Lin F) (more : List (Lin F)) : Lin F := more.foldl Lin.add (a.add b)

/-- `cs.Sub(a, b)`. -/
def Lin.sub (a b : Lin F) : Lin F := ⟨a.const - b.const, a.terms ++ b.terms.map fun t => (-t.1, t.2)⟩

/-- `cs.Mul(a, b)`. -/
def Bld.mul (a b : Lin F) : Bld F (Lin F) := fun n => .ok (Lin.wire n, n + 1, [⟨a, b, Lin.wire n⟩], [])

/-- `cs.AssertIsEqual(a, b)`. -/
def Bld.assertIsEqual (a b : Lin F) : Bld F Unit := fun n => .ok ((), n, [], [⟨a, Lin.ofConst 1, b⟩])

/-! ### Package `snark/hash` -/

/-- `MimcHash`, snark/hash/mimc.go:10-27. -/
def bldMimcHash (arks : List F) (stream : List (Lin F)) : Bld F (Lin F) :=
  stream.foldlM (fun state m => do
    let oldState := state
    let state ← Bld.forN mimcRounds state fun i state => do
      let ark ← Bld.go (idx arks i)
      let state := m.adds state [Lin.ofConst ark]
      let tmp ← Bld.mul state state
      let tmp ← Bld.mul state tmp
      let tmp ← Bld.mul tmp tmp
      Bld.mul state tmp
    return state.adds oldState [m]) (Lin.ofConst 0)

/-! ### Package `snark/polynomial` -/

/-- `UnivariateEqEval`, snark/polynomial/eq.go:9-15. -/
def bldUnivariateEqEval (q h : Lin F) : Bld F (Lin F) := do
  let res := Lin.ofConst 1
  let res := res.sub q
  let res := res.sub h
  let m ← Bld.mul q h
  let m ← Bld.mul (Lin.ofConst 2) m
  return res.add m

/-- `EqEval`, snark/polynomial/eq.go:18-25. -/
def bldEqEval (qPrime hPrime : List (Lin F)) : Bld F (Lin F) :=
  Bld.forN qPrime.length (Lin.ofConst 1) fun i res => do
    let q ← Bld.go (idx qPrime i)
    let h ← Bld.go (idx hPrime i)
    let e ← bldUnivariateEqEval q h
    Bld.mul res e

/-- `Fold`, snark/polynomial/multilinear.go:54-67; the new `Table` is returned. -/
def bldFold (table : List (Lin F)) (x : Lin F) : Bld F (List (Lin F)) := do
  let k := table.length / 2
  let table ← Bld.forN k table fun i table => do
    let top ← Bld.go (idx table (i + k))
    let bot ← Bld.go (idx table i)
    let tmpLinExp := top.sub bot
    let tmp ← Bld.mul tmpLinExp x
    Bld.go (setIdx table i (bot.add tmp))
  Bld.go (sliceTo table k)

/-- `Eval`, snark/polynomial/multilinear.go:70-77 (works on a deep copy, 47-51). -/
def bldEval (table : List (Lin F)) (xs : List (Lin F)) : Bld F (Lin F) := do
  let f ← xs.foldlM bldFold table
  Bld.go (idx f 0)

/-- `EvalMixed`, snark/polynomial/multilinear.go:82-99. -/
def bldEvalMixed (table : List (Lin F)) (qL qR qPrime : List (Lin F)) : Bld F (Lin F × Lin F) := do
  let nChunks := 2 ^ qL.length
  let chunkSize := table.length / nChunks
  let intermediate ← Bld.forN nChunks [] fun i acc => do
    let chunk ← Bld.go (sliceBetween table (i * chunkSize) ((i + 1) * chunkSize))
    let v ← bldEval chunk qPrime
    return acc ++ [v]
  let l ← bldEval intermediate qL
  let r ← bldEval intermediate qR
  return (l, r)

/-- `Eval`, snark/polynomial/univariate.go:36-49. -/
def bldUniEval (coeffs : List (Lin F)) (x : Lin F) : Bld F (Lin F) := do
  let n := coeffs.length
  let s ← Bld.forN n (Lin.ofConst 0, Lin.ofConst 0) fun j s => do
    let i := n - 1 - j
    let res ← if i ≠ n - 1 then Bld.mul s.2 x else pure s.1
    let c ← Bld.go (idx coeffs i)
    return (res, res.add c)
  Bld.mul s.2 (Lin.ofConst 1)

/-- `ZeroAndOne`, snark/polynomial/univariate.go:52-63. -/
def bldZeroAndOne (coeffs : List (Lin F)) : Bld F (Lin F) := do
  let c0 ← Bld.go (idx coeffs 0)
  let c0' ← Bld.go (idx coeffs 0)
  let rest ← Bld.go (sliceFrom coeffs 1)
  return c0.adds c0' rest

/-! ### Package `snark/sumcheck` -/

/-- `AssertValid`, snark/sumcheck/sumcheck.go:51-72. -/
def bldSumcheckAssertValid (arks : List F) (hPolys : List (List (Lin F))) (initialClaim : Lin F) (bG : Nat) :
    Bld F (SumcheckVerdict (Lin F)) := do
  let (claim, hs) ← hPolys.foldlM (fun (s : Lin F × List (Lin F)) poly => do
    let zeroAndOne ← bldZeroAndOne poly
    Bld.assertIsEqual zeroAndOne s.1
    let h ← bldMimcHash arks poly
    let claim ← bldUniEval poly h
    return (claim, s.2 ++ [h])) (initialClaim, [])
  let hL ← Bld.go (sliceTo hs bG)
  let hR ← Bld.go (sliceBetween hs bG (2 * bG))
  let hPrime ← Bld.go (sliceFrom hs (2 * bG))
  return ⟨hPrime, hL, hR, claim⟩

/-! ### Package `snark/gkr` -/

/-- `CipherGate`, snark/gkr/gate.go:12-21. -/
def bldCipherGate (ark : F) (vL vR : Lin F) : Bld F (Lin F) := do
  let tmp := vR.add (Lin.ofConst ark)
  let cipher ← Bld.mul tmp tmp
  let cipher ← Bld.mul cipher tmp
  let cipher ← Bld.mul cipher cipher
  let cipher ← Bld.mul cipher tmp
  return cipher.add vL

/-- `CopyGate`, snark/gkr/gate.go:24-28. -/
def bldCopyGate (vL _vR : Lin F) : Bld F (Lin F) := return vL

/-- `GetCopyTable`, snark/gkr/mimc.go:49-56. -/
def bldCopyTable (q : List (Lin F)) : Bld F (List (Lin F)) := do
  let q0 ← Bld.go (idx q 0)
  return [Lin.ofConst 0, Lin.ofConst 0, q0, Lin.ofConst 0]

/-- `GetCipherTable`, snark/gkr/mimc.go:59-66. -/
def bldCipherTable (q : List (Lin F)) : Bld F (List (Lin F)) := do
  let q0 ← Bld.go (idx q 0)
  return [Lin.ofConst 0, Lin.ofConst 0, (Lin.ofConst 1).sub q0, Lin.ofConst 0]

/-- `GetFinalCipherTable`, snark/gkr/mimc.go:69-76. -/
def bldFinalCipherTable (_q : List (Lin F)) : Bld F (List (Lin F)) :=
  return [Lin.ofConst 0, Lin.ofConst 0, Lin.ofConst 1, Lin.ofConst 0]

/-- `Layer`, snark/gkr/circuit.go:16-21. -/
structure BldLayer (F : Type) where
  degHL : Nat
  degHR : Nat
  degHPrime : Nat
  bG : Nat
  gates : List (Lin F → Lin F → Bld F (Lin F))
  staticTable : List (List (Lin F) → Bld F (List (Lin F)))

/-- `Circuit`, snark/gkr/circuit.go:10-13. -/
structure BldCircuit (F : Type) where
  layers : List (BldLayer F)
  bGOut : Nat

/-- `CreateMimcCircuit`, snark/gkr/mimc.go:11-46. -/
def bldMimcCircuit (arks : List F) : Go (BldCircuit F) := do
  let nLayers := mimcRounds
  let layers ← gen (nLayers - 1) fun i => do
    let ark ← idx arks i
    return ⟨2, 8, 8, 1, [bldCipherGate ark, bldCopyGate], [bldCipherTable, bldCopyTable]⟩
  let ark ← idx arks (nLayers - 1)
  return ⟨layers ++ [⟨2, 8, 8, 1, [bldCipherGate ark], [bldFinalCipherTable]⟩], 0⟩

/-- `Combine`, snark/gkr/circuit.go:24-37. -/
def BldLayer.combine (l : BldLayer F) (q qPrime hL hR hPrime : List (Lin F)) (vL vR : Lin F) : Bld F (Lin F) := do
  let hLhR := hL ++ hR
  let res ← Bld.forN l.gates.length (Lin.ofConst 0) fun i res => do
    let gen ← Bld.go (idx l.staticTable i)
    let tab ← gen q
    let t ← bldEval tab hLhR
    let gate ← Bld.go (idx l.gates i)
    let g ← gate vL vR
    let m ← Bld.mul t g
    return res.add m
  let e ← bldEqEval qPrime hPrime
  Bld.mul res e

/-- `CombineWithLinearComb`, snark/gkr/circuit.go:41-59. -/
def BldLayer.combineWithLinearComb (l : BldLayer F) (qL qR qPrime hL hR hPrime : List (Lin F))
    (lambdaL lambdaR vL vR : Lin F) : Bld F (Lin F) := do
  let hLhR := hL ++ hR
  let res ← Bld.forN l.gates.length (Lin.ofConst 0) fun i res => do
    let gen ← Bld.go (idx l.staticTable i)
    let tabL ← gen qL
    let tabR ← gen qR
    let tL ← bldEval tabL hLhR
    let mL ← Bld.mul lambdaL tL
    let tR ← bldEval tabR hLhR
    let mR ← Bld.mul lambdaR tR
    let tabEval := mL.add mR
    let gate ← Bld.go (idx l.gates i)
    let g ← gate vL vR
    let m ← Bld.mul tabEval g
    return res.add m
  let e ← bldEqEval qPrime hPrime
  Bld.mul res e

/-- The loop of `AssertValid`, part of `AssertValid`, snark/gkr/proof.go:72-92, for the layers `k-1, …, 0`. -/
def bldLayers (arks : List F) (c : BldCircuit F) (proof : GkrProof (Lin F)) :
    Nat → SumcheckVerdict (Lin F) → Bld F (SumcheckVerdict (Lin F))
  | 0, v => return v
  | layer + 1, v => do
    let lambdaL := Lin.ofConst 1
    let cl ← Bld.go (idx proof.claimsLeft (layer + 1))
    let cr ← Bld.go (idx proof.claimsRight (layer + 1))
    let lambdaR ← bldMimcHash arks [cl, cr]
    let m ← Bld.mul lambdaR cr
    let claim := cl.add m
    let sp ← Bld.go (idx proof.sumcheckProofs layer)
    let l ← Bld.go (idx c.layers layer)
    let v' ← bldSumcheckAssertValid arks sp claim l.bG
    let vl ← Bld.go (idx proof.claimsLeft layer)
    let vr ← Bld.go (idx proof.claimsRight layer)
    let actual ← l.combineWithLinearComb v.qL v.qR v.qPrime v'.qL v'.qR v'.qPrime lambdaL lambdaR vl vr
    Bld.assertIsEqual v'.finalClaim actual
    bldLayers arks c proof layer v'

/-- `AssertValid`, snark/gkr/proof.go:51-99. -/
def bldAssertValid (arks : List F) (c : BldCircuit F) (proof : GkrProof (Lin F)) (qInitial qPrimeInitial : List (Lin F))
    (vInput vOutput : List (Lin F)) : Bld F Unit := do
  let nLayers := mimcRounds
  let qqPrime := qInitial ++ qPrimeInitial
  let claim ← bldEval vOutput qqPrime
  let sp ← Bld.go (idx proof.sumcheckProofs (nLayers - 1))
  let l ← Bld.go (idx c.layers (nLayers - 1))
  let v ← bldSumcheckAssertValid arks sp claim l.bG
  let vl ← Bld.go (idx proof.claimsLeft (nLayers - 1))
  let vr ← Bld.go (idx proof.claimsRight (nLayers - 1))
  let actual ← l.combine qInitial qPrimeInitial v.qL v.qR v.qPrime vl vr
  Bld.assertIsEqual v.finalClaim actual
  let v ← bldLayers arks c proof (nLayers - 1) v
  let cl ← Bld.go (idx proof.claimsLeft 0)
  let cr ← Bld.go (idx proof.claimsRight 0)
  let (expectedVL, expectedVR) ← bldEvalMixed vInput v.qL v.qR v.qPrime
  Bld.assertIsEqual expectedVL cl
  Bld.assertIsEqual expectedVR cr

/-! ### The circuits of the tests and benchmarks -/

variable {α : Type}

/-- The variables of a slice, numbered from `n` on. -/
def wiresFor (n : Nat) (xs : List α) : List (Lin F) := (List.range xs.length).map fun i => Lin.wire (n + i)

/-- The variables of a slice of slices, numbered from `n` on. -/
def wiresFor2 : Nat → List (List α) → List (List (Lin F))
  | _, [] => []
  | n, xs :: xss => wiresFor n xs :: wiresFor2 (n + xs.length) xss

/-- The variables of the sumcheck proofs, numbered from `n` on. -/
def wiresFor3 : Nat → List (List (List α)) → List (List (List (Lin F)))
  | _, [] => []
  | n, xss :: xsss => wiresFor2 n xss :: wiresFor3 (n + xss.flatten.length) xsss

/-- The variables of `GKRMimcTestCircuit` in the order of the fields, snark/gkr/mimc_test.go:20-25, snark/gkr/proof.go:17-21. -/
def GkrMimcTestCircuit.vars (c : GkrMimcTestCircuit F α) : List α :=
  c.proof.sumcheckProofs.flatten.flatten ++ (c.proof.claimsLeft ++ (c.proof.claimsRight ++ (c.qInitial ++ (c.qInitialprime ++
    (c.vInput ++ c.vOutput)))))

/-- `frontend.Compile` of a `GKRMimcTestCircuit`, e.g. snark/gkr/mimc_test.go:68-71: numbers the variables and calls `Define`,
snark/gkr/mimc_test.go:53-56. Returns the number of wires, the constraints of the multiplications and the assertions. -/
def GkrMimcTestCircuit.compile (arks : List F) (c : GkrMimcTestCircuit F α) : Go (Nat × List (R1C F) × List (R1C F)) := do
  let b ← bldMimcCircuit arks
  let n1 := c.proof.sumcheckProofs.flatten.flatten.length
  let n2 := n1 + c.proof.claimsLeft.length
  let n3 := n2 + c.proof.claimsRight.length
  let n4 := n3 + c.qInitial.length
  let n5 := n4 + c.qInitialprime.length
  let n6 := n5 + c.vInput.length
  let (_, m, gs, cs) ← bldAssertValid arks b
    ⟨wiresFor3 0 c.proof.sumcheckProofs, wiresFor n1 c.proof.claimsLeft, wiresFor n2 c.proof.claimsRight⟩
    (wiresFor n3 c.qInitial) (wiresFor n4 c.qInitialprime) (wiresFor n5 c.vInput) (wiresFor n6 c.vOutput) c.vars.length
  return (m, gs, cs)

/-- The variables of `TestMimcCircuit` in the order of the fields, snark/hash/mimc_test.go:17-20. -/
def HashTestCircuit.vars (c : HashTestCircuit α) : List α := c.x.flatten ++ c.y

/-- `Define`, snark/hash/mimc_test.go:22-28. -/
def bldHashTest (arks : List F) (c : HashTestCircuit (Lin F)) : Bld F Unit :=
  Bld.forN c.x.length () fun k _ => do
    let xk ← Bld.go (idx c.x k)
    let y ← bldMimcHash arks xk
    let yk ← Bld.go (idx c.y k)
    Bld.assertIsEqual yk y

/-- `frontend.Compile` of a `TestMimcCircuit`, e.g. snark/hash/mimc_test.go:80. -/
def HashTestCircuit.compile (arks : List F) (c : HashTestCircuit α) : Go (Nat × List (R1C F) × List (R1C F)) := do
  let (_, m, gs, cs) ← bldHashTest arks ⟨wiresFor2 0 c.x, wiresFor c.x.flatten.length c.y⟩ c.vars.length
  return (m, gs, cs)

end GkrMimc
