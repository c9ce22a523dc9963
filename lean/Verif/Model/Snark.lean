import Verif.Model.Gkr
import Verif.Model.Mimc

/-! Model of the packages under `snark/`. A gadget is run on the values that a witness gives to its variables: the
operations of the constraint system are the field operations, and the result carries the list of the equalities asserted
with `AssertIsEqual`. No definition compares field elements, so which equalities are asserted depends on the shapes only,
as in the source, where variables are opaque. -/

namespace GkrMimc

variable {F : Type} [Field F]

/-- A gadget run: a panic, or a result with the asserted pairs in order. -/
def Cs (F α : Type) : Type := Except Abort (α × List (F × F))

namespace Cs

/-- The gadget returning `a` without assertion. -/
protected def pure {α : Type} (a : α) : Cs F α := Except.ok (a, [])

/-- One gadget after another. -/
protected def bind {α β : Type} (x : Cs F α) (f : α → Cs F β) : Cs F β :=
  match x with
  | .error e => .error e
  | .ok (a, as) =>
    match f a with
    | .error e => .error e
    | .ok (b, bs) => .ok (b, as ++ bs)

instance : Monad (Cs F) where
  pure := Cs.pure
  bind := Cs.bind

/-- Go code outside the constraint system: slices, indices, panics. -/
def go {α : Type} (x : Go α) : Cs F α :=
  match x with
  | .error e => .error e
  | .ok a => .ok (a, [])

/-- `cs.AssertIsEqual(a, b)`. -/
def assertIsEqual (a b : F) : Cs F Unit := Except.ok ((), [(a, b)])

/-- `for i := 0; i < n; i++ { s = body(i, s) }`. -/
def forN {σ : Type} (n : Nat) (s : σ) (body : Nat → σ → Cs F σ) : Cs F σ :=
  (List.range n).foldlM (fun s i => body i s) s

end Cs

/-- `cs.Constant(x)`. -/
def csConst (x : F) : F := x

/-- `cs.Add(a, b, more...)`. -/
def csAdd (a b : F) (more : List F := []) : F := more.foldl (· + ·) (a + b)

/-- `cs.Sub(a, b)`. -/
def csSub (a b : F) : F := a - b

/-- `cs.Mul(a, b)`. -/
def csMul (a b : F) : F := a * b

/-! ### Package `snark/hash` -/

/-- `MimcHash`, snark/hash/mimc.go:10-27. -/
def snarkMimcHash (arks : List F) (stream : List F) : Cs F F :=
  stream.foldlM (fun state m => do
    let oldState := state
    let state ← Cs.forN mimcRounds state fun i state => do
      let ark ← Cs.go (idx arks i)
      let state := csAdd m state [csConst ark]
      let tmp := csMul state state
      let tmp := csMul state tmp
      let tmp := csMul tmp tmp
      return csMul state tmp
    return csAdd state oldState [m]) (csConst 0)

/-! ### Package `snark/polynomial` -/

/-- `UnivariateEqEval`, snark/polynomial/eq.go:9-15. -/
def univariateEqEval (q h : F) : F :=
  let res := csConst 1
  let res := csSub res q
  let res := csSub res h
  csAdd res (csMul (csConst 2) (csMul q h))

/-- `EqEval`, snark/polynomial/eq.go:18-25. -/
def eqEvalGadget (qPrime hPrime : List F) : Cs F F :=
  Cs.forN qPrime.length (csConst 1) fun i res => do
    let q ← Cs.go (idx qPrime i)
    let h ← Cs.go (idx hPrime i)
    return csMul res (univariateEqEval q h)

/-- `MultilinearByValues.Fold`, snark/polynomial/multilinear.go:54-67; the new `Table` is returned. -/
def mlFold (table : List F) (x : F) : Cs F (List F) := do
  let k := table.length / 2
  let table ← Cs.forN k table fun i table => do
    let top ← Cs.go (idx table (i + k))
    let bot ← Cs.go (idx table i)
    let tmpLinExp := csSub top bot
    let tmp := csMul tmpLinExp x
    Cs.go (setIdx table i (csAdd bot tmp))
  Cs.go (sliceTo table k)

/-- `MultilinearByValues.Eval`, snark/polynomial/multilinear.go:70-77 (works on a deep copy). -/
def mlEval (table : List F) (xs : List F) : Cs F F := do
  let f ← xs.foldlM mlFold table
  Cs.go (idx f 0)

/-- `MultilinearByValues.EvalMixed`, snark/polynomial/multilinear.go:82-99. -/
def mlEvalMixed (table : List F) (qL qR qPrime : List F) : Cs F (F × F) := do
  let nChunks := 2 ^ qL.length
  let chunkSize := table.length / nChunks
  let intermediate ← Cs.forN nChunks [] fun i acc => do
    let chunk ← Cs.go (sliceBetween table (i * chunkSize) ((i + 1) * chunkSize))
    let v ← mlEval chunk qPrime
    return acc ++ [v]
  let l ← mlEval intermediate qL
  let r ← mlEval intermediate qR
  return (l, r)

/-- `Univariate.Eval`, snark/polynomial/univariate.go:36-49. The loop goes from the last coefficient to the first. -/
def uniEval (coeffs : List F) (x : F) : Cs F F := do
  let n := coeffs.length
  let s ← Cs.forN n (csConst 0, csConst 0) fun j s => do
    let i := n - 1 - j
    let res := if i ≠ n - 1 then csMul s.2 x else s.1
    let c ← Cs.go (idx coeffs i)
    return (res, csAdd res c)
  return csMul s.2 (csConst 1)

/-- `Univariate.ZeroAndOne`, snark/polynomial/univariate.go:52-63. -/
def uniZeroAndOne (coeffs : List F) : Cs F F := do
  let c0 ← Cs.go (idx coeffs 0)
  let c0' ← Cs.go (idx coeffs 0)
  let rest ← Cs.go (sliceFrom coeffs 1)
  return csAdd c0 c0' rest

/-! ### Package `snark/sumcheck` -/

/-- `Proof.AssertValid`, snark/sumcheck/sumcheck.go:51-72. Returns `(hL, hR, hPrime, lastClaim)`. -/
def sumcheckAssertValid (arks : List F) (hPolys : List (List F)) (initialClaim : F) (bG : Nat) :
    Cs F (SumcheckVerdict F) := do
  let (claim, hs) ← hPolys.foldlM (fun (s : F × List F) poly => do
    let zeroAndOne ← uniZeroAndOne poly
    Cs.assertIsEqual zeroAndOne s.1
    let h ← snarkMimcHash arks poly
    let claim ← uniEval poly h
    return (claim, s.2 ++ [h])) (initialClaim, [])
  let hL ← Cs.go (sliceTo hs bG)
  let hR ← Cs.go (sliceBetween hs bG (2 * bG))
  let hPrime ← Cs.go (sliceFrom hs (2 * bG))
  return ⟨hPrime, hL, hR, claim⟩

/-! ### Package `snark/gkr` -/

/-- `CipherGate`, snark/gkr/gate.go:12-21. -/
def snarkCipherGate (ark vL vR : F) : Cs F F :=
  let tmp := csAdd vR (csConst ark)
  let cipher := csMul tmp tmp
  let cipher := csMul cipher tmp
  let cipher := csMul cipher cipher
  let cipher := csMul cipher tmp
  pure (csAdd cipher vL)

/-- `CopyGate`, snark/gkr/gate.go:24-28. -/
def snarkCopyGate (vL _vR : F) : Cs F F := pure vL

/-- `GetCopyTable`, snark/gkr/mimc.go:49-56. -/
def getCopyTable (q : List F) : Cs F (List F) := do
  let q0 ← Cs.go (idx q 0)
  return [csConst 0, csConst 0, q0, csConst 0]

/-- `GetCipherTable`, snark/gkr/mimc.go:59-66. -/
def getCipherTable (q : List F) : Cs F (List F) := do
  let q0 ← Cs.go (idx q 0)
  return [csConst 0, csConst 0, csSub 1 q0, csConst 0]

/-- `GetFinalCipherTable`, snark/gkr/mimc.go:69-76. -/
def getFinalCipherTable (_q : List F) : Cs F (List F) :=
  return [csConst 0, csConst 0, csConst 1, csConst 0]

/-- `Layer`, snark/gkr/circuit.go:16-21; `Gate` is snark/gkr/gate.go:9 and `StaticTableGenerator`
snark/gkr/static.go:10. -/
structure SnarkLayer (F : Type) where
  degHL : Nat
  degHR : Nat
  degHPrime : Nat
  bG : Nat
  gates : List (F → F → Cs F F)
  staticTable : List (List F → Cs F (List F))

/-- `Circuit`, snark/gkr/circuit.go:10-13. -/
structure SnarkCircuit (F : Type) where
  layers : List (SnarkLayer F)
  bGOut : Nat

/-- `CreateMimcCircuit`, snark/gkr/mimc.go:11-46. -/
def createSnarkMimcCircuit (arks : List F) : Go (SnarkCircuit F) := do
  let nLayers := mimcRounds
  let layers ← gen (nLayers - 1) fun i => do
    let ark ← idx arks i
    return ⟨2, 8, 8, 1, [snarkCipherGate ark, snarkCopyGate], [getCipherTable, getCopyTable]⟩
  let ark ← idx arks (nLayers - 1)
  return ⟨layers ++ [⟨2, 8, 8, 1, [snarkCipherGate ark], [getFinalCipherTable]⟩], 0⟩

/-- `Combine`, snark/gkr/circuit.go:24-37. -/
def SnarkLayer.combine (l : SnarkLayer F) (q qPrime hL hR hPrime : List F) (vL vR : F) : Cs F F := do
  let hLhR := hL ++ hR
  let res ← Cs.forN l.gates.length (csConst 0) fun i res => do
    let gen ← Cs.go (idx l.staticTable i)
    let tab ← gen q
    let t ← mlEval tab hLhR
    let gate ← Cs.go (idx l.gates i)
    let g ← gate vL vR
    return csAdd res (csMul t g)
  let e ← eqEvalGadget qPrime hPrime
  return csMul res e

/-- `CombineWithLinearComb`, snark/gkr/circuit.go:41-59. -/
def SnarkLayer.combineWithLinearComb (l : SnarkLayer F) (qL qR qPrime hL hR hPrime : List F)
    (lambdaL lambdaR vL vR : F) : Cs F F := do
  let hLhR := hL ++ hR
  let res ← Cs.forN l.gates.length (csConst 0) fun i res => do
    let gen ← Cs.go (idx l.staticTable i)
    let tabL ← gen qL
    let tabR ← gen qR
    let tL ← mlEval tabL hLhR
    let tR ← mlEval tabR hLhR
    let tabEval := csAdd (csMul lambdaL tL) (csMul lambdaR tR)
    let gate ← Cs.go (idx l.gates i)
    let g ← gate vL vR
    return csAdd res (csMul tabEval g)
  let e ← eqEvalGadget qPrime hPrime
  return csMul res e

/-- The loop of `AssertValid`, snark/gkr/proof.go:72-92, for the layers `k-1, …, 0`; `v` holds `hL, hR, hPrime` of
layer `k`. -/
def snarkLayers (arks : List F) (c : SnarkCircuit F) (proof : GkrProof F) :
    Nat → SumcheckVerdict F → Cs F (SumcheckVerdict F)
  | 0, v => return v
  | layer + 1, v => do
    let lambdaL := csConst 1
    let cl ← Cs.go (idx proof.claimsLeft (layer + 1))
    let cr ← Cs.go (idx proof.claimsRight (layer + 1))
    let lambdaR ← snarkMimcHash arks [cl, cr]
    let claim := csAdd cl (csMul lambdaR cr)
    let sp ← Cs.go (idx proof.sumcheckProofs layer)
    let l ← Cs.go (idx c.layers layer)
    let v' ← sumcheckAssertValid arks sp claim l.bG
    let vl ← Cs.go (idx proof.claimsLeft layer)
    let vr ← Cs.go (idx proof.claimsRight layer)
    let actual ← l.combineWithLinearComb v.qL v.qR v.qPrime v'.qL v'.qR v'.qPrime lambdaL lambdaR vl vr
    Cs.assertIsEqual v'.finalClaim actual
    snarkLayers arks c proof layer v'

/-- `AssertValid`, snark/gkr/proof.go:51-99 (`Proof` 17-21, whose variables here hold values; `nLayers` is the constant
of line 13). -/
def snarkAssertValid (arks : List F) (c : SnarkCircuit F) (proof : GkrProof F) (qInitial qPrimeInitial : List F)
    (vInput vOutput : List F) : Cs F Unit := do
  let nLayers := mimcRounds
  let qqPrime := qInitial ++ qPrimeInitial
  let claim ← mlEval vOutput qqPrime
  let sp ← Cs.go (idx proof.sumcheckProofs (nLayers - 1))
  let l ← Cs.go (idx c.layers (nLayers - 1))
  let v ← sumcheckAssertValid arks sp claim l.bG
  let vl ← Cs.go (idx proof.claimsLeft (nLayers - 1))
  let vr ← Cs.go (idx proof.claimsRight (nLayers - 1))
  let actual ← l.combine qInitial qPrimeInitial v.qL v.qR v.qPrime vl vr
  Cs.assertIsEqual v.finalClaim actual
  let v ← snarkLayers arks c proof (nLayers - 1) v
  let cl ← Cs.go (idx proof.claimsLeft 0)
  let cr ← Cs.go (idx proof.claimsRight 0)
  let (expectedVL, expectedVR) ← mlEvalMixed vInput v.qL v.qR v.qPrime
  Cs.assertIsEqual expectedVL cl
  Cs.assertIsEqual expectedVR cr

/-! ### Allocation and assignment of the gadget's variables: a slot is empty until it is assigned -/

/-- `frontend.Variable.Assign`; assigning twice is taken to panic. -/
def slotAssign (slot : Option F) (x : F) : Go (Option F) :=
  match slot with
  | none => .ok (some x)
  | some _ => .error (.explicit "variable already assigned")

/-- `xs[i].Assign(x)`. -/
def slotsAssign (xs : List (Option F)) (i : Nat) (x : F) : Go (List (Option F)) := do
  let s ← idx xs i
  let s' ← slotAssign s x
  setIdx xs i s'

/-- `AllocateMultilinear`, snark/polynomial/multilinear.go:16-19. -/
def allocateMultilinear (nVars : Nat) : List (Option F) := List.replicate (2 ^ nVars) none

/-- `MultilinearByValues.Assign`, snark/polynomial/multilinear.go:22-29. -/
def mlAssign (table : List (Option F)) (values : List F) : Go (List (Option F)) :=
  if values.length ≠ table.length then .error (.explicit "Inconsistent assignment")
  else forN values.length table fun i t => do
    let c ← idx values i
    slotsAssign t i c

/-- `AssignFromChunkedBKT`, snark/polynomial/multilinear.go:32-39. -/
def assignFromChunkedBKT (table : List (Option F)) (values : List (List F)) : Go (List (Option F)) :=
  let nChunks := values.length
  forN values.length table fun b t => do
    let chunk ← idx values b
    forN chunk.length t fun i t => do
      let x ← idx chunk i
      slotsAssign t (b + i * nChunks) x

/-- `AllocateUnivariate`, snark/polynomial/univariate.go:21-23. -/
def allocateUnivariate (degree : Nat) : List (Option F) := List.replicate (degree + 1) none

/-- `Univariate.Assign`, snark/polynomial/univariate.go:26-33. -/
def uniAssign (u : List (Option F)) (coeffs : List F) : Go (List (Option F)) :=
  if coeffs.length ≠ u.length then .error (.explicit "Inconsistent assignment for univariate poly")
  else forN coeffs.length u fun i u => do
    let c ← idx coeffs i
    slotsAssign u i c

/-- `AllocateProof` of snark/sumcheck, snark/sumcheck/sumcheck.go:21-36. The three loops fill consecutive ranges. -/
def sumcheckAllocateProof (bN bG degHL degHR degHPrime : Nat) : List (List (Option F)) :=
  List.replicate bG (allocateUnivariate degHL) ++ List.replicate bG (allocateUnivariate degHR) ++
    List.replicate bN (allocateUnivariate degHPrime)

/-- `Proof.Assign` of snark/sumcheck, snark/sumcheck/sumcheck.go:39-48. -/
def sumcheckAssign (p : List (List (Option F))) (proof : List (List F)) : Go (List (List (Option F))) :=
  if proof.length ≠ p.length then .error (.explicit "Inconsistent assignment lenght")
  else forN proof.length p fun i p => do
    let poly ← idx proof i
    let u ← idx p i
    let u' ← uniAssign u poly
    setIdx p i u'

/-- `AllocateProof`, snark/gkr/proof.go:24-39. -/
def snarkAllocateProof (bN : Nat) (c : SnarkCircuit F) : GkrProof (Option F) where
  sumcheckProofs := c.layers.map fun l => sumcheckAllocateProof bN l.bG l.degHL l.degHR l.degHPrime
  claimsLeft := List.replicate c.layers.length none
  claimsRight := List.replicate c.layers.length none

/-- `Proof.Assign`, snark/gkr/proof.go:42-48. -/
def snarkAssign (p : GkrProof (Option F)) (proof : GkrProof F) : Go (GkrProof (Option F)) :=
  forN p.sumcheckProofs.length p fun k p => do
    let s ← idx p.sumcheckProofs k
    let sp ← idx proof.sumcheckProofs k
    let s' ← sumcheckAssign s sp
    let sps ← setIdx p.sumcheckProofs k s'
    let cl ← idx proof.claimsLeft k
    let cls ← slotsAssign p.claimsLeft k cl
    let cr ← idx proof.claimsRight k
    let crs ← slotsAssign p.claimsRight k cr
    return ⟨sps, cls, crs⟩

/-- `GKRMimcTestCircuit`, snark/gkr/mimc_test.go:20-25, the circuit in which the repository uses the gadget; `α` is the type of the
slots of its variables. -/
structure GkrMimcTestCircuit (F α : Type) where
  circuit : SnarkCircuit F
  proof : GkrProof α
  qInitial : List α
  qInitialprime : List α
  vInput : List α
  vOutput : List α

/-- `AllocateGKRMimcTestCircuit`, snark/gkr/mimc_test.go:27-37. -/
def allocateTestCircuit (arks : List F) (bN : Nat) : Go (GkrMimcTestCircuit F (Option F)) := do
  let c ← createSnarkMimcCircuit arks
  return { circuit := c, proof := snarkAllocateProof bN c, qInitial := [], qInitialprime := List.replicate bN none,
           vInput := allocateMultilinear (bN + 1), vOutput := allocateMultilinear bN }

/-- `Assign`, snark/gkr/mimc_test.go:39-51. -/
def GkrMimcTestCircuit.assign (c : GkrMimcTestCircuit F (Option F)) (proof : GkrProof F) (inputs outputs : List (List F))
    (qInitialprime : List F) : Go (GkrMimcTestCircuit F (Option F)) := do
  let p ← snarkAssign c.proof proof
  let q ← forN qInitialprime.length c.qInitialprime fun i t => do
    let x ← idx qInitialprime i
    slotsAssign t i x
  let vi ← assignFromChunkedBKT c.vInput inputs
  let vo ← assignFromChunkedBKT c.vOutput outputs
  return { c with proof := p, qInitialprime := q, vInput := vi, vOutput := vo }

/-- `Define`, snark/gkr/mimc_test.go:53-56, on the values of a witness. All the fields are variables of the witness, the initial point
`QInitialprime` too. -/
def GkrMimcTestCircuit.define (arks : List F) (c : GkrMimcTestCircuit F F) : Cs F Unit :=
  snarkAssertValid arks c.circuit c.proof c.qInitial c.qInitialprime c.vInput c.vOutput

end GkrMimc
