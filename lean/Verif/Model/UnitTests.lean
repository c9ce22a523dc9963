import Verif.Model.Tests
import Verif.Model.Snark
import Verif.Model.SumcheckTesting

/-! Model of the unit tests of the repository that draw random values or run over a choice of sizes. The draws, and the
sizes that a test fixes, are parameters. A native test returns the pairs that it gives to `assert.Equal`; a test of a gadget is
the run of the gadget on the values of its witness, and `assert.SolvingSucceeded` says that this run is satisfied. -/

namespace GkrMimc

variable {F : Type} [Field F]

/-! ### `polynomial` -/

/-- `correctFoldedEqTable`, polynomial/eq_test.go:75-127. -/
def correctFoldedEqTable (r s t u : F) : Table F :=
  let R := 1 - r
  let S := 1 - s
  let T := 1 - t
  let U := 1 - u
  let RS := R * S
  let Rs := R * s
  let rS := r * S
  let rs := r * s
  let TU := T * U
  let Tu := T * u
  let tU := t * U
  let tu := t * u
  [RS * TU, RS * Tu, RS * tU, RS * tu, Rs * TU, Rs * Tu, Rs * tU, Rs * tu,
    rS * TU, rS * Tu, rS * tU, rS * tu, rs * TU, rs * Tu, rs * tU, rs * tu]

/-- `TestGetFoldedEqTable`, polynomial/eq_test.go:129-150, for a choice of the four values: the expected and the computed
table. -/
def foldedEqTest (a b c d : F) : Go (Table F × Table F) := do
  let computed ← getFoldedEqTable [a, b, c, d]
  return (correctFoldedEqTable a b c d, computed)

/-- One case of `TestChunked`, part of `TestChunked`, polynomial/chunk_test.go:36-75, with the tested positions `us`, `ss`
(lines 50-51) before their reduction. `draw` gives the random values from call number `start` on. -/
def chunkedCase (draw : Nat → F) (start nEvals logSize logNChunks mixedSize : Nat) (us ss : List Nat) : Go (List (F × F)) := do
  let qPrime := randomFrArray draw start logSize
  let size := 1 <<< logSize
  let nChunks := 1 <<< logNChunks
  let chunkSize := 1 <<< (logSize - logNChunks)
  let eqChunked ← getChunkedEqTable qPrime nChunks 1
  let eq ← getFoldedEqTable qPrime
  let a0 ← idx eq 0
  let b0 ← idx2 eqChunked 0 0
  let a1 ← idx eq (size - 1)
  let b1 ← idx2 eqChunked (nChunks - 1) (chunkSize - 1)
  let positions ← gen us.length fun k => do
    let u ← idx us k
    let s ← idx ss k
    let u := u % chunkSize
    let s := s % nChunks
    let x ← idx eq (u * nChunks + s)
    let y ← idx2 eqChunked s u
    return (x, y)
  let start := start + logSize
  let evals ← gen nEvals fun i => do
    let hPrime := randomFrArray draw (start + i * logSize) logSize
    let res ← evaluate eq hPrime
    let resChunked ← evaluateChunked eqChunked hPrime
    return (res, resChunked)
  let start := start + nEvals * logSize
  let mixed ← gen nEvals fun i => do
    let start := start + i * (logSize + mixedSize)
    let hCommon := randomFrArray draw start (logSize - mixedSize)
    let hL := randomFrArray draw (start + (logSize - mixedSize)) mixedSize
    let hR := randomFrArray draw (start + logSize) mixedSize
    let (resChunkedA, resChunkedB) ← evaluateMixedChunked eqChunked hCommon hL hR
    let (resA, resB) ← evaluateLeftAndRight eq hCommon hL hR
    return ((resA, resChunkedA), (resB, resChunkedB))
  return (a0, b0) :: (a1, b1) :: positions ++ evals ++ mixed.map Prod.fst ++ mixed.map Prod.snd

/-- `TestChunked`, polynomial/chunk_test.go:10-76. The draws of a case start where those of the case before end. -/
def testChunked (draw : Nat → F) : Go (List (List (F × F))) :=
  let us := [1897979, 987950, 4547687]
  let ss := [5648709, 907532, 367570]
  mapGo (fun (start, logSize, logNChunks, mixedSize) => chunkedCase draw start 10 logSize logNChunks mixedSize us ss)
    [(0, 10, 5, 3), (240, 10, 1, 3), (480, 10, 4, 1)]

/-! ### `sumcheck` -/

/-- What `TestMultiThreaded` and `TestBenchmarkSetup` compare: claims, outputs of `Prove`, answer of the verifier. -/
structure SumcheckTestRun (F : Type) where
  claims : List (F × F)
  outputs : List (SumcheckOut F × SumcheckOut F)
  valid : Bool

section
variable [DecidableEq F]

/-- `TestMultiThreaded`, sumcheck/par_test.go:12-42, for any `bN` and number of chunks. -/
def multiThreadedTest (H : List F → F) (toStr : F → String) (bN nChunks : Nat) : Go (SumcheckTestRun F) := do
  let mTProver ← initializeMultiThreadedProver toStr bN nChunks
  let sTProver ← initializeProverForTests toStr bN
  let mTClaim ← mTProver.getClaim 3
  let mTClaim1 ← mTProver.getClaim 1
  let sTClaim ← sTProver.getClaim
  let m ← mTProver.prove H 1
  let s ← sTProver.prove H
  let v ← sumcheckVerify H mTClaim m.polyCoeffs 1
  return ⟨[(sTClaim, mTClaim), (sTClaim, mTClaim1)], [(s, m)], v.isSome⟩

/-- `TestBenchmarkSetup`, sumcheck/prover_test.go:110-117, for any `bN`. -/
def benchmarkSetupTest (H : List F → F) (toStr : F → String) (bN : Nat) : Go (SumcheckTestRun F) := do
  let prover ← initializeProverForTests toStr bN
  let claim ← prover.getClaim
  let out ← prover.prove H
  let v ← sumcheckVerify H claim out.polyCoeffs 1
  return ⟨[], [], v.isSome⟩

/-- `TestSumcheck`, sumcheck/prover_test.go:62-108, for any tables. When the verifier refuses it returns nil slices, so that
line 89 panics. -/
def sumcheckTest (H : List F → F) (v add eQ : Table F) : Go (List (F × F) × Bool) := do
  let prover := newSProver v v eQ [addGate] [add]
  let claim ← prover.getClaim
  let out ← prover.prove H
  match ← sumcheckVerify H claim out.polyCoeffs 1 with
  | none => .error .index
  | some w =>
    let p0 ← idx out.qPrime 0
    let p1 ← idx w.qPrime 0
    let l0 ← idx out.qL 0
    let l1 ← idx w.qL 0
    let r0 ← idx out.qR 0
    let r1 ← idx w.qR 0
    let (finalVL, finalVR) ← evaluateLeftAndRight v w.qPrime w.qL w.qR
    let finalEq ← evaluate eQ w.qPrime
    let finalAdd ← evaluate add (w.qL ++ w.qR)
    let s0 ← idx out.finalClaims 0
    let s1 ← idx out.finalClaims 1
    let s2 ← idx out.finalClaims 2
    let s3 ← idx out.finalClaims 3
    let actual := addGate.eval finalVL finalVR
    let actual := actual * finalAdd
    let actual := actual * finalEq
    return ([(p0, p1), (l0, l1), (r0, r1), (finalVL, s0), (finalVR, s1), (finalEq, s2), (finalAdd, s3),
      (w.finalClaim, actual)], true)

end

/-! ### Witnesses of the gadget tests -/

/-- The value of a variable of a witness; solving fails when it was not assigned. -/
def slotValue (s : Option F) : Go F :=
  match s with
  | some x => .ok x
  | none => .error (.explicit "variable not assigned")

/-- The values of a slice of variables. -/
def slotsValues (xs : List (Option F)) : Go (List F) := mapGo slotValue xs

/-! ### `snark/hash` -/

/-- `TestMimcCircuit`, snark/hash/mimc_test.go:17-20. -/
structure HashTestCircuit (α : Type) where
  x : List (List α)
  y : List α

/-- `Allocate`, snark/hash/mimc_test.go:30-41. -/
def allocateHashTest (nTests testSize : Nat) : HashTestCircuit (Option F) :=
  ⟨List.replicate nTests (List.replicate testSize none), List.replicate nTests none⟩

/-- `Assign`, snark/hash/mimc_test.go:43-51. The inner loop works on `c.X[k]`. -/
def HashTestCircuit.assign (arks : List F) (c : HashTestCircuit (Option F)) (x : List (List F)) : Go (HashTestCircuit (Option F)) :=
  forN x.length c fun k c => do
    let xk ← idx x k
    let row ← idx c.x k
    let row ← forN xk.length row fun n row => do
      let v ← idx xk n
      slotsAssign row n v
    let xs ← setIdx c.x k row
    let y ← mimcHashGo arks xk
    let ys ← slotsAssign c.y k y
    return ⟨xs, ys⟩

/-- The witness read from its variables. -/
def HashTestCircuit.values (c : HashTestCircuit (Option F)) : Go (HashTestCircuit F) := do
  let x ← mapGo slotsValues c.x
  let y ← slotsValues c.y
  return ⟨x, y⟩

/-- `Define`, snark/hash/mimc_test.go:22-28. -/
def HashTestCircuit.define (arks : List F) (c : HashTestCircuit F) : Cs F Unit :=
  Cs.forN c.x.length () fun k _ => do
    let xk ← Cs.go (idx c.x k)
    let y ← snarkMimcHash arks xk
    let yk ← Cs.go (idx c.y k)
    Cs.assertIsEqual yk y

/-- `TestMimc`, snark/hash/mimc_test.go:53-72, for `nTests` messages of `testSize` words. -/
def hashTest (arks : List F) (nTests testSize : Nat) (draw : Nat → F) : Cs F Unit := do
  let x := (List.range nTests).map fun k => randomFrArray draw (k * testSize) testSize
  let w ← Cs.go (HashTestCircuit.assign arks (allocateHashTest nTests testSize) x)
  let w ← Cs.go w.values
  w.define arks

/-! ### `snark/polynomial` -/

/-- `TestEqCircuit`, snark/polynomial/eq_test.go:14-17. -/
structure EqTestCircuit (α : Type) where
  h : List (List α)
  q : List (List α)
  expectedValue : List α

/-- `AllocateTestEqCircuit`, snark/polynomial/eq_test.go:19-34. -/
def allocateEqTest (nTests testSize : Nat) : EqTestCircuit (Option F) :=
  ⟨List.replicate nTests (List.replicate testSize none), List.replicate nTests (List.replicate testSize none),
    List.replicate nTests none⟩

/-- `Assign`, snark/polynomial/eq_test.go:36-44. The inner loop works on `eq.H[k]` and `eq.Q[k]`; its bound is the length of `Q`,
the number of tests. -/
def EqTestCircuit.assign (c : EqTestCircuit (Option F)) (H Q : List (List F)) : Go (EqTestCircuit (Option F)) :=
  forN H.length c fun k c => do
    let h ← idx c.h k
    let q ← idx c.q k
    let (h, q) ← forN Q.length (h, q) fun n (h, q) => do
      let x ← idx2 H k n
      let h ← slotsAssign h n x
      let y ← idx2 Q k n
      let q ← slotsAssign q n y
      return (h, q)
    let hs ← setIdx c.h k h
    let qs ← setIdx c.q k q
    let Qk ← idx Q k
    let Hk ← idx H k
    let e ← evalEq Qk Hk
    let es ← slotsAssign c.expectedValue k e
    return ⟨hs, qs, es⟩

/-- The witness read from its variables. -/
def EqTestCircuit.values (c : EqTestCircuit (Option F)) : Go (EqTestCircuit F) := do
  let h ← mapGo slotsValues c.h
  let q ← mapGo slotsValues c.q
  let e ← slotsValues c.expectedValue
  return ⟨h, q, e⟩

/-- `Define`, snark/polynomial/eq_test.go:46-52. -/
def EqTestCircuit.define (c : EqTestCircuit F) : Cs F Unit :=
  Cs.forN c.h.length () fun i _ => do
    let hi ← Cs.go (idx c.h i)
    let qi ← Cs.go (idx c.q i)
    let h ← eqEvalGadget hi qi
    let e ← Cs.go (idx c.expectedValue i)
    Cs.assertIsEqual h e

/-- `TestEq`, snark/polynomial/eq_test.go:54-83, for `nTests` pairs of points with `testSize` coordinates. -/
def eqTest (nTests testSize : Nat) (draw : Nat → F) : Cs F Unit := do
  let H := (List.range nTests).map fun k => randomFrArray draw (k * testSize) testSize
  let Q := (List.range nTests).map fun k => randomFrArray draw (nTests * testSize + k * testSize) testSize
  let w ← Cs.go (EqTestCircuit.assign (allocateEqTest nTests testSize) H Q)
  let w ← Cs.go w.values
  w.define

/-- `multilinearPolyTestCircuit`, snark/polynomial/multilinear_test.go:14-18. -/
structure MlTestCircuit (α : Type) where
  p : List α
  xEval : List α
  yEval : α

/-- `allocateMultilinearTestCircuit`, snark/polynomial/multilinear_test.go:20-25. -/
def allocateMlTest (nVars : Nat) : MlTestCircuit (Option F) :=
  ⟨allocateMultilinear nVars, List.replicate nVars none, none⟩

/-- The witness read from its variables. -/
def MlTestCircuit.values (c : MlTestCircuit (Option F)) : Go (MlTestCircuit F) := do
  let p ← slotsValues c.p
  let x ← slotsValues c.xEval
  let y ← slotValue c.yEval
  return ⟨p, x, y⟩

/-- `Define`, snark/polynomial/multilinear_test.go:27-31. -/
def MlTestCircuit.define (c : MlTestCircuit F) : Cs F Unit := do
  let actualEval ← mlEval c.p c.xEval
  Cs.assertIsEqual actualEval c.yEval

/-- `TestMultilinear`, snark/polynomial/multilinear_test.go:33-66, for any number of variables; `common.FrToGenericArray`
(common/common.go:54-60) changes the type of the entries only. -/
def mlTest (nVars : Nat) (draw : Nat → F) : Cs F Unit := do
  let p := randomFrArray draw 0 (1 <<< nVars)
  let x := randomFrArray draw (1 <<< nVars) nVars
  let y ← Cs.go (evaluate p x)
  let w : MlTestCircuit (Option F) := allocateMlTest nVars
  let wp ← Cs.go (mlAssign w.p p)
  let wx ← Cs.go (forN nVars w.xEval fun i t => do
    let xi ← idx x i
    slotsAssign t i xi)
  let wy ← Cs.go (slotAssign w.yEval y)
  let w ← Cs.go (MlTestCircuit.values ⟨wp, wx, wy⟩)
  w.define

/-- `univariateTestCircuit`, snark/polynomial/univariate_test.go:12-16. -/
structure UniTestCircuit (α : Type) where
  poly : List α
  znO : α
  expected : α

/-- The witness read from its variables. -/
def UniTestCircuit.values (c : UniTestCircuit (Option F)) : Go (UniTestCircuit F) := do
  let p ← slotsValues c.poly
  let z ← slotValue c.znO
  let e ← slotValue c.expected
  return ⟨p, z, e⟩

/-- `Define`, snark/polynomial/univariate_test.go:18-28. -/
def UniTestCircuit.define (c : UniTestCircuit F) : Cs F Unit := do
  let zno ← uniZeroAndOne c.poly
  let x := csConst 5
  let pAtX ← uniEval c.poly x
  Cs.assertIsEqual zno c.znO
  Cs.assertIsEqual pAtX c.expected

/-- `TestUnivariate`, snark/polynomial/univariate_test.go:30-52, for any values of the witness. -/
def uniTest (c0 c1 c2 c3 zno expected : F) : Cs F Unit := do
  let p : List (Option F) := List.replicate 4 none
  let p ← Cs.go (slotsAssign p 0 c0)
  let p ← Cs.go (slotsAssign p 1 c1)
  let p ← Cs.go (slotsAssign p 2 c2)
  let p ← Cs.go (slotsAssign p 3 c3)
  let z ← Cs.go (slotAssign none zno)
  let e ← Cs.go (slotAssign none expected)
  let w ← Cs.go (UniTestCircuit.values ⟨p, z, e⟩)
  w.define

/-! ### `snark/sumcheck` -/

/-- `SumcheckCircuit`, snark/sumcheck/sumcheck_test.go:12-18. -/
structure SumcheckTestCircuit (α : Type) where
  initialClaim : α
  proof : List (List α)
  expectedQL : List α
  expectedQR : List α
  expectedQPrime : List α

/-- `AllocateSumcheckCircuit`, snark/sumcheck/sumcheck_test.go:20-27. -/
def allocateSumcheckTest (bN bG degHL degHR degHPrime : Nat) : SumcheckTestCircuit (Option F) :=
  ⟨none, sumcheckAllocateProof bN bG degHL degHR degHPrime, List.replicate bG none, List.replicate bG none,
    List.replicate bN none⟩

/-- The witness read from its variables. -/
def SumcheckTestCircuit.values (c : SumcheckTestCircuit (Option F)) : Go (SumcheckTestCircuit F) := do
  let i ← slotValue c.initialClaim
  let p ← mapGo slotsValues c.proof
  let l ← slotsValues c.expectedQL
  let r ← slotsValues c.expectedQR
  let h ← slotsValues c.expectedQPrime
  return ⟨i, p, l, r, h⟩

/-- `Define`, snark/sumcheck/sumcheck_test.go:29-41. The results of `AssertValid` are named `hR, hL`, in this order. -/
def SumcheckTestCircuit.define (arks : List F) (c : SumcheckTestCircuit F) : Cs F Unit := do
  let v ← sumcheckAssertValid arks c.proof c.initialClaim 1
  let hR := v.qL
  let hL := v.qR
  Cs.forN hR.length () fun i _ => do
    let l ← Cs.go (idx hL i)
    let el ← Cs.go (idx c.expectedQL i)
    Cs.assertIsEqual l el
    let r ← Cs.go (idx hR i)
    let er ← Cs.go (idx c.expectedQR i)
    Cs.assertIsEqual r er
  Cs.forN v.qPrime.length () fun i _ => do
    let h ← Cs.go (idx v.qPrime i)
    let eh ← Cs.go (idx c.expectedQPrime i)
    Cs.assertIsEqual h eh

/-- `TestSumcheckCircuit`, snark/sumcheck/sumcheck_test.go:43-78, for any `bN`: the answer of the native verifier, and the run of the
gadget. The results `qL, qR` of `Prove` are named `expectedQR, expectedQL`. -/
def sumcheckCircuitTest [DecidableEq F] (H : List F → F) (toStr : F → String) (arks : List F) (bN : Nat) : Go (Bool × Cs F Unit) := do
  let bG := 1
  let scProver ← initializeProverForTests toStr bN
  let firstClaim ← scProver.getClaim
  let out ← scProver.prove H
  let expectedQR := out.qL
  let expectedQL := out.qR
  let valid ← sumcheckVerify H firstClaim out.polyCoeffs bG
  let w : SumcheckTestCircuit (Option F) := allocateSumcheckTest bN bG 2 8 8
  let ic ← slotAssign w.initialClaim firstClaim
  let p ← sumcheckAssign w.proof out.polyCoeffs
  let (ql, qr) ← forN expectedQL.length (w.expectedQL, w.expectedQR) fun i (ql, qr) => do
    let l ← idx expectedQL i
    let ql ← slotsAssign ql i l
    let r ← idx expectedQR i
    let qr ← slotsAssign qr i r
    return (ql, qr)
  let qp ← forN out.qPrime.length w.expectedQPrime fun i qp => do
    let x ← idx out.qPrime i
    slotsAssign qp i x
  let w := SumcheckTestCircuit.values ⟨ic, p, ql, qr, qp⟩
  return (valid.isSome, Cs.go w >>= fun w => w.define arks)

end GkrMimc
