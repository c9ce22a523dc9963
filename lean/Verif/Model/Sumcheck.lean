import Verif.Model.Circuit

/-! Model of package `sumcheck` (value level; the goroutines of `par.go` run in index order here,
all schedules are in `Model/Conc*.lean`). -/

namespace GkrMimc

variable {F : Type} [Field F] [DecidableEq F]

/-- `SingleThreadedProver`, sumcheck/prover.go:17-29. -/
structure SProver (F : Type) where
  vL : Table F
  vR : Table F
  eq : Table F
  gates : List (Gate F)
  statics : List (Table F)
  degreeHL : Nat
  degreeHR : Nat
  degreeHPrime : Nat

/-- `NewSingleThreadedProver`, sumcheck/prover.go:32-57 (`Nat.max` for `common.Max`). -/
def newSProver (vL vR eq : Table F) (gates : List (Gate F)) (statics : List (Table F)) : SProver F where
  vL := vL
  vR := vR
  eq := eq
  gates := gates
  statics := statics
  degreeHL := gates.foldl (fun d g => max d g.degHL) 0 + 1
  degreeHR := gates.foldl (fun d g => max d g.degHR) 0 + 1
  degreeHPrime := gates.foldl (fun d g => max d g.degHPrime) 0 + 1

/-- `FoldHL`, sumcheck/prover.go:113-118. -/
def SProver.foldHL (p : SProver F) (r : F) : SProver F :=
  { p with statics := p.statics.map (fold · r), vL := fold p.vL r }

/-- `FoldHR`, sumcheck/prover.go:121-126. -/
def SProver.foldHR (p : SProver F) (r : F) : SProver F :=
  { p with statics := p.statics.map (fold · r), vR := fold p.vR r }

/-- `FoldHPrime`, sumcheck/prover.go:129-133. -/
def SProver.foldHPrime (p : SProver F) (r : F) : SProver F :=
  { p with vR := fold p.vR r, vL := fold p.vL r, eq := fold p.eq r }

/-- `s[i][j]`. -/
def idx2 {α : Type} (s : List (List α)) (i j : Nat) : Go α := do
  let r ← idx s i
  idx r j

/-- `s[i][j] = f(s[i][j])`. -/
def modIdx2 {α : Type} (s : List (List α)) (i j : Nat) (f : α → α) : Go (List (List α)) := do
  let r ← idx s i
  let r' ← modIdx r j f
  setIdx s i r'

/-- `s[i][j][k] = f(s[i][j][k])`. -/
def modIdx3 {α : Type} (s : List (List (List α))) (i j k : Nat) (f : α → α) :
    Go (List (List (List α))) := do
  let r ← idx s i
  let r' ← modIdx2 r j k f
  setIdx s i r'

/-- `GetClaim`, sumcheck/evals.go:10-61. -/
def SProver.getClaim (p : SProver F) : Go F := do
  let n := p.eq.length
  let g ← goDiv p.vL.length n
  let nGate := p.statics.length
  let staticIsNotZero ← gen nGate fun i => gen (g * g) fun h => do
    let s ← idx2 p.statics i h
    return decide (s ≠ 0)
  let split0 := List.replicate nGate (List.replicate (g * g) (0 : F))
  let split ← forN n split0 fun hPrime split => do
    let eq ← idx p.eq hPrime
    forN g split fun hL split => do
      let vL ← idx p.vL (hL * n + hPrime)
      forN g split fun hR split => do
        let vR ← idx p.vR (hR * n + hPrime)
        forN nGate split fun i split => do
          let nz ← idx2 staticIsNotZero i (hL * g + hR)
          if nz then do
            let gate ← idx p.gates i
            modIdx2 split i (hL * g + hR) (fun x => x + gate.eval vL vR * eq)
          else return split
  forN nGate (0 : F) fun i res => do
    let row ← idx split i
    forN row.length res fun h res => do
      let v ← idx row h
      let s ← idx2 p.statics i h
      return res + v * s

/-- `x[0] = x0; for t := 1; t < nEvals; t++ { x[t].Add(&x[t-1], &delta) }`, e.g. sumcheck/evals.go:186-190:
the scratch slice is completely overwritten, so it is rebuilt from nothing. -/
def ramp (x0 delta : F) : Nat → List F
  | 0 => []
  | n + 1 => x0 :: ramp (x0 + delta) delta n

/-- The precomputation loops of `GetEvalsOnHL`, sumcheck/evals.go:74-95, with `size = lenHL*g/2`, and of
`GetEvalsOnHR` (108-129) with `size = lenHR/2`. Returns `(staticIsNotZero, evaledStaticTables)`. -/
def preEvalStatics (statics : List (Table F)) (size nEvals : Nat) :
    Go (List (List Bool) × List (List (List F))) := do
  let nz ← mapGo (fun tab => gen size fun h => do
    let x ← idx tab h
    let d ← idx (functionEvals tab) h
    return decide (¬ (x = 0 ∧ d = 0))) statics
  let ev ← mapGo (fun tab => gen size fun h => do
    let x ← idx tab h
    let d ← idx (functionEvals tab) h
    return ramp x d nEvals) statics
  return (nz, ev)

/-- `for t, v = range vS { v.Mul(&v, &evaledEq); splitValues[i][h][t].Add(…, &v) }`,
sumcheck/evals.go:197-202 and 268-273. -/
def addRow (vS : List F) (eq : F) (i h : Nat) (split : List (List (List F))) :
    Go (List (List (List F))) :=
  forN vS.length split fun t split => do
    let v ← idx vS t
    modIdx3 split i h t (fun x => x + v * eq)

/-- The final combination loops, sumcheck/evals.go:210-218 and 280-288. -/
def combineSplit (split ev : List (List (List F))) (nEvals : Nat) : Go (List F) :=
  forN split.length (List.replicate nEvals (0 : F)) fun i res => do
    let rows ← idx split i
    forN rows.length res fun h res => do
      let row ← idx rows h
      forN row.length res fun t res => do
        let v ← idx row t
        let evi ← idx ev i
        let s ← idx2 evi h t
        modIdx res t (fun x => x + v * s)

/-- The accumulation of `accumulateEvalsOnHL`, sumcheck/evals.go:148-221.
`vS` is overwritten by `EvalManyVL` before it is read, so a zeroed slice is passed each time. -/
def SProver.accumulateEvalsOnHL (p : SProver F) (ev : List (List (List F))) (nz : List (List Bool)) :
    Go (List F) := do
  let n := p.eq.length
  let g ← goDiv p.vR.length n
  let st0 ← idx p.statics 0
  let lenHL ← goDiv st0.length g
  let nGate := p.statics.length
  let nEvals := p.degreeHL + 1
  let mid := p.vL.length / 2
  let split0 := List.replicate nGate (List.replicate (lenHL * g / 2) (List.replicate nEvals (0 : F)))
  let split ← forN n split0 fun hPrime split => do
    let evaledEq ← idx p.eq hPrime
    forN (lenHL / 2) split fun hL split => do
      let bVL := hL * n + hPrime
      let v0 ← idx p.vL bVL
      let v1 ← idx p.vL (bVL + mid)
      let evaledVLs := ramp v0 (v1 - v0) nEvals
      forN g split fun hR split => do
        let h := hL * g + hR
        let evaledVR ← idx p.vR (hR * n + hPrime)
        forN p.gates.length split fun i split => do
          let gate ← idx p.gates i
          let b ← idx2 nz i h
          if b then do
            let vS ← gate.evalManyVL (List.replicate nEvals 0) evaledVLs evaledVR
            addRow vS evaledEq i h split
          else return split
  combineSplit split ev nEvals

/-- `GetEvalsOnHL`, sumcheck/evals.go:64-98. -/
def SProver.getEvalsOnHL (p : SProver F) : Go (List F) := do
  let n := p.eq.length
  let g ← goDiv p.vR.length n
  let st0 ← idx p.statics 0
  let lenHL ← goDiv st0.length g
  let (nz, ev) ← preEvalStatics p.statics (lenHL * g / 2) (p.degreeHL + 1)
  p.accumulateEvalsOnHL ev nz

/-- The accumulation of `accumulateEvalsOnHR`, sumcheck/evals.go:223-291. -/
def SProver.accumulateEvalsOnHR (p : SProver F) (nz : List (List Bool)) (ev : List (List (List F))) :
    Go (List F) := do
  let n := p.eq.length
  let lenHR ← goDiv p.vR.length n
  let nGate := p.statics.length
  let nEvals := p.degreeHR + 1
  let mid := p.vR.length / 2
  let split0 := List.replicate nGate (List.replicate (lenHR / 2) (List.replicate nEvals (0 : F)))
  let split ← forN n split0 fun hPrime split => do
    let evaledEq ← idx p.eq hPrime
    let evaledVL ← idx p.vL hPrime
    forN (lenHR / 2) split fun hR split => do
      let bVR := hR * n + hPrime
      let v0 ← idx p.vR bVR
      let v1 ← idx p.vR (bVR + mid)
      let evaledVRs := ramp v0 (v1 - v0) nEvals
      forN p.gates.length split fun i split => do
        let gate ← idx p.gates i
        let b ← idx2 nz i hR
        if b then do
          let vS ← gate.evalManyVR (List.replicate nEvals 0) evaledVL evaledVRs
          addRow vS evaledEq i hR split
        else return split
  combineSplit split ev nEvals

/-- `GetEvalsOnHR`, sumcheck/evals.go:101-132. -/
def SProver.getEvalsOnHR (p : SProver F) : Go (List F) := do
  let n := p.eq.length
  let lenHR ← goDiv p.vR.length n
  let (nz, ev) ← preEvalStatics p.statics (lenHR / 2) (p.degreeHR + 1)
  p.accumulateEvalsOnHR nz ev

/-- `accumulateEvalsOnHPrime`, sumcheck/evals.go:293-354. -/
def SProver.accumulateEvalsOnHPrime (p : SProver F) (staticVals : List F) : Go (List F) := do
  let nGate := p.statics.length
  let nEvals := p.degreeHPrime + 1
  let mid := p.eq.length / 2
  let split0 := List.replicate nGate (List.replicate nEvals (0 : F))
  let split ← forN mid split0 fun hPrime split => do
    let l0 ← idx p.vL hPrime
    let r0 ← idx p.vR hPrime
    let e0 ← idx p.eq hPrime
    let l1 ← idx p.vL (hPrime + mid)
    let r1 ← idx p.vR (hPrime + mid)
    let e1 ← idx p.eq (hPrime + mid)
    let evaledVL := ramp l0 (l1 - l0) nEvals
    let evaledVR := ramp r0 (r1 - r0) nEvals
    let evaledEq := ramp e0 (e1 - e0) nEvals
    forN p.gates.length split fun i split => do
      let gate ← idx p.gates i
      forN nEvals split fun t split => do
        let vl ← idx evaledVL t
        let vr ← idx evaledVR t
        let e ← idx evaledEq t
        modIdx2 split i t (fun x => x + gate.eval vl vr * e)
  forN split.length (List.replicate nEvals (0 : F)) fun i res => do
    let row ← idx split i
    forN row.length res fun t res => do
      let v ← idx row t
      let s ← idx staticVals i
      modIdx res t (fun x => x + v * s)

/-- `GetEvalsOnHPrime`, sumcheck/evals.go:135-146. -/
def SProver.getEvalsOnHPrime (p : SProver F) : Go (List F) := do
  let staticVals ← mapGo (fun tab => idx tab 0) p.statics
  p.accumulateEvalsOnHPrime staticVals

/-- Output of `Prove`: `(proof, qPrime, qL, qR, finalClaims)`; `Proof.PolyCoeffs` is sumcheck/prover.go:11-14. -/
structure SumcheckOut (F : Type) where
  polyCoeffs : List (List F)
  qPrime : List F
  qL : List F
  qR : List F
  finalClaims : List F

/-- One of the three round loops of `Prove`, e.g. sumcheck/prover.go:76-82, for a choice of evaluation and fold
methods. `PolyCoeffs[i] = …` and `qL[i] = …` on preallocated slices are written as appends.
`H` is `common.GetChallenge` (common/challenge.go:10-12). State: prover, coefficients, challenges. -/
def rounds (H : List F → F) (evals : SProver F → Go (List F)) (foldX : SProver F → F → SProver F)
    (k : Nat) (p : SProver F) : Go (SProver F × List (List F) × List F) :=
  forN k (p, [], []) fun _ s => do
    let e ← evals s.1
    let c ← interpolateOnRange e
    let r := H c
    return (foldX s.1 r, s.2.1 ++ [c], s.2.2 ++ [r])

/-- The final claims, sumcheck/prover.go:102-107 and sumcheck/par.go:136-141. -/
def SProver.finalClaims (p : SProver F) : Go (List F) := do
  let l ← idx p.vL 0
  let r ← idx p.vR 0
  let e ← idx p.eq 0
  let ss ← mapGo (fun tab => idx tab 0) p.statics
  return l :: r :: e :: ss

/-- `SingleThreadedProver.Prove`, sumcheck/prover.go:60-110. -/
def SProver.prove (H : List F → F) (p : SProver F) : Go (SumcheckOut F) := do
  let n := p.eq.length
  let g ← goDiv p.vR.length n
  let bN := log2Ceil n
  let bG := log2Ceil g
  let (p, cL, qL) ← rounds H SProver.getEvalsOnHL SProver.foldHL bG p
  let (p, cR, qR) ← rounds H SProver.getEvalsOnHR SProver.foldHR bG p
  let (p, cP, qPrime) ← rounds H SProver.getEvalsOnHPrime SProver.foldHPrime bN p
  let fc ← p.finalClaims
  return { polyCoeffs := cL ++ cR ++ cP, qPrime := qPrime, qL := qL, qR := qR, finalClaims := fc }

/-- `MultiThreadedProver`, sumcheck/par.go:13-25. -/
structure MProver (F : Type) where
  vL : List (Table F)
  vR : List (Table F)
  eq : List (Table F)
  gates : List (Gate F)
  statics : List (Table F)

/-- `NewMultiThreadedProver`, sumcheck/par.go:33-58. Its three degree fields are never read
(each sub-prover recomputes its own) and are left out. -/
def newMProver (vL vR eq : List (Table F)) (gates : List (Gate F)) (statics : List (Table F)) : MProver F where
  vL := vL
  vR := vR
  eq := eq
  gates := gates
  statics := statics

/-- The sub-prover built at the start of `RunForChunk`, sumcheck/par.go:242-253, and of
`GetClaimForChunk`, 216-227. -/
def MProver.subProver (p : MProver F) (i : Nat) : Go (SProver F) := do
  let vL ← idx p.vL i
  let vR ← idx p.vR i
  let eq ← idx p.eq i
  return newSProver vL vR eq p.gates p.statics

/-- `MultiThreadedProver.GetClaim`, sumcheck/par.go:61-78, chunks in index order. -/
def MProver.getClaim (p : MProver F) (nCore : Int) : Go F := do
  let nChunks := p.eq.length
  semaphoreSection nCore nChunks
  forN nChunks (0 : F) fun i res => do
    let sp ← p.subProver i
    let x ← sp.getClaim
    return x + res

/-- `(bG, bN)` as `RunForChunk` computes them from its own chunk, sumcheck/par.go:256-259. -/
def SProver.dims (sp : SProver F) : Go (Nat × Nat) := do
  let n := sp.eq.length
  let g ← goDiv sp.vR.length n
  return (log2Ceil g, log2Ceil n)

/-- The evaluations that `RunForChunk` sends in its `k`-th round, sumcheck/par.go:261-286. -/
def workerEvals (bG k : Nat) (sp : SProver F) : Go (List F) :=
  if k < bG then sp.getEvalsOnHL else if k < 2 * bG then sp.getEvalsOnHR else sp.getEvalsOnHPrime

/-- The fold that `RunForChunk` performs at the end of its `k`-th round, sumcheck/par.go:261-286. -/
def workerFold (bG k : Nat) (sp : SProver F) (r : F) : SProver F :=
  if k < bG then sp.foldHL r else if k < 2 * bG then sp.foldHR r else sp.foldHPrime r

/-- `ConsumeAccumulate`, sumcheck/par.go:186-195, on the list of messages in arrival order. -/
def consumeAccumulate : List (List F) → Go (List F)
  | [] => .error .deadlock
  | m :: ms => forEach ms m fun tmp res =>
    forN res.length res fun i res => do
      let t ← idx tmp i
      modIdx res i (fun x => x + t)

/-- `ConsumeMergeProvers`, sumcheck/par.go:152-182, on the list of `(I, P)` in arrival order. -/
def consumeMergeProvers (nToMerge : Nat) : List (Nat × SProver F) → Go (SProver F)
  | [] => .error .deadlock
  | m :: ms => do
    let z := List.replicate nToMerge (0 : F)
    let s ← forEach (m :: ms) (z, z, z) fun ip s => do
      let l ← idx ip.2.vL 0
      let a ← setIdx s.1 ip.1 l
      let r ← idx ip.2.vR 0
      let b ← setIdx s.2.1 ip.1 r
      let e ← idx ip.2.eq 0
      let c ← setIdx s.2.2 ip.1 e
      return (a, b, c)
    return newSProver s.1 s.2.1 s.2.2 m.2.gates m.2.statics

/-- `MultiThreadedProver.Prove`, sumcheck/par.go:81-148, with the workers run in index order in each round.
A worker whose own number of rounds differs from the main loop's blocks for ever (and so does the main loop). -/
def MProver.prove (H : List F → F) (p : MProver F) (nCore : Int) : Go (SumcheckOut F) := do
  let nChunks := p.eq.length
  let eq0 ← idx p.eq 0
  let n := nChunks * eq0.length
  let vL0 ← idx p.vL 0
  let g ← goDiv (nChunks * vL0.length) n
  let bN := log2Ceil n
  let bG := log2Ceil g
  let logNChunk := log2Ceil nChunks
  semaphoreSection nCore nChunks
  let workers ← gen nChunks p.subProver
  let dims ← mapGo SProver.dims workers
  let total := 2 * bG + bN - logNChunk
  if dims.any (fun d => 2 * d.1 + d.2 ≠ total) then .error .deadlock
  else do
    let s ← forN total (workers, ([] : List (List F)), ([] : List F)) fun k s => do
      let msgs ← mapGo (fun x => workerEvals x.2.1 k x.1) (s.1.zip dims)
      let evals ← consumeAccumulate msgs
      let c ← interpolateOnRange evals
      let r := H c
      return ((s.1.zip dims).map (fun x => workerFold x.2.1 k x.1 r), s.2.1 ++ [c], s.2.2 ++ [r])
    let newP ← consumeMergeProvers nChunks ((List.range nChunks).zip s.1)
    let (newP, cF, qF) ← rounds H SProver.getEvalsOnHPrime SProver.foldHPrime logNChunk newP
    let fc ← newP.finalClaims
    return { polyCoeffs := s.2.1 ++ cF,
             qL := s.2.2.take bG,
             qR := (s.2.2.drop bG).take bG,
             qPrime := s.2.2.drop (2 * bG) ++ qF,
             finalClaims := fc }

/-- The loop of `Verify`, sumcheck/verifier.go:21-35. `none`: the check `P_i(0)+P_i(1) = expected` failed.
Otherwise the challenges and the last expected value. -/
def sumcheckVerifyLoop (H : List F → F) : List (List F) → F → Go (Option (List F × F))
  | [], expected => .ok (some ([], expected))
  | c :: cs, expected => do
    let a0 ← evaluatePolynomial c 0
    let a1 ← evaluatePolynomial c 1
    if expected ≠ a0 + a1 then return none
    else do
      let r := H c
      let expected' ← evaluatePolynomial c r
      let rest ← sumcheckVerifyLoop H cs expected'
      return rest.map (fun x => (r :: x.1, x.2))

/-- What `sumcheck.Verifier.Verify` returns when its first result is `true`. -/
structure SumcheckVerdict (F : Type) where
  qPrime : List F
  qL : List F
  qR : List F
  finalClaim : F
deriving DecidableEq

/-- `Verify`, sumcheck/verifier.go:14-44. `none` stands for the result `false`. The parameter `bN` of the source is
not used by it and is left out. -/
def sumcheckVerify (H : List F → F) (claim : F) (polyCoeffs : List (List F)) (bG : Nat) :
    Go (Option (SumcheckVerdict F)) := do
  let r ← sumcheckVerifyLoop H polyCoeffs claim
  match r with
  | none => return none
  | some (challenges, expected) => do
    let qL ← sliceTo challenges bG
    let qR ← sliceBetween challenges bG (2 * bG)
    let qPrime ← sliceFrom challenges (2 * bG)
    return some { qPrime := qPrime, qL := qL, qR := qR, finalClaim := expected }

end GkrMimc
