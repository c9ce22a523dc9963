import Verif.Model.Polynomial

/-! Model of package `circuit`. -/

namespace GkrMimc

variable {F : Type} [Field F]

/-- The interface `Gate`, circuit/gates.go:11-24, as a record of its methods.
`Eval(res, vL, vR)` is a function returning what it stores in `res` (no caller passes `res` aliasing an operand).
`EvalManyVL/VR` take the destination slice `res` and return its new content.
`GnarkEval` is a function on the values of the variables. Degrees are non-negative in all gates. -/
structure Gate (F : Type) where
  id : String
  eval : F → F → F
  gnarkEval : F → F → F
  evalManyVL : (res vLs : List F) → F → Go (List F)
  evalManyVR : (res : List F) → F → (vRs : List F) → Go (List F)
  degHL : Nat
  degHR : Nat
  degHPrime : Nat

/-- `EvaluateCombinator`, circuit/gates.go:27-36. -/
def evaluateCombinator (vL vR eq : F) (gates : List (Gate F)) (statics : List F) : Go F := do
  let res ← forN gates.length (0 : F) fun i res => do
    let g ← idx gates i
    let tmp := g.eval vL vR
    let s ← idx statics i
    return res + s * tmp
  return res * eq

/-- `AddGate`, circuit/gates.go:38-73. -/
def addGate : Gate F where
  id := "AddGate"
  eval vL vR := vL + vR
  gnarkEval vL vR := vL + vR
  evalManyVR res vL vRs := forN vRs.length res fun i res => do
    let vR ← idx vRs i
    setIdx res i (vL + vR)
  evalManyVL res vLs vR := forN vLs.length res fun i res => do
    let vL ← idx vLs i
    setIdx res i (vL + vR)
  degHL := 1
  degHR := 1
  degHPrime := 1

/-- `MulGate`, circuit/gates.go:75-108. -/
def mulGate : Gate F where
  id := "MulGate"
  eval vL vR := vL * vR
  gnarkEval vL vR := vL * vR
  evalManyVR res vL vRs := forN vRs.length res fun i res => do
    let vR ← idx vRs i
    setIdx res i (vL * vR)
  evalManyVL res vLs vR := forN vLs.length res fun i res => do
    let vL ← idx vLs i
    setIdx res i (vL * vR)
  degHL := 1
  degHR := 1
  degHPrime := 2

/-- Go's built-in `copy(dst, src)`. -/
def goCopy {α : Type _} (dst src : List α) : List α :=
  src.take dst.length ++ dst.drop src.length

/-- `CopyGate`, circuit/gates.go:110-142. -/
def copyGate : Gate F where
  id := "CopyGate"
  eval vL _ := vL
  gnarkEval vL _ := vL
  evalManyVR res vL vRs := forN vRs.length res fun i res => setIdx res i vL
  evalManyVL res vLs _ := .ok (goCopy res vLs)
  degHL := 1
  degHR := 0
  degHPrime := 1

/-- The power computation of `CipherGate`: `Square; Mul; Square; Mul`, circuit/gates.go:163-166
(and 189-192, 205-208). -/
def cipherPow (tmp : F) : F :=
  let res := tmp * tmp
  let res := res * tmp
  let res := res * res
  res * tmp

/-- `CipherGate`, circuit/gates.go:144-218. `toStr` stands for `fr.Element.String()`. -/
def cipherGate (toStr : F → String) (ark : F) : Gate F where
  id := "CipherGate-" ++ toStr ark
  eval vL vR := cipherPow (vR + ark) + vL
  gnarkEval vL vR :=
    let tmp := vR + ark
    let cipher := tmp * tmp
    let cipher := cipher * tmp
    let cipher := cipher * cipher
    let cipher := cipher * tmp
    cipher + vL
  evalManyVR res vL vRs := forN vRs.length res fun i res => do
    let vR ← idx vRs i
    setIdx res i (cipherPow (vR + ark) + vL)
  evalManyVL res vLs vR :=
    let right := cipherPow (vR + ark)
    forN vLs.length res fun i res => do
      let vL ← idx vLs i
      setIdx res i (right + vL)
  degHL := 1
  degHR := 7
  degHPrime := 7

/-- `Wire`, circuit/layers.go:13-16. Wire indices are natural numbers (a negative one would panic). -/
structure Wire (F : Type) where
  L : Nat
  R : Nat
  O : Nat
  gate : Gate F

/-- `Layer`, circuit/layers.go:19-23. -/
structure Layer (F : Type) where
  wires : List (Wire F)
  bGInputs : Nat
  bGOutputs : Nat
  gates : List (Gate F)

/-- `BGOutputs`, circuit/layers.go:105-113. -/
def bGOutputsOf (wires : List (Wire F)) : Nat :=
  log2Ceil ((wires.foldl (fun res w => if res < w.O then w.O else res) 0 + 1 : Nat) : Int)

/-- `BGInputs`, circuit/layers.go:116-127. -/
def bGInputsOf (wires : List (Wire F)) : Nat :=
  log2Ceil ((wires.foldl (fun res w =>
    let res := if res < w.L then w.L else res
    if res < w.R then w.R else res) 0 + 1 : Nat) : Int)

/-- `Gates`, circuit/layers.go:130-139. The loop state is `(gates, res)`; the map (a list of keys here) is only
looked up: the source never inserts into it. -/
def gatesOf (wires : List (Wire F)) : List (Gate F) :=
  (wires.foldl (fun (s : List String × List (Gate F)) w =>
    if w.gate.id ∈ s.1 then s else (s.1, s.2 ++ [w.gate])) ([], [])).2

/-- `NewLayer`, circuit/layers.go:26-33. -/
def newLayer (wires : List (Wire F)) : Layer F where
  wires := wires
  gates := gatesOf wires
  bGInputs := bGInputsOf wires
  bGOutputs := bGOutputsOf wires

/-- The unfolded table of one gate, part of `GetStaticTable`, circuit/layers.go:48-54. -/
def rawStaticTable (l : Layer F) (gate : Gate F) : Go (Table F) :=
  let gO := 1 <<< (2 * l.bGInputs)
  let gL := 1 <<< l.bGInputs
  forEach l.wires (List.replicate ((1 <<< l.bGOutputs) * (1 <<< (2 * l.bGInputs))) (0 : F)) fun w tab =>
    if w.gate.id = gate.id then modIdx tab (gO * w.O + gL * w.L + w.R) (fun x => x + 1)
    else .ok tab

/-- `GetStaticTable`, circuit/layers.go:37-64. -/
def getStaticTable (l : Layer F) (q : List F) : Go (List (Table F)) :=
  mapGo (fun gate => do
    let tab ← rawStaticTable l gate
    return q.foldl fold tab) l.gates

/-- The body of one goroutine of `Evaluate`, circuit/layers.go:78-95.
The index of the right operand is `wRN*N+h` with `wRN = w.R*N`, as in the source (line 91). -/
def evaluateChunk (l : Layer F) (inps : List F) : Go (List F) :=
  let GInputs := 1 <<< l.bGInputs
  let GOutputs := 1 <<< l.bGOutputs
  let N := inps.length / GInputs
  forEach l.wires (List.replicate (N * GOutputs) (0 : F)) fun w subRes =>
    let wON := w.O * N
    let wLN := w.L * N
    let wRN := w.R * N
    forN N subRes fun h subRes => do
      let vL ← idx inps (wLN + h)
      let vR ← idx inps (wRN * N + h)
      let tmp := w.gate.eval vL vR
      modIdx subRes (wON + h) (fun x => x + tmp)

/-- `Layer.Evaluate`, circuit/layers.go:68-102, its goroutines run one after the other
(all schedules: C21). -/
def Layer.evaluate (l : Layer F) (inputs : List (List F)) (nCore : Int) : Go (List (List F)) := do
  semaphoreSection nCore inputs.length
  mapGo (evaluateChunk l) inputs

/-- `Circuit`, circuit/circuit.go:13-15. -/
structure Circuit (F : Type) where
  layers : List (Layer F)

/-- `NewCircuit`, circuit/circuit.go:24-34. -/
def newCircuit (wiring : List (List (Wire F))) : Circuit F where
  layers := wiring.map newLayer

/-- The loop of `Assign`, circuit/circuit.go:43-45. -/
def assignFrom (nCore : Int) : List (Layer F) → List (List F) → Go (List (List (List F)))
  | [], cur => .ok [cur]
  | l :: ls, cur => do
    let nxt ← l.evaluate cur nCore
    let rest ← assignFrom nCore ls nxt
    return cur :: rest

/-- `Assign`, circuit/circuit.go:37-47; the result is `Assignment.Values` (19-21). -/
def Circuit.assign (c : Circuit F) (inputs : List (List F)) (nCore : Int) :
    Go (List (List (List F))) :=
  assignFrom nCore c.layers inputs

/-- `LayerAsBKTWithCopy`, circuit/circuit.go:50-68: a copy, the identity on values. -/
def layerAsBKTWithCopy (values : List (List (List F))) (layer : Nat) (nCore : Int) :
    Go (List (Table F)) := do
  let v ← idx values layer
  semaphoreSection nCore v.length
  return v

/-- `LayerAsBKTNoCopy`, circuit/circuit.go:71-78. -/
def layerAsBKTNoCopy (values : List (List (List F))) (layer : Nat) : Go (List (Table F)) :=
  idx values layer

end GkrMimc
