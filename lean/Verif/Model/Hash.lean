import Verif.Go
import Verif.Model.Arks

/-! Model of package `hash`. The functions that update a slice or a pointer in place return the new value. The round
constants are a parameter (`Arks` for the package), so that the panics of `Arks[i]` are visible. -/

namespace GkrMimc

variable {F : Type} [Field F]

/-- `MimcRounds`, hash/mimc.go:8. -/
def mimcRounds : Nat := 91

/-- `SBoxInplace`, hash/poseidon.go:129-135. -/
def sbox (x : F) : F :=
  let tmp := x
  let x := x * x
  let x := x * tmp
  let x := x * x
  x * tmp

/-- `MimcPermutationInPlace`, hash/mimc.go:30-36. -/
def mimcPermutation (arks : List F) (state block : F) : Go F :=
  forN mimcRounds state fun i state => do
    let state := state + block
    let ark ← idx arks i
    let state := state + ark
    return sbox state

/-- `MimcUpdateInplace`, hash/mimc.go:21-27. -/
def mimcUpdate (arks : List F) (state block : F) : Go F := do
  let oldState := state
  let state ← mimcPermutation arks state block
  let state := state + oldState
  return state + block

/-- `MimcHash`, hash/mimc.go:11-18. -/
def mimcHashGo (arks : List F) (input : List F) : Go F :=
  forEach input (0 : F) fun x state => mimcUpdate arks state x

/-- `AddArkAndKeysInplace`, hash/poseidon.go:146-151. -/
def addArkAndKeys (state keys : List F) (ark : F) : Go (List F) :=
  forN state.length state fun i state => do
    let k ← idx keys i
    let state ← modIdx state i (· + k)
    modIdx state i (· + ark)

/-- `FullRoundInPlace`, hash/poseidon.go:139-143. -/
def fullRound (state : List F) : Go (List F) :=
  forN state.length state fun i state => modIdx state i sbox

/-- `PartialRoundInplace`, hash/poseidon.go:154-156. -/
def partialRound (state : List F) : Go (List F) := modIdx state 0 sbox

/-- `MatrixMultiplication`, hash/poseidon.go:115-126. -/
def matrixMultiplication (mat : List (List F)) (vec : List F) : Go (List F) :=
  forN mat.length (List.replicate mat.length (0 : F)) fun i res => do
    let col ← idx mat i
    forN col.length res fun j res => do
      let el ← idx col j
      let v ← idx vec j
      modIdx res i (· + v * el)

/-- `GenerateMDSMatrix`, hash/poseidon.go:100-111; `xs`, `ys` are `xArr`, `yArr`. `Inverse` maps 0 to 0, as in gurvy. -/
def generateMDSMatrix (xs ys : List F) (t : Nat) : Go (List (List F)) :=
  gen t fun i => gen t fun j => do
    let x ← idx xs i
    let y ← idx ys j
    return (x + y)⁻¹

/-- `PoseidonHasher`, hash/poseidon.go:25-30. -/
structure PoseidonHasher (F : Type) where
  t : Nat
  cauchy : List (List F)
  nRoundsF : Nat
  nRoundsP : Nat

/-- `newPoseidonHasher`, hash/poseidon.go:33-40. -/
def newPoseidonHasher (xs ys : List F) (t nRoundsF nRoundsP : Nat) : Go (PoseidonHasher F) := do
  let cauchy ← generateMDSMatrix xs ys t
  return { t := t, nRoundsF := nRoundsF, nRoundsP := nRoundsP, cauchy := cauchy }

/-- The variable `state` of `Update`, hash/poseidon.go:68-97: at first it is the caller's slice; after an assignment
`state = …` it is a slice of its own. `caller` is the content of the caller's array, `own` that of the new one. -/
structure StateVar (F : Type) where
  caller : List F
  own : Option (List F)

/-- What the variable denotes. -/
def StateVar.cur (s : StateVar F) : List F := s.own.getD s.caller

/-- A write through the variable. -/
def StateVar.write (s : StateVar F) (v : List F) : StateVar F :=
  match s.own with
  | none => { s with caller := v }
  | some _ => { s with own := some v }

/-- `state = v` for a freshly allocated `v`. -/
def StateVar.rebind (s : StateVar F) (v : List F) : StateVar F := { s with own := some v }

/-- One round of `Update`, hash/poseidon.go:74-90 (the bodies of the three loops). -/
def poseidonRound (p : PoseidonHasher F) (arks block : List F) (sub : List F → Go (List F)) (i : Nat)
    (s : StateVar F) : Go (StateVar F) := do
  let ark ← idx arks i
  let v ← addArkAndKeys s.cur block ark
  let s := s.write v
  let v ← sub s.cur
  let s := s.write v
  let v ← matrixMultiplication p.cauchy s.cur
  return s.rebind v

/-- The last loop of `Update`, hash/poseidon.go:93-96, also of `UpdateInplace`, hash/gmimc.go:61-64. -/
def recombine (state oldState block : List F) : Go (List F) :=
  forN state.length state fun i state => do
    let o ← idx oldState i
    let state ← modIdx state i (· + o)
    let b ← idx block i
    modIdx state i (· + b)

/-- `Update`, hash/poseidon.go:68-97. Returns the variable `state` at the end; the caller sees its field `caller`. -/
def poseidonUpdateVar (p : PoseidonHasher F) (arks state block : List F) : Go (StateVar F) := do
  let oldState := state
  let s : StateVar F := { caller := state, own := none }
  let s ← forFrom (fun i s => poseidonRound p arks block fullRound i s) 0 p.nRoundsF s
  let s ← forFrom (fun i s => poseidonRound p arks block partialRound i s) p.nRoundsF p.nRoundsP s
  let s ← forFrom (fun i s => poseidonRound p arks block fullRound i s) (p.nRoundsF + p.nRoundsP) p.nRoundsF s
  let v ← recombine s.cur oldState block
  return s.write v

/-- `Update`, hash/poseidon.go:68-97: the effect on the caller's slice. -/
def poseidonUpdate (p : PoseidonHasher F) (arks state block : List F) : Go (List F) := do
  let s ← poseidonUpdateVar p arks state block
  return s.caller

/-- The block read at position `i`, loop body of `Hash`, hash/poseidon.go:47-58, and of `Hash`, hash/gmimc.go:33-44. -/
def readBlock (t : Nat) (msg : List F) (i : Nat) : Go (List F) := do
  let block := List.replicate t (0 : F)
  let words ← if i + t ≥ msg.length then sliceBetween msg i msg.length else sliceBetween msg i (i + t)
  forN words.length block fun j block => do
    let w ← idx words j
    setIdx block j w

/-- The loop `for i := 0; i < len(msg); i += t` of the two `Hash` functions: `⌈len/t⌉` rounds. For `t = 0` the source loops
for ever on a non-empty message; the model stops at once (the package only builds hashers with `t` = 2, 4, 8). -/
def hashLoop (t : Nat) (update : List F → List F → Go (List F)) (msg : List F) : Go F := do
  let state ← forN ((msg.length + t - 1) / t) (List.replicate t (0 : F)) fun n state => do
    let block ← readBlock t msg (n * t)
    update state block
  idx state 0

/-- `Hash`, hash/poseidon.go:43-63. -/
def poseidonHash (p : PoseidonHasher F) (arks msg : List F) : Go F :=
  hashLoop p.t (poseidonUpdate p arks) msg

/-- `InPlaceCircularPermutation`, hash/gmimc.go:70-74. -/
def circularPermutation (state : List F) : Go (List F) :=
  forFrom (fun i state => do
    let a ← idx state i
    let b ← idx state (i - 1)
    let state ← setIdx state (i - 1) a
    setIdx state i b) 1 (state.length - 1) state

/-- `GMimcHasher`, hash/gmimc.go:23-26. -/
structure GMimcHasher where
  t : Nat
  nRounds : Nat

/-- The cipher of `UpdateInplace`, hash/gmimc.go:54-58. -/
def gmimcCipher (g : GMimcHasher) (arks state block : List F) : Go (List F) :=
  forN g.nRounds state fun i state => do
    let ark ← idx arks i
    let state ← addArkAndKeys state block ark
    let state ← modIdx state 0 sbox
    circularPermutation state

/-- `UpdateInplace`, hash/gmimc.go:52-65. -/
def gmimcUpdate (g : GMimcHasher) (arks state block : List F) : Go (List F) := do
  let oldState := state
  let state ← gmimcCipher g arks state block
  recombine state oldState block

/-- `Hash`, hash/gmimc.go:29-49. -/
def gmimcHash (g : GMimcHasher) (arks msg : List F) : Go F :=
  hashLoop g.t (gmimcUpdate g arks) msg

/-- `GMimcT2`, `GMimcT4`, `GMimcT8`, set by `initGMimc`, hash/gmimc.go:16-20. -/
def gmimcT (t : Nat) : GMimcHasher := { t := t, nRounds := 91 }

/-- `PoseidonT2`, `PoseidonT4`, `PoseidonT8`, set by `initPoseidon`, hash/poseidon.go:18-22. -/
def poseidonT2 : Go (PoseidonHasher Fr) := newPoseidonHasher xArr yArr 2 8 82
@[inherit_doc poseidonT2] def poseidonT4 : Go (PoseidonHasher Fr) := newPoseidonHasher xArr yArr 4 8 83
@[inherit_doc poseidonT2] def poseidonT8 : Go (PoseidonHasher Fr) := newPoseidonHasher xArr yArr 8 8 84

end GkrMimc
