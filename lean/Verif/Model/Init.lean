import Verif.Model.Hash
import Verif.Model.Polynomial

/-! Model of the initialisation of the packages `hash` and `polynomial`: their variables before and after `init`. -/

namespace GkrMimc

/-- The package variables of `hash`: hash/ark.go:9-13, hash/poseidon.go:7-14, hash/gmimc.go:7-14. -/
structure HashVars where
  xArr : List Fr
  yArr : List Fr
  arks : List Fr
  poseidonT2 : PoseidonHasher Fr
  poseidonT4 : PoseidonHasher Fr
  poseidonT8 : PoseidonHasher Fr
  gmimcT2 : GMimcHasher
  gmimcT4 : GMimcHasher
  gmimcT8 : GMimcHasher

/-- The zero value of the variables. -/
def HashVars.zero : HashVars := ⟨[], [], [], ⟨0, [], 0, 0⟩, ⟨0, [], 0, 0⟩, ⟨0, [], 0, 0⟩, ⟨0, 0⟩, ⟨0, 0⟩, ⟨0, 0⟩⟩

/-- `make([]fr.Element, 100)` followed by one of the three loops of `initArk`, part of `initArk`, hash/ark.go:17-125 (and
127-230, 232-336): `SetString` of the constants. -/
def fillArray (nats : List Nat) : Go (List Fr) :=
  forN nats.length (List.replicate 100 0) fun i t => do
    let n ← idx nats i
    setIdx t i (n : Fr)

/-- `initArk`, hash/ark.go:15-337. -/
def initArk (v : HashVars) : Go HashVars := do
  let x ← fillArray xNats
  let y ← fillArray yNats
  let a ← fillArray arkNats
  return { v with xArr := x, yArr := y, arks := a }

/-- `initPoseidon`, hash/poseidon.go:18-22. -/
def initPoseidon (v : HashVars) : Go HashVars := do
  let t2 ← newPoseidonHasher v.xArr v.yArr 2 8 82
  let t4 ← newPoseidonHasher v.xArr v.yArr 4 8 83
  let t8 ← newPoseidonHasher v.xArr v.yArr 8 8 84
  return { v with poseidonT2 := t2, poseidonT4 := t4, poseidonT8 := t8 }

/-- `initGMimc`, hash/gmimc.go:16-20. -/
def initGMimc (v : HashVars) : HashVars := { v with gmimcT2 := ⟨2, 91⟩, gmimcT4 := ⟨4, 91⟩, gmimcT8 := ⟨8, 91⟩ }

/-- `init`, hash/hash.go:3-7. -/
def hashInit (v : HashVars) : Go HashVars := do
  let v ← initArk v
  let v ← initPoseidon v
  return initGMimc v

variable {F : Type} [Field F]

/-- `initLagrangePolynomials`, polynomial/lagrange.go:23-28, called by `init`, polynomial/lagrange.go:9-11: the value of the
variable `lagrangePolynomials`. -/
def initLagrangePolynomials : Go (List (List (List F))) :=
  forN (maxDomainSize + 1) (List.replicate (maxDomainSize + 1) []) fun i t => do
    let m ← lagrangeCoefficient i
    setIdx t i m

end GkrMimc
