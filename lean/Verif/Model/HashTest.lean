import Verif.Model.Hash

/-! Model of the test of package `hash`. -/

namespace GkrMimc

/-- `TestHashes`, hash/hash_test.go:9-18, for a message in the place of the 100 zeros: the seven results, which the source
drops. -/
def hashesTest (inputs : List Fr) : Go (List Fr) := do
  let p2 ← poseidonT2
  let p4 ← poseidonT4
  let p8 ← poseidonT8
  let a ← poseidonHash p2 arks inputs
  let b ← poseidonHash p4 arks inputs
  let c ← poseidonHash p8 arks inputs
  let d ← gmimcHash (gmimcT 2) arks inputs
  let e ← gmimcHash (gmimcT 4) arks inputs
  let f ← gmimcHash (gmimcT 8) arks inputs
  let g ← mimcHashGo arks inputs
  return [a, b, c, d, e, f, g]

end GkrMimc
