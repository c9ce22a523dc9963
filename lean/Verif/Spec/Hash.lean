import Verif.Model.Arks
import Mathlib.Logic.Function.Basic

/-! Specification of the hash functions. -/

namespace GkrMimc.Spec

variable {F : Type} [Field F]

/-- MiMC with key `m`: one round `x ↦ (x + m + c)^7` for each round constant `c`. -/
def mimcCipher (consts : List F) (m x : F) : F := consts.foldl (fun x c => (x + m + c) ^ 7) x

/-- The Miyaguchi–Preneel step `s ↦ E_m(s) + s + m`. -/
def mimcStep (consts : List F) (s m : F) : F := mimcCipher consts m s + s + m

/-- The chaining of a message, from 0. -/
def mimcChain (consts : List F) (msg : List F) : F := msg.foldl (mimcStep consts) 0

/-- The hash of the package: 91 rounds. -/
def mimcHash (msg : List Fr) : Fr := mimcChain (arks.take 91) msg

/-- GMiMC with a key per state word: add key and constant to all words, raise the first one to the seventh power, rotate
left. -/
def gmimcRound (key : List F) (state : List F) (c : F) : List F :=
  ((state.zipWith (fun x k => x + k + c) key).modifyHead (· ^ 7)).rotate 1

/-- All the rounds. -/
def gmimcRounds (consts key state : List F) : List F := consts.foldl (gmimcRound key) state

/-- Word-wise sum. -/
def addWords (a b : List F) : List F := a.zipWith (· + ·) b

/-- Block `n` of the message, zero-padded to `t` words. -/
def paddedBlock (t : Nat) (msg : List F) (n : Nat) : List F := (List.range t).map fun j => msg.getD (n * t + j) 0

/-- All blocks. -/
def paddedBlocks (t : Nat) (msg : List F) : List (List F) :=
  (List.range ((msg.length + t - 1) / t)).map (paddedBlock t msg)

/-- Chaining of blocks from the zero state; the hash is the first word. -/
def chainBlocks (t : Nat) (step : List F → List F → List F) (msg : List F) : F :=
  ((paddedBlocks t msg).foldl step (List.replicate t 0)).getD 0 0

/-- The GMiMC hash. -/
def gmimcHash (consts : List F) (t : Nat) (msg : List F) : F :=
  chainBlocks t (fun s b => addWords (addWords (gmimcRounds consts b s) s) b) msg

/-- `M v`. -/
def matVec (M : List (List F)) (v : List F) : List F := M.map fun row => (row.zipWith (· * ·) v).sum

/-- A Poseidon round: add key and constant to all words, S-box on all words or on the first one, mix. -/
def poseidonRound (M : List (List F)) (full : Bool) (key : List F) (state : List F) (c : F) : List F :=
  let s := state.zipWith (fun x k => x + k + c) key
  matVec M (if full then s.map (· ^ 7) else s.modifyHead (· ^ 7))

/-- The Poseidon permutation: full, partial, full rounds. -/
def poseidonPerm (M : List (List F)) (cF cP cF' : List F) (key state : List F) : List F :=
  cF'.foldl (poseidonRound M true key) (cP.foldl (poseidonRound M false key) (cF.foldl (poseidonRound M true key) state))

/-- The intended Poseidon hash (Miyaguchi–Preneel). -/
def poseidonHash (M : List (List F)) (cF cP cF' : List F) (t : Nat) (msg : List F) : F :=
  chainBlocks t (fun s b => addWords (addWords (poseidonPerm M cF cP cF' b s) s) b) msg

end GkrMimc.Spec
