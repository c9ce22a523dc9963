import Verif.Proofs.CellLabels
import Verif.Model.ConcGkr

/-! The labels of the memory operations of the parts of the prover say what the operations do. -/

namespace GkrMimc

open Spec

set_option linter.unusedSectionVars false

variable {F : Type} [Field F] [DecidableEq F]

theorem labC_makeE {n : Nat} {K : Slice → CProg F} (g : ∀ s, Labelled (K s)) : Labelled (makeE n K) := labC_make g

theorem labC_makeS {n : Nat} {K : Slice → CProg F} (g : ∀ s, Labelled (K s)) : Labelled (makeS n K) := labC_make g

theorem labC_fold {bkt : Slice} {r : F} {K : Slice → CProg F} (g : ∀ s, Labelled (K s)) : Labelled (foldC bkt r K) :=
  labC_liftGo fun _ => labC_liftGo fun _ => labC_loop (fun _ _ _ hP => labC_loadE fun _ => labC_loadE fun _ => labC_store <| labC_loadE fun _ =>
    labC_store <| labC_loadE fun _ => labC_loadE fun _ => labC_store (hP _)) (fun _ => labC_liftGo g) _ _ _

theorem labC_linearCombination {a b : Slice} {x y : F} {K : Slice → CProg F} (g : ∀ s, Labelled (K s)) : Labelled (linearCombinationC a b x y K) :=
  labC_loop (fun _ _ _ hP => labC_loadE fun _ => labC_store <| labC_loadE fun _ => labC_store <| labC_loadE fun _ => labC_loadE fun _ =>
    labC_store (hP _)) (fun _ => g _) _ _ _

theorem labC_foldedEq {q : List F} {K : Slice → CProg F} (g : ∀ s, Labelled (K s)) : Labelled (getFoldedEqTableC q K) :=
  labC_makeE fun _ => labC_store <| labC_loop (fun _ _ _ hP => labC_liftGo fun _ => labC_loop (fun _ _ _ hP => labC_loadE fun _ => labC_store <|
    labC_loadE fun _ => labC_loadE fun _ => labC_store (hP _)) (fun _ => hP _) _ _ _) (fun _ => g _) _ _ _

theorem labC_chunkedEq {q : List F} {n : Nat} {nCore : Int} {K : Slice → CProg F} (g : ∀ s, Labelled (K s)) :
    Labelled (getChunkedEqTableC q n nCore K) :=
  labC_makeS fun _ => labC_liftGo fun _ => labC_foldedEq fun _ => labC_store <| labC_liftGo fun _ => labC_loop (fun _ _ _ hP => labC_liftGo fun _ =>
    labC_loop (fun _ _ _ hP => labC_liftGo fun _ => labC_loadS fun _ => labC_mul _ _ _ _ <| labC_liftGo fun _ => labC_loadS fun _ => labC_loadS fun _ =>
      labC_sub _ _ _ _ (hP _)) (fun _ => hP _) _ _ _) (fun _ => g _) _ _ _

theorem labC_foldAll {K : Slice → CProg F} (g : ∀ s, Labelled (K s)) : ∀ (q : List F) (bkt : Slice), Labelled (foldAllC q bkt K)
  | [], _ => g _
  | _ :: q, _ => labC_fold fun _ => labC_foldAll g q _

theorem labC_rawStatic {l : Layer F} {gate : Gate F} {K : Slice → CProg F} (g : ∀ s, Labelled (K s)) : Labelled (rawStaticTableC l gate K) := by
  refine labC_makeE fun _ => labC_each (fun w P hP => ?_) (g _) _
  split
  · exact labC_loadE fun _ => labC_store hP
  · exact hP

theorem labC_static {l : Layer F} {q : List F} {K : Slice → CProg F} (g : ∀ s, Labelled (K s)) : Labelled (getStaticTableC l q K) :=
  labC_makeS fun _ => labC_loop (fun _ _ _ hP => labC_liftGo fun _ => labC_rawStatic fun _ => labC_foldAll (fun _ => labC_store (hP _)) _ _)
    (fun _ => g _) _ _ _

theorem labC_initial (p : GkrProverC F) (qPrime q : List F) (nCore : Int) {K : Layer F → RoundTables → CProg F} (g : ∀ l t, Labelled (K l t)) :
    Labelled (p.initialTables qPrime q nCore K) :=
  labC_liftGo fun _ => labC_static fun _ => labC_layerAsBKTWithCopy _ _ _ fun _ => labC_layerAsBKTWithCopy _ _ _ fun _ => labC_chunkedEq fun _ => g _ _

theorem labC_intermediate (p : GkrProverC F) (layer : Nat) (qPrime qL qR : List F) (x y : F) (nCore : Int) {K : Layer F → RoundTables → CProg F}
    (g : ∀ l t, Labelled (K l t)) : Labelled (p.intermediateTables layer qPrime qL qR x y nCore K) :=
  labC_layerAsBKTWithCopy _ _ _ fun _ => labC_layerAsBKTWithCopy _ _ _ fun _ => labC_chunkedEq fun _ => labC_liftGo fun _ => labC_static fun _ =>
    labC_static fun _ => labC_makeS fun _ => labC_loop (fun _ _ _ hP => labC_loadS fun _ => labC_loadS fun _ => labC_linearCombination fun _ =>
      labC_store (hP _)) (fun _ => g _ _) _ _ _

end GkrMimc
