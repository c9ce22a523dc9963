import Verif.Proofs.SnarkGkr
import Verif.Proofs.GkrHonest

/-! Assigning native values to the slots of a gadget. -/

set_option linter.unusedSectionVars false

namespace GkrMimc

open Spec

variable {F : Type} [Field F]

/-- A loop replacing entry `i` of a list, from `e xᵢ` to `r xᵢ`. -/
theorem forN_replace {α β : Type} (xs : List α) (e r : α → β) (body : Nat → List β → Go (List β))
    (h : ∀ (i : Nat) (hi : i < xs.length) (f : Nat → β), f i = e xs[i] →
      body i (tab xs.length f) = .ok (tab xs.length (Function.update f i (r xs[i])))) :
    forN xs.length (xs.map e) body = .ok (xs.map r) := by
  rcases xs with _ | ⟨x0, xs⟩
  · rfl
  generalize hl : x0 :: xs = l at h ⊢
  have := forN_eq (body := body) (fun i => tab l.length (fun j => if j < i then r (l.getD j x0) else e (l.getD j x0)))
    l.length (by
      intro i hi
      have e1 : l[i] = l.getD i x0 := by simp [hi]
      rw [h i hi _ (by rw [if_neg (by omega), e1])]
      congr 1
      apply tab_congr
      intro j _
      by_cases hj : j = i
      · subst hj; rw [Function.update_self, if_pos (by omega), e1]
      · rw [Function.update_of_ne hj]
        by_cases h2 : j < i
        · rw [if_pos h2, if_pos (by omega)]
        · rw [if_neg h2, if_neg (by omega)])
  have e0 : tab l.length (fun j => if j < 0 then r (l.getD j x0) else e (l.getD j x0)) = l.map e := by
    conv_rhs => rw [eq_tab l x0]
    rw [tab_map]
    apply tab_congr
    intro j _
    rw [if_neg (by omega)]
  have en : tab l.length (fun j => if j < l.length then r (l.getD j x0) else e (l.getD j x0)) = l.map r := by
    conv_rhs => rw [eq_tab l x0]
    rw [tab_map]
    apply tab_congr
    intro j hj
    rw [if_pos hj]
  rw [e0, en] at this
  exact this

theorem slotsAssign_tab {n i : Nat} (hi : i < n) (f : Nat → Option F) (hf : f i = none) (x : F) :
    slotsAssign (tab n f) i x = .ok (tab n (Function.update f i (some x))) := by
  unfold slotsAssign slotAssign
  rw [idx_tab hi, ok_bind, hf]
  dsimp only
  rw [ok_bind, setIdx_tab hi]

theorem map_none (xs : List F) : xs.map (fun _ => (none : Option F)) = List.replicate xs.length none := by
  simp

/-- The empty slots for a list of polynomials. -/
def emptySlots (c : List F) : List (Option F) := List.replicate c.length none

theorem uniAssign_ok (c : List F) : uniAssign (emptySlots c) c = .ok (c.map some) := by
  unfold uniAssign emptySlots
  rw [if_neg (by simp), ← map_none]
  apply forN_replace
  intro i hi f hf
  rw [idx_ok hi, ok_bind, slotsAssign_tab hi f hf]

theorem mlAssign_ok (c : List F) : mlAssign (emptySlots c) c = .ok (c.map some) := by
  unfold mlAssign emptySlots
  rw [if_neg (by simp), ← map_none]
  apply forN_replace
  intro i hi f hf
  rw [idx_ok hi, ok_bind, slotsAssign_tab hi f hf]

theorem sumcheckAssign_ok (polys : List (List F)) :
    sumcheckAssign (polys.map emptySlots) polys = .ok (polys.map (List.map some)) := by
  unfold sumcheckAssign
  rw [if_neg (by simp)]
  apply forN_replace
  intro i hi f hf
  rw [idx_ok hi, ok_bind, idx_tab hi, ok_bind, hf, uniAssign_ok, ok_bind, setIdx_tab hi]

/-- Every value of a proof wrapped in a filled slot. -/
def GkrProof.filled (proof : GkrProof F) : GkrProof (Option F) :=
  ⟨proof.sumcheckProofs.map (List.map (List.map some)), proof.claimsLeft.map some, proof.claimsRight.map some⟩

/-- The empty slots for a proof. -/
def GkrProof.empty (proof : GkrProof F) : GkrProof (Option F) :=
  ⟨proof.sumcheckProofs.map (List.map emptySlots), emptySlots proof.claimsLeft, emptySlots proof.claimsRight⟩

theorem snarkAssign_ok (proof : GkrProof F) (h1 : proof.claimsLeft.length = proof.sumcheckProofs.length)
    (h2 : proof.claimsRight.length = proof.sumcheckProofs.length) :
    snarkAssign proof.empty proof = .ok proof.filled := by
  obtain ⟨sps, cl, cr⟩ := proof
  dsimp only at h1 h2
  unfold snarkAssign GkrProof.empty GkrProof.filled
  dsimp only
  rw [List.length_map]
  set n := sps.length with hn
  have := forN_eq (body := fun k (p : GkrProof (Option F)) => do
      let s ← idx p.sumcheckProofs k
      let sp ← idx sps k
      let s' ← sumcheckAssign s sp
      let sps ← setIdx p.sumcheckProofs k s'
      let x ← idx cl k
      let cls ← slotsAssign p.claimsLeft k x
      let y ← idx cr k
      let crs ← slotsAssign p.claimsRight k y
      return (⟨sps, cls, crs⟩ : GkrProof (Option F)))
    (fun i => ⟨tab n (fun j => if j < i then (sps.getD j []).map (List.map some) else (sps.getD j []).map emptySlots),
      tab n (fun j => if j < i then some (cl.getD j 0) else none),
      tab n (fun j => if j < i then some (cr.getD j 0) else none)⟩) n (by
    intro i hi
    dsimp only
    have e1 : idx sps i = .ok (sps.getD i []) := idx_getD hi []
    have e2 : idx cl i = .ok (cl.getD i 0) := idx_getD (by omega) 0
    have e3 : idx cr i = .ok (cr.getD i 0) := idx_getD (by omega) 0
    rw [idx_tab hi, ok_bind, if_neg (by omega), e1, ok_bind, sumcheckAssign_ok, ok_bind, setIdx_tab hi, ok_bind, e2, ok_bind,
      slotsAssign_tab hi _ (by rw [if_neg (by omega)]), ok_bind, e3, ok_bind,
      slotsAssign_tab hi _ (by rw [if_neg (by omega)]), ok_bind, go_pure]
    congr 2 <;>
    · apply tab_congr
      intro j _
      by_cases hj : j = i
      · subst hj; rw [Function.update_self, if_pos (by omega)]
      · rw [Function.update_of_ne hj]
        by_cases h2 : j < i
        · rw [if_pos h2, if_pos (by omega)]
        · rw [if_neg h2, if_neg (by omega)])
  have e0 : (⟨tab n (fun j => if j < 0 then (sps.getD j []).map (List.map some) else (sps.getD j []).map emptySlots),
      tab n (fun j => if j < 0 then some (cl.getD j 0) else none),
      tab n (fun j => if j < 0 then some (cr.getD j 0) else none)⟩ : GkrProof (Option F)) =
      ⟨sps.map (List.map emptySlots), emptySlots cl, emptySlots cr⟩ := by
    simp only [Nat.not_lt_zero, if_false]
    unfold emptySlots
    rw [h1, h2, replicate_eq_tab]
    congr 1
    conv_rhs => rw [eq_tab sps []]
    rw [tab_map]
  have en : (⟨tab n (fun j => if j < n then (sps.getD j []).map (List.map some) else (sps.getD j []).map emptySlots),
      tab n (fun j => if j < n then some (cl.getD j 0) else none),
      tab n (fun j => if j < n then some (cr.getD j 0) else none)⟩ : GkrProof (Option F)) =
      ⟨sps.map (List.map (List.map some)), cl.map some, cr.map some⟩ := by
    congr 1
    · conv_rhs => rw [eq_tab sps []]
      rw [tab_map]
      exact tab_congr fun j hj => if_pos hj
    · conv_rhs => rw [eq_tab cl 0]
      rw [tab_map, h1]
      exact tab_congr fun j hj => if_pos hj
    · conv_rhs => rw [eq_tab cr 0]
      rw [tab_map, h2]
      exact tab_congr fun j hj => if_pos hj
  rw [e0, en] at this
  exact this

/-! ### Chunks -/

theorem interleavedChunk_tab (K M s : Nat) (hK : 0 < K) (hs : s < K) (f : Nat → F) :
    interleavedChunk (tab (M * K) f) s K = .ok (tab M (fun i => f (i * K + s))) := by
  unfold interleavedChunk
  rw [tab_length, goDiv_ok hK, ok_bind, Nat.mul_div_cancel _ hK]
  apply gen_ok
  intro i hi
  rw [idx_tab (by rw [add_comm]; exact mul_add_lt hi hs), add_comm]

theorem assignChunked_ok (K M : Nat) (f : Nat → F) :
    assignFromChunkedBKT (List.replicate (M * K) none) (chunksOf K M f) = .ok ((tab (M * K) f).map some) := by
  rcases Nat.eq_zero_or_pos K with hK | hK
  · subst hK; rfl
  unfold assignFromChunkedBKT chunksOf
  dsimp only
  rw [tab_length, replicate_eq_tab, tab_map]
  have hmod : ∀ b i, b < K → i < M → (b + i * K) % K = b ∧ (b + i * K) / K = i := by
    intro b i hb _
    refine ⟨by rw [Nat.add_mul_mod_self_right, Nat.mod_eq_of_lt hb], ?_⟩
    rw [Nat.add_mul_div_right _ _ hK, Nat.div_eq_of_lt hb, Nat.zero_add]
  have houter := forN_eq (body := fun b (t : List (Option F)) => do
      let chunk ← idx (tab K fun s => tab M fun u => f (u * K + s)) b
      forN chunk.length t fun i t => do
        let x ← idx chunk i
        slotsAssign t (b + i * K) x)
    (fun b => tab (M * K) (fun j => if j % K < b then some (f j) else none)) K (by
    intro b hb
    rw [idx_tab hb, ok_bind, tab_length]
    have hinner := forN_eq (body := fun i (t : List (Option F)) => do
        let x ← idx (tab M fun u => f (u * K + b)) i
        slotsAssign t (b + i * K) x)
      (fun i => tab (M * K) (fun j => if j % K < b ∨ (j % K = b ∧ j / K < i) then some (f j) else none)) M (by
      intro i hi
      obtain ⟨m1, m2⟩ := hmod b i hb hi
      have hlt : b + i * K < M * K := by rw [add_comm]; exact mul_add_lt hi hb
      rw [idx_tab hi, ok_bind, slotsAssign_tab hlt _ (by rw [m1, m2, if_neg (by omega)])]
      congr 1
      apply tab_congr
      intro j _
      by_cases hj : j = b + i * K
      · rw [hj, Function.update_self, m1, m2, if_pos (by omega), add_comm b]
      · rw [Function.update_of_ne hj]
        have hne : ¬ (j % K = b ∧ j / K = i) := by
          rintro ⟨a, c⟩
          apply hj
          rw [← a, ← c, mul_comm]; exact (Nat.mod_add_div j K).symm
        by_cases h2 : j % K < b ∨ (j % K = b ∧ j / K < i)
        · rw [if_pos h2, if_pos (by omega)]
        · rw [if_neg h2, if_neg (by omega)])
    have e0 : tab (M * K) (fun j => if j % K < b ∨ (j % K = b ∧ j / K < 0) then some (f j) else none) =
        tab (M * K) (fun j => if j % K < b then some (f j) else none) := by
      apply tab_congr
      intro j _
      simp
    have en : tab (M * K) (fun j => if j % K < b ∨ (j % K = b ∧ j / K < M) then some (f j) else none) =
        tab (M * K) (fun j => if j % K < b + 1 then some (f j) else none) := by
      apply tab_congr
      intro j hj
      have : j / K < M := by rw [Nat.div_lt_iff_lt_mul hK]; exact hj
      by_cases h2 : j % K < b + 1
      · rw [if_pos h2, if_pos (by omega)]
      · rw [if_neg h2, if_neg (by omega)]
    rw [e0, en] at hinner
    exact hinner)
  have e0 : tab (M * K) (fun j => if j % K < 0 then some (f j) else none) = tab (M * K) (fun _ => none) := by
    apply tab_congr
    intro j _
    simp
  have en : tab (M * K) (fun j => if j % K < K then some (f j) else none) = tab (M * K) (fun j => some (f j)) := by
    apply tab_congr
    intro j _
    rw [if_pos (Nat.mod_lt _ hK)]
  rw [e0, en] at houter
  exact houter

end GkrMimc
