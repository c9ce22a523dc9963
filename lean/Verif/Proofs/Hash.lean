import Verif.Model.Hash
import Verif.Spec.Hash
import Verif.Proofs.GoLemmas
import Mathlib.FieldTheory.Finite.Basic
import Mathlib.Data.List.Rotate
import Mathlib.LinearAlgebra.Matrix.ToLinearEquiv
import Mathlib.Algebra.Polynomial.BigOperators
import Mathlib.Algebra.Polynomial.Roots

/-! Proofs about the hash functions. -/

set_option linter.unusedSectionVars false

namespace GkrMimc

open Spec

variable {F : Type} [Field F]

theorem sbox_eq (x : F) : sbox x = x ^ 7 := by unfold sbox; ring

/-- `x ↦ x^7` has the inverse `x ↦ x^e` with `7 e = 4 (r-1) + 1`. -/
theorem pow7_bijective : Function.Bijective (fun x : Fr => x ^ 7) := by
  have key : ∀ x : Fr, (x ^ 7) ^ 12507567355336728698426517568718442907741922514523448196398973820900461997495 = x := by
    intro x
    rw [← pow_mul]
    have h : 7 * 12507567355336728698426517568718442907741922514523448196398973820900461997495 =
        (frModulus - 1) * 4 + 1 := by decide +kernel
    rw [h, pow_succ, pow_mul]
    by_cases hx : x = 0
    · rw [hx, mul_zero]
    · rw [ZMod.pow_card_sub_one_eq_one hx, one_pow, one_mul]
  have inj : Function.Injective (fun x : Fr => x ^ 7) := fun a b h => by
    have h : a ^ 7 = b ^ 7 := h
    rw [← key a, ← key b, h]
  exact Finite.injective_iff_bijective.1 inj

theorem forFrom_foldl {α σ : Type} (xs : List α) (body : Nat → σ → Go σ) (f : σ → α → σ)
    (h : ∀ i (hi : i < xs.length) s, body i s = .ok (f s xs[i])) : ∀ (n k : Nat) (s : σ), k + n ≤ xs.length →
    forFrom body k n s = .ok (((xs.drop k).take n).foldl f s) := by
  intro n
  induction n with
  | zero => intro k s _; simp [forFrom]
  | succ n ih =>
    intro k s hk
    rw [forFrom, h k (by omega)]
    simp only
    rw [ih (k + 1) _ (by omega), List.drop_eq_getElem_cons (show k < xs.length by omega), List.take_succ_cons,
      List.foldl_cons]

theorem mimcPermutation_eq (consts : List F) (h : 91 ≤ consts.length) (s m : F) :
    mimcPermutation consts s m = .ok (mimcCipher (consts.take 91) m s) := by
  unfold mimcPermutation forN
  rw [forFrom_foldl consts _ (fun x c => (x + m + c) ^ 7) _ mimcRounds 0 s (by simpa [mimcRounds] using h)]
  · rfl
  · intro i hi s
    rw [idx_ok hi, ok_bind, go_pure, sbox_eq]

theorem mimcCipher_bijective (consts : List Fr) (m : Fr) : Function.Bijective (mimcCipher consts m) := by
  induction consts with
  | nil => exact Function.bijective_id
  | cons c cs ih =>
    have : mimcCipher (c :: cs) m = mimcCipher cs m ∘ (fun x => x ^ 7) ∘ (fun x => x + (m + c)) := by
      funext x; simp [mimcCipher, add_assoc]
    rw [this]
    exact ih.comp (pow7_bijective.comp (AddGroup.addRight_bijective (m + c)))

theorem forEach_foldl {α σ : Type} (xs : List α) (body : α → σ → Go σ) (f : σ → α → σ)
    (h : ∀ x s, body x s = .ok (f s x)) : ∀ s, forEach xs s body = .ok (xs.foldl f s) := by
  induction xs with
  | nil => intro s; rfl
  | cons x xs ih => intro s; rw [forEach, h]; exact ih _

theorem mimcHashGo_eq (consts : List F) (h : 91 ≤ consts.length) (msg : List F) :
    mimcHashGo consts msg = .ok (mimcChain (consts.take 91) msg) := by
  unfold mimcHashGo
  apply forEach_foldl
  intro m s
  unfold mimcUpdate
  rw [mimcPermutation_eq consts h]
  rfl

theorem arks_length : arks.length = 100 := by rw [arks, List.length_map]; exact consts_length.2.2

theorem arks_pos : 0 < arks.length := by
  have := arks_length
  omega

/-! ## Loops over a state -/

theorem forN_modify (n : Nat) (l : List F) (hl : l.length = n) (body : Nat → List F → Go (List F)) (g : Nat → F → F)
    (h : ∀ i < n, ∀ s : List F, s.length = n → body i s = .ok (s.modify i (g i))) :
    forN n l body = .ok (l.mapIdx g) := by
  have key : ∀ j ≤ n, forN j l body = .ok (l.mapIdx fun i x => if i < j then g i x else x) := by
    intro j
    induction j with
    | zero =>
      intro _
      rw [forN_zero]
      congr 1
      apply List.ext_getElem <;> simp
    | succ j ih =>
      intro hj
      rw [forN_succ, ih (by omega), ok_bind, h j (by omega) _ (by simp [hl])]
      congr 1
      apply List.ext_getElem
      · simp
      intro i h1 h2
      rw [List.getElem_modify, List.getElem_mapIdx, List.getElem_mapIdx]
      by_cases hij : j = i
      · subst hij; simp
      · rw [if_neg hij]
        by_cases hlt : i < j
        · rw [if_pos hlt, if_pos (by omega)]
        · rw [if_neg hlt, if_neg (by omega)]
  rw [key n le_rfl]
  congr 1
  apply List.ext_getElem
  · simp
  intro i h1 h2
  simp only [List.length_mapIdx] at h1
  simp [hl ▸ h1]

theorem modIdx_modify {s : List F} {i : Nat} {f : F → F} (h : i < s.length) : modIdx s i f = .ok (s.modify i f) := by
  rw [modIdx_ok h, List.modify_eq_set_getElem?]
  simp [h]

theorem addArkAndKeys_eq (state keys : List F) (c : F) (h : state.length ≤ keys.length) :
    addArkAndKeys state keys c = .ok (state.zipWith (fun x k => x + k + c) keys) := by
  unfold addArkAndKeys
  rw [forN_modify state.length state rfl _ (fun i x => x + keys.getD i 0 + c)]
  · congr 1
    apply List.ext_getElem
    · simp [h]
    intro i h1 h2
    simp only [List.length_mapIdx] at h1
    simp [List.getD_eq_getElem?_getD, List.getElem?_eq_getElem (show i < keys.length by omega)]
  · intro i hi s hs
    rw [idx_ok (by omega), ok_bind, modIdx_modify (by omega), ok_bind, modIdx_modify (by simp; omega)]
    congr 1
    apply List.ext_getElem
    · simp
    intro j h1 h2
    simp only [List.getElem_modify]
    by_cases hij : i = j
    · subst hij
      simp [List.getD_eq_getElem?_getD, List.getElem?_eq_getElem (show i < keys.length by omega)]
    · simp [hij]

theorem fullRound_eq (state : List F) : fullRound state = .ok (state.map (· ^ 7)) := by
  unfold fullRound
  rw [forN_modify state.length state rfl _ (fun _ x => x ^ 7)]
  · congr 1
    apply List.ext_getElem <;> simp
  · intro i hi s hs
    rw [modIdx_modify (by omega)]
    congr 2
    funext x; exact sbox_eq x

theorem modifyHead_eq_modify (s : List F) (f : F → F) : s.modifyHead f = s.modify 0 f := by
  cases s <;> rfl

theorem partialRound_eq (state : List F) (h : 0 < state.length) : partialRound state = .ok (state.modifyHead (· ^ 7)) := by
  unfold partialRound
  rw [modIdx_modify h, modifyHead_eq_modify]
  congr 2
  funext x; exact sbox_eq x

theorem recombine_eq (state oldState block : List F) (h1 : state.length = oldState.length)
    (h2 : state.length = block.length) :
    recombine state oldState block = .ok (addWords (addWords state oldState) block) := by
  unfold recombine
  rw [forN_modify state.length state rfl _ (fun i x => x + oldState.getD i 0 + block.getD i 0)]
  · congr 1
    apply List.ext_getElem
    · simp [addWords]; omega
    intro i h3 h4
    simp only [List.length_mapIdx] at h3
    simp [addWords, List.getD_eq_getElem?_getD, List.getElem?_eq_getElem (show i < oldState.length by omega),
      List.getElem?_eq_getElem (show i < block.length by omega)]
  · intro i hi s hs
    rw [idx_ok (by omega), ok_bind, modIdx_modify (by omega), ok_bind, idx_ok (by omega), ok_bind,
      modIdx_modify (by simp; omega)]
    congr 1
    apply List.ext_getElem
    · simp
    intro j h3 h4
    simp only [List.getElem_modify]
    by_cases hij : i = j
    · subst hij
      simp [List.getD_eq_getElem?_getD, List.getElem?_eq_getElem (show i < oldState.length by omega),
        List.getElem?_eq_getElem (show i < block.length by omega)]
    · simp [hij]

/-- After the swaps `1, …, j` the first word is at position `j`. -/
theorem circularPermutation_eq (state : List F) : circularPermutation state = .ok (state.rotate 1) := by
  unfold circularPermutation
  cases state with
  | nil => rfl
  | cons a l =>
    simp only [List.length_cons, Nat.add_sub_cancel]
    have key : ∀ j ≤ l.length, ∀ (body : Nat → List F → Go (List F)), (body = fun i state => do
        let a ← idx state i
        let b ← idx state (i - 1)
        let state ← setIdx state (i - 1) a
        setIdx state i b) → forFrom body 1 j (a :: l) = .ok (l.take j ++ a :: l.drop j) := by
      intro j
      induction j with
      | zero => intro _ body _; simp [forFrom]
      | succ j ih =>
        intro hj body hbody
        rw [forFrom_succ, ih (by omega) body hbody, ok_bind, hbody]
        dsimp only
        have e : l.drop j = l[j] :: l.drop (j + 1) := List.drop_eq_getElem_cons (by omega)
        have lt : (l.take j).length = j := by simp; omega
        rw [e]
        have i1 : idx (l.take j ++ a :: l[j] :: l.drop (j + 1)) (1 + j) = .ok l[j] := by
          rw [idx_eq_ok, List.getElem?_append_right (by omega), lt, show 1 + j - j = 1 by omega]; rfl
        have i2 : idx (l.take j ++ a :: l[j] :: l.drop (j + 1)) (1 + j - 1) = .ok a := by
          rw [idx_eq_ok, List.getElem?_append_right (by omega), lt, show 1 + j - 1 - j = 0 by omega]; rfl
        rw [i1, ok_bind, i2, ok_bind, setIdx_ok (by simp; omega), ok_bind, setIdx_ok (by simp; omega)]
        congr 1
        rw [List.set_append_right _ _ (by omega), lt, show 1 + j - 1 - j = 0 by omega, List.set_cons_zero,
          List.set_append_right _ _ (by omega), lt, show 1 + j - j = 1 by omega, List.set_cons_succ, List.set_cons_zero,
          List.take_succ_eq_append_getElem (by omega)]
        simp only [List.append_assoc, List.singleton_append]
    rw [key l.length le_rfl _ rfl]
    simp

/-! ## Blocks -/

theorem readBlock_eq (t : Nat) (msg : List F) (n : Nat) (h : n * t < msg.length) :
    readBlock t msg (n * t) = .ok (paddedBlock t msg n) := by
  have hw : (if n * t + t ≥ msg.length then sliceBetween msg (n * t) msg.length
      else sliceBetween msg (n * t) (n * t + t)) = .ok ((msg.drop (n * t)).take t) := by
    split_ifs with hc
    · rw [sliceBetween, if_pos ⟨by omega, le_rfl⟩, List.take_length, List.take_of_length_le (by simp; omega)]
    · rw [sliceBetween, if_pos ⟨by omega, by omega⟩, List.drop_take, Nat.add_sub_cancel_left]
  have e : readBlock t msg (n * t) = (if n * t + t ≥ msg.length then sliceBetween msg (n * t) msg.length
      else sliceBetween msg (n * t) (n * t + t)) >>= fun words =>
        forN words.length (List.replicate t (0 : F)) (fun j block => idx words j >>= fun w => setIdx block j w) := by
    unfold readBlock
    split_ifs <;> rfl
  rw [e, hw, ok_bind]
  set words := (msg.drop (n * t)).take t with hwords
  have hlen : words.length ≤ t := by rw [hwords]; simp
  have key : ∀ j ≤ words.length, forN j (List.replicate t (0 : F)) (fun j block => do
      let w ← idx words j
      setIdx block j w) = .ok ((List.range t).map fun i => if i < j then words.getD i 0 else 0) := by
    intro j
    induction j with
    | zero =>
      intro _
      rw [forN_zero]
      congr 1
      apply List.ext_getElem <;> simp
    | succ j ih =>
      intro hj
      rw [forN_succ, ih (by omega), ok_bind, idx_ok (by omega), ok_bind, setIdx_ok (by simp; omega)]
      congr 1
      apply List.ext_getElem
      · simp
      intro i h1 h2
      rw [List.getElem_set]
      simp only [List.getElem_map, List.getElem_range]
      by_cases hij : j = i
      · subst hij
        simp [List.getD_eq_getElem?_getD, List.getElem?_eq_getElem (show j < words.length by omega)]
      · rw [if_neg hij]
        by_cases hlt : i < j
        · rw [if_pos hlt, if_pos (by omega)]
        · rw [if_neg hlt, if_neg (by omega)]
  rw [key _ le_rfl]
  congr 1
  apply List.map_congr_left
  intro i hi
  rw [List.mem_range] at hi
  split_ifs with hc
  · rw [hwords, List.getD_eq_getElem?_getD, List.getElem?_take_of_lt hi, List.getElem?_drop,
      List.getD_eq_getElem?_getD]
  · rw [hwords, List.length_take, List.length_drop] at hc
    rw [List.getD_eq_getElem?_getD, List.getElem?_eq_none (by omega)]; rfl

theorem paddedBlock_length (t : Nat) (msg : List F) (n : Nat) : (paddedBlock t msg n).length = t := by
  simp [paddedBlock]

/-- The hashing loop of both hashers. -/
theorem hashLoop_eq (t : Nat) (ht : 1 ≤ t) (update : List F → List F → Go (List F)) (step : List F → List F → List F)
    (h : ∀ s b : List F, s.length = t → b.length = t → update s b = .ok (step s b) ∧ (step s b).length = t)
    (msg : List F) : hashLoop t update msg = .ok (chainBlocks t step msg) := by
  have key : ∀ j ≤ (msg.length + t - 1) / t, ∃ s, forN j (List.replicate t (0 : F)) (fun n state => do
      let block ← readBlock t msg (n * t)
      update state block) = .ok s ∧ s.length = t ∧
      s = ((List.range j).map (paddedBlock t msg)).foldl step (List.replicate t 0) := by
    intro j
    induction j with
    | zero => intro _; exact ⟨_, rfl, by simp, by simp⟩
    | succ j ih =>
      intro hj
      obtain ⟨s, h1, h2, h3⟩ := ih (by omega)
      have hlt : j * t < msg.length := by
        have : (j + 1) * t ≤ msg.length + t - 1 := by
          calc (j + 1) * t ≤ (msg.length + t - 1) / t * t := Nat.mul_le_mul_right _ hj
            _ ≤ _ := Nat.div_mul_le_self _ _
        rw [Nat.add_mul] at this
        omega
      obtain ⟨u1, u2⟩ := h s (paddedBlock t msg j) h2 (paddedBlock_length _ _ _)
      refine ⟨step s (paddedBlock t msg j), ?_, u2, ?_⟩
      · rw [forN_succ, h1, ok_bind, readBlock_eq _ _ _ hlt, ok_bind, u1]
      · rw [List.range_succ, List.map_append, List.foldl_append, ← h3]; rfl
  obtain ⟨s, h1, h2, h3⟩ := key _ le_rfl
  unfold hashLoop
  rw [h1, ok_bind, idx_ok (by omega)]
  unfold chainBlocks paddedBlocks
  rw [← h3]
  simp [List.getD_eq_getElem?_getD, List.getElem?_eq_getElem (show 0 < s.length by omega)]

/-! ## GMiMC -/

theorem gmimcRound_length (key state : List F) (c : F) (h : state.length = key.length) :
    (gmimcRound key state c).length = state.length := by
  simp [gmimcRound, h]

theorem gmimcRounds_length (consts key : List F) : ∀ state : List F, state.length = key.length →
    (gmimcRounds consts key state).length = state.length := by
  induction consts with
  | nil => intro s _; rfl
  | cons c cs ih =>
    intro s h
    have := gmimcRound_length key s c h
    rw [gmimcRounds, List.foldl_cons]
    exact (ih _ (by omega)).trans this

theorem gmimcCipher_eq (g : GMimcHasher) (consts state block : List F) (hc : g.nRounds ≤ consts.length)
    (hs : state.length = block.length) (hp : 0 < state.length) :
    gmimcCipher g consts state block = .ok (gmimcRounds (consts.take g.nRounds) block state) := by
  unfold gmimcCipher
  have key : ∀ j ≤ g.nRounds, forN j state (fun i state => do
      let ark ← idx consts i
      let state ← addArkAndKeys state block ark
      let state ← modIdx state 0 sbox
      circularPermutation state) = .ok (gmimcRounds (consts.take j) block state) := by
    intro j
    induction j with
    | zero => intro _; rfl
    | succ j ih =>
      intro hj
      have hl := gmimcRounds_length (consts.take j) block state hs
      rw [forN_succ, ih (by omega), ok_bind, idx_ok (by omega), ok_bind, addArkAndKeys_eq _ _ _ (by omega), ok_bind]
      have := partialRound_eq (List.zipWith (fun x k => x + k + consts[j]) (gmimcRounds (consts.take j) block state) block)
        (by simp; omega)
      unfold partialRound at this
      rw [this, ok_bind, circularPermutation_eq, List.take_succ_eq_append_getElem (by omega)]
      unfold gmimcRounds
      rw [List.foldl_append]
      rfl
  exact key _ le_rfl

theorem gmimcUpdate_eq (g : GMimcHasher) (consts state block : List F) (hc : g.nRounds ≤ consts.length)
    (hs : state.length = block.length) (hp : 0 < state.length) :
    gmimcUpdate g consts state block =
      .ok (addWords (addWords (gmimcRounds (consts.take g.nRounds) block state) state) block) := by
  unfold gmimcUpdate
  have hl := gmimcRounds_length (consts.take g.nRounds) block state hs
  rw [gmimcCipher_eq g consts state block hc hs hp, ok_bind, recombine_eq _ _ _ hl (by omega)]

theorem addWords_length (a b : List F) : (addWords a b).length = min a.length b.length := by simp [addWords]

/-! ## Poseidon -/

theorem matrixMultiplication_eq (mat : List (List F)) (vec : List F) (h : ∀ row ∈ mat, row.length = vec.length) :
    matrixMultiplication mat vec = .ok (matVec mat vec) := by
  unfold matrixMultiplication
  rw [forN_modify mat.length _ (by simp) _ (fun i x => x + ((mat.getD i []).zipWith (· * ·) vec).sum)]
  · congr 1
    apply List.ext_getElem
    · simp [matVec]
    intro i h1 h2
    simp only [List.length_mapIdx, List.length_replicate] at h1
    simp [matVec, List.getD_eq_getElem?_getD, List.getElem?_eq_getElem h1]
  · intro i hi s hs
    rw [idx_ok hi, ok_bind]
    have hrow : (mat.getD i []) = mat[i] := by simp [hi]
    have hlen : mat[i].length = vec.length := h _ (List.getElem_mem hi)
    have key : ∀ j ≤ mat[i].length, forN j s (fun j res => do
        let el ← idx mat[i] j
        let v ← idx vec j
        modIdx res i (· + v * el)) = .ok (s.modify i (· + ((mat[i].zipWith (· * ·) vec).take j).sum)) := by
      intro j
      induction j with
      | zero =>
        intro _
        rw [forN_zero]
        congr 1
        apply List.ext_getElem
        · simp
        intro a h1 h2
        rw [List.getElem_modify]
        simp
      | succ j ih =>
        intro hj
        have hsum : ((mat[i].zipWith (· * ·) vec).take (j + 1)).sum =
            ((mat[i].zipWith (· * ·) vec).take j).sum + mat[i][j] * vec[j] := by
          rw [List.take_succ_eq_append_getElem (by simp; omega), List.sum_append]
          simp
        rw [forN_succ, ih (by omega), ok_bind, idx_ok (by omega), ok_bind, idx_ok (by omega), ok_bind,
          modIdx_modify (by simp; omega), hsum]
        congr 1
        apply List.ext_getElem
        · simp
        intro a h1 h2
        simp only [List.getElem_modify]
        by_cases hia : i = a
        · subst hia
          simp only [if_true]
          ring
        · simp [hia]
    rw [key _ le_rfl, hrow]
    congr 3
    funext x
    rw [List.take_of_length_le (by simp)]

/-- A hasher with a square matrix of size `t`. -/
structure PoseidonHasher.Square (p : PoseidonHasher F) : Prop where
  rows : p.cauchy.length = p.t
  cols : ∀ row ∈ p.cauchy, row.length = p.t

theorem matVec_length (M : List (List F)) (v : List F) : (matVec M v).length = M.length := by simp [matVec]

/-- A round on the state variable. -/
theorem poseidonRound_eq (p : PoseidonHasher F) (hp : p.Square) (consts block : List F) (full : Bool) (i : Nat)
    (hi : i < consts.length) (hb : block.length = p.t) (ht : 1 ≤ p.t) (s : StateVar F) (hs : s.cur.length = p.t) :
    poseidonRound p consts block (if full then fullRound else partialRound) i s =
      .ok ⟨match s.own with
        | none => (let u := s.caller.zipWith (fun x k => x + k + consts[i]) block
            if full then u.map (· ^ 7) else u.modifyHead (· ^ 7))
        | some _ => s.caller, some (Spec.poseidonRound p.cauchy full block s.cur consts[i])⟩ := by
  obtain ⟨caller, own⟩ := s
  unfold poseidonRound
  rw [idx_ok hi, ok_bind, addArkAndKeys_eq _ _ _ (by omega), ok_bind]
  have hlen : ((StateVar.cur ⟨caller, own⟩).zipWith (fun x k => x + k + consts[i]) block).length = p.t := by
    simp [hs, hb]
  cases own with
  | none =>
    simp only [StateVar.write, StateVar.cur, Option.getD_none] at hlen ⊢
    cases full with
    | true =>
      simp only [if_true]
      rw [fullRound_eq, ok_bind, matrixMultiplication_eq _ _ (by
        intro row hr; rw [hp.cols row hr, List.length_map, hlen]), ok_bind]
      rfl
    | false =>
      simp only [Bool.false_eq_true, if_false]
      rw [partialRound_eq _ (by omega), ok_bind, matrixMultiplication_eq _ _ (by
        intro row hr; rw [hp.cols row hr, List.length_modifyHead, hlen]), ok_bind]
      rfl
  | some own =>
    simp only [StateVar.write, StateVar.cur, Option.getD_some] at hlen ⊢
    cases full with
    | true =>
      simp only [if_true]
      rw [fullRound_eq, ok_bind, matrixMultiplication_eq _ _ (by
        intro row hr; rw [hp.cols row hr, List.length_map, hlen]), ok_bind]
      rfl
    | false =>
      simp only [Bool.false_eq_true, if_false]
      rw [partialRound_eq _ (by omega), ok_bind, matrixMultiplication_eq _ _ (by
        intro row hr; rw [hp.cols row hr, List.length_modifyHead, hlen]), ok_bind]
      rfl

theorem poseidonRound_length (M : List (List F)) (full : Bool) (key s : List F) (c : F) :
    (Spec.poseidonRound M full key s c).length = M.length := by simp [Spec.poseidonRound, matVec]

/-- Rounds once the variable is bound to a slice of its own: the caller's slice is not touched any more. -/
theorem poseidonRounds_own (p : PoseidonHasher F) (hp : p.Square) (consts block : List F) (full : Bool)
    (hb : block.length = p.t) (ht : 1 ≤ p.t) : ∀ (n k : Nat) (caller own : List F), k + n ≤ consts.length →
    own.length = p.t → ∃ v, v.length = p.t ∧
      v = ((consts.drop k).take n).foldl (Spec.poseidonRound p.cauchy full block) own ∧
      forFrom (fun i s => poseidonRound p consts block (if full then fullRound else partialRound) i s) k n
        ⟨caller, some own⟩ = .ok ⟨caller, some v⟩ := by
  intro n
  induction n with
  | zero => intro k caller own _ hl; exact ⟨own, hl, by simp, rfl⟩
  | succ n ih =>
    intro k caller own hk hl
    obtain ⟨v, h1, h2, h3⟩ := ih (k + 1) caller (Spec.poseidonRound p.cauchy full block own consts[k]) (by omega)
      (by rw [poseidonRound_length, hp.rows])
    refine ⟨v, h1, ?_, ?_⟩
    · rw [h2, List.drop_eq_getElem_cons (show k < consts.length by omega), List.take_succ_cons, List.foldl_cons]
    · rw [forFrom, poseidonRound_eq p hp consts block full k (by omega) hb ht ⟨caller, some own⟩ hl]
      exact h3

theorem poseidonUpdate_var (p : PoseidonHasher F) (hp : p.Square) (consts state block : List F) (hF : 1 ≤ p.nRoundsF)
    (hc : p.nRoundsF + p.nRoundsP + p.nRoundsF ≤ consts.length) (hb : block.length = p.t) (hs : state.length = p.t)
    (ht : 1 ≤ p.t) :
    poseidonUpdateVar p consts state block = .ok
      ⟨(state.zipWith (fun x k => x + k + consts[0]) block).map (· ^ 7), some (addWords (addWords
        (poseidonPerm p.cauchy (consts.take p.nRoundsF) ((consts.drop p.nRoundsF).take p.nRoundsP)
          ((consts.drop (p.nRoundsF + p.nRoundsP)).take p.nRoundsF) block state) state) block)⟩ := by
  obtain ⟨nF, hnF⟩ : ∃ n, p.nRoundsF = n + 1 := ⟨p.nRoundsF - 1, by omega⟩
  have first := poseidonRound_eq p hp consts block true 0 (by omega) hb ht ⟨state, none⟩ hs
  simp only [if_true, StateVar.cur, Option.getD_none] at first
  obtain ⟨v1, a1, a2, a3⟩ := poseidonRounds_own p hp consts block true hb ht nF 1
    ((state.zipWith (fun x k => x + k + consts[0]) block).map (· ^ 7))
    (Spec.poseidonRound p.cauchy true block state consts[0]) (by omega) (by rw [poseidonRound_length, hp.rows])
  obtain ⟨v2, b1, b2, b3⟩ := poseidonRounds_own p hp consts block false hb ht p.nRoundsP p.nRoundsF
    ((state.zipWith (fun x k => x + k + consts[0]) block).map (· ^ 7)) v1 (by omega) a1
  obtain ⟨v3, c1, c2, c3⟩ := poseidonRounds_own p hp consts block true hb ht p.nRoundsF (p.nRoundsF + p.nRoundsP)
    ((state.zipWith (fun x k => x + k + consts[0]) block).map (· ^ 7)) v2 (by omega) b1
  simp only [if_true, Bool.false_eq_true, if_false] at a3 b3 c3
  unfold poseidonUpdateVar
  dsimp only
  have hfirst : forFrom (fun i s => poseidonRound p consts block fullRound i s) 0 p.nRoundsF ⟨state, none⟩ =
      .ok ⟨(state.zipWith (fun x k => x + k + consts[0]) block).map (· ^ 7), some v1⟩ := by
    rw [hnF, forFrom, first]
    exact a3
  rw [hfirst, ok_bind, b3, ok_bind, c3, ok_bind]
  simp only [StateVar.cur, Option.getD_some]
  rw [recombine_eq _ _ _ (by omega) (by omega), ok_bind]
  simp only [StateVar.write, go_pure]
  congr 5
  rw [c2, b2, a2, poseidonPerm, hnF]
  congr 2
  have : consts.take (nF + 1) = consts[0] :: (consts.drop 1).take nF := by
    conv_lhs => rw [← List.drop_zero (l := consts), List.drop_eq_getElem_cons (show 0 < consts.length by omega)]
    rw [List.take_succ_cons]
  rw [this, List.foldl_cons]

/-! ## Cauchy matrices -/

open Polynomial in
/-- A Cauchy matrix is invertible. -/
theorem cauchy_det_ne_zero {n : Nat} (x y : Fin n → F) (hx : Function.Injective x) (hy : Function.Injective y)
    (hxy : ∀ i j, x i + y j ≠ 0) : (Matrix.of fun i j => (x i + y j)⁻¹).det ≠ 0 := by
  classical
  intro hdet
  obtain ⟨c, hc, hMc⟩ := Matrix.exists_mulVec_eq_zero_iff.2 hdet
  apply hc
  -- the numerator polynomial
  set P : F[X] := ∑ j, C (c j) * ∏ k ∈ Finset.univ.erase j, (X + C (y k)) with hP
  have hdeg : P.natDegree < n ∨ P = 0 := by
    by_cases h0 : P = 0
    · exact .inr h0
    left
    have hn : 0 < n := by
      rcases Nat.eq_zero_or_pos n with h | h
      · subst h; exact absurd (by simp [hP]) h0
      · exact h
    refine lt_of_le_of_lt (Polynomial.natDegree_sum_le_of_forall_le Finset.univ _ (n := n - 1) ?_) (by omega)
    intro j _
    refine (natDegree_C_mul_le _ _).trans ?_
    refine (natDegree_prod_le _ _).trans ?_
    refine (Finset.sum_le_card_nsmul _ _ 1 (fun k _ => by simp)).trans ?_
    simp [Finset.card_erase_of_mem]
  have hroot : ∀ i, P.eval (x i) = 0 := by
    intro i
    have hi := congrFun hMc i
    simp only [Matrix.mulVec, dotProduct, Matrix.of_apply, Pi.zero_apply] at hi
    have : P.eval (x i) = (∏ k, (x i + y k)) * ∑ j, (x i + y j)⁻¹ * c j := by
      rw [hP, eval_finsetSum, Finset.mul_sum]
      refine Finset.sum_congr rfl fun j _ => ?_
      rw [eval_mul, eval_C, eval_prod, ← Finset.mul_prod_erase _ _ (Finset.mem_univ j)]
      simp only [eval_add, eval_X, eval_C]
      have := hxy i j
      field_simp
    rw [this, hi, mul_zero]
  have hP0 : P = 0 := by
    rcases hdeg with h | h
    · by_contra hne
      have h1 := Polynomial.card_le_degree_of_subset_roots (p := P) (Z := Finset.univ.image x) (by
        intro a ha
        obtain ⟨i, _, rfl⟩ := Finset.mem_image.1 (Finset.mem_def.2 ha)
        rw [mem_roots hne]
        exact hroot i)
      rw [Finset.card_image_of_injective _ hx, Finset.card_univ, Fintype.card_fin] at h1
      omega
    · exact h
  funext j
  have hj : P.eval (-y j) = c j * ∏ k ∈ Finset.univ.erase j, (-y j + y k) := by
    rw [hP, eval_finsetSum, Finset.sum_eq_single j]
    · rw [eval_mul, eval_C, eval_prod]; simp
    · intro i _ hij
      rw [eval_mul, eval_prod, Finset.prod_eq_zero (Finset.mem_erase.2 ⟨hij.symm, Finset.mem_univ j⟩), mul_zero]
      simp
    · simp
  rw [hP0, eval_zero] at hj
  rcases mul_eq_zero.1 hj.symm with h | h
  · exact h
  · obtain ⟨k, hk, h0⟩ := Finset.prod_eq_zero_iff.1 h
    exact absurd (hy (by linear_combination h0)) (Finset.mem_erase.1 hk).1

end GkrMimc
