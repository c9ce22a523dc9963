import Verif.Proofs.Hash

/-! Properties C26, C28, C29, C30: the hash functions. -/

set_option linter.unusedSectionVars false

namespace GkrMimc

open Spec

variable {F : Type} [Field F]

/-- C26. `MimcHash` never panics and is the Miyaguchi–Preneel chaining of 91-round MiMC from 0. -/
theorem C26_hash (msg : List Fr) : mimcHashGo arks msg = .ok (mimcHash msg) :=
  mimcHashGo_eq arks (by rw [arks_length]; omega) msg

/-- C26. `MimcPermutationInPlace` never panics and is 91-round MiMC; for every block it is a bijection. -/
theorem C26_permutation (block : Fr) : ∃ E : Fr → Fr, (∀ s, mimcPermutation arks s block = .ok (E s)) ∧
    (∀ s, E s = (arks.take 91).foldl (fun x c => (x + block + c) ^ 7) s) ∧ Function.Bijective E :=
  ⟨mimcCipher (arks.take 91) block, fun s => mimcPermutation_eq arks (by rw [arks_length]; omega) s block,
    fun _ => rfl, mimcCipher_bijective _ _⟩

/-- C26. `MimcUpdateInplace` is the Miyaguchi–Preneel step. -/
theorem C26_update (s m : Fr) : mimcUpdate arks s m = .ok (mimcCipher (arks.take 91) m s + s + m) := by
  unfold mimcUpdate
  rw [mimcPermutation_eq arks (by rw [arks_length]; omega)]
  rfl

/-- C26. The hash of the empty message is 0. -/
theorem C26_empty : mimcHashGo arks [] = .ok 0 := rfl

/-- C26. The hash extends block by block. -/
theorem C26_chain (msg : List Fr) (m : Fr) :
    mimcHash (msg ++ [m]) = mimcCipher (arks.take 91) m (mimcHash msg) + mimcHash msg + m := by
  unfold mimcHash mimcChain
  rw [List.foldl_append]; rfl

example : (arks.take 91).length = 91 ∧ mimcHash [0] ≠ 0 := by decide +kernel

/-- C28 (full claim: the hash is the chaining of the permutation; false, `C28_negation`). What `Update` computes in its
local variable at the end is the intended Miyaguchi–Preneel value; but what the caller's slice holds afterwards is only
the first half of the first round. Missing: the caller never sees the intended value. -/
theorem C28_update_partial (p : PoseidonHasher F) (hp : p.Square) (consts state block : List F) (hF : 1 ≤ p.nRoundsF)
    (hc : p.nRoundsF + p.nRoundsP + p.nRoundsF ≤ consts.length) (hb : block.length = p.t) (hs : state.length = p.t)
    (ht : 1 ≤ p.t) :
    (∃ s, poseidonUpdateVar p consts state block = .ok s ∧ s.cur = addWords (addWords
        (poseidonPerm p.cauchy (consts.take p.nRoundsF) ((consts.drop p.nRoundsF).take p.nRoundsP)
          ((consts.drop (p.nRoundsF + p.nRoundsP)).take p.nRoundsF) block state) state) block) ∧
    poseidonUpdate p consts state block = .ok ((state.zipWith (fun x k => x + k + consts[0]) block).map (· ^ 7)) := by
  have h := poseidonUpdate_var p hp consts state block hF hc hb hs ht
  refine ⟨⟨_, h, rfl⟩, ?_⟩
  unfold poseidonUpdate
  rw [h]; rfl

/-- The first word of every block. -/
def blockHeads (t : Nat) (msg : List F) : List F :=
  (List.range ((msg.length + t - 1) / t)).map fun n => msg.getD (n * t) 0

/-- What the hash is, for every message: a fold over the first words of the blocks. -/
theorem poseidonHash_heads (p : PoseidonHasher F) (hp : p.Square) (consts msg : List F) (hF : 1 ≤ p.nRoundsF)
    (hc : p.nRoundsF + p.nRoundsP + p.nRoundsF ≤ consts.length) (ht : 1 ≤ p.t) :
    poseidonHash p consts msg = .ok ((blockHeads p.t msg).foldl (fun x k => (x + k + consts[0]) ^ 7) 0) := by
  unfold poseidonHash
  rw [hashLoop_eq p.t ht _ (fun s b => (s.zipWith (fun x k => x + k + consts[0]) b).map (· ^ 7))]
  · congr 1
    unfold chainBlocks paddedBlocks blockHeads
    have key : ∀ (ns : List Nat) (s : List F), s.length = p.t →
        ((ns.map (paddedBlock p.t msg)).foldl (fun s b => (s.zipWith (fun x k => x + k + consts[0]) b).map (· ^ 7)) s).getD
          0 0 = (ns.map fun n => msg.getD (n * p.t) 0).foldl (fun x k => (x + k + consts[0]) ^ 7) (s.getD 0 0) := by
      intro ns
      induction ns with
      | nil => intro s _; rfl
      | cons n ns ih =>
        intro s hs
        rw [List.map_cons, List.foldl_cons, ih _ (by simp [paddedBlock, hs]), List.map_cons, List.foldl_cons]
        congr 1
        simp only [List.getD_eq_getElem?_getD]
        rw [List.getElem?_eq_getElem (by simp [paddedBlock, hs]; omega), List.getElem?_eq_getElem (show 0 < s.length by omega)]
        simp [paddedBlock]
    rw [key _ _ (by simp)]
    congr 1
    rw [List.getD_eq_getElem?_getD, List.getElem?_replicate]
    split_ifs <;> rfl
  · intro s b hs hb
    refine ⟨(C28_update_partial p hp consts s b hF hc hb hs ht).2, by simp [hs, hb]⟩

theorem generateMDSMatrix_eq (xs ys : List F) (t : Nat) (hx : t ≤ xs.length) (hy : t ≤ ys.length) :
    generateMDSMatrix xs ys t = .ok (tab t fun i => tab t fun j => (xs.getD i 0 + ys.getD j 0)⁻¹) := by
  unfold generateMDSMatrix
  apply gen_ok
  intro i hi
  apply gen_ok
  intro j hj
  rw [idx_ok (by omega), ok_bind, idx_ok (by omega), ok_bind, go_pure]
  simp [List.getD_eq_getElem?_getD, List.getElem?_eq_getElem (show i < xs.length by omega),
    List.getElem?_eq_getElem (show j < ys.length by omega)]

theorem xArr_length : xArr.length = 100 := by rw [xArr, List.length_map]; exact consts_length.1
theorem yArr_length : yArr.length = 100 := by rw [yArr, List.length_map]; exact consts_length.2.1

/-- A Poseidon hasher as built by the package. -/
theorem newPoseidonHasher_square (t nF nP : Nat) (ht : t ≤ 100) :
    ∃ p, newPoseidonHasher xArr yArr t nF nP = .ok p ∧ p.Square ∧ p.t = t ∧ p.nRoundsF = nF ∧ p.nRoundsP = nP := by
  unfold newPoseidonHasher
  rw [generateMDSMatrix_eq _ _ _ (by rw [xArr_length]; exact ht) (by rw [yArr_length]; exact ht), ok_bind]
  refine ⟨_, rfl, ⟨by simp, ?_⟩, rfl, rfl, rfl⟩
  intro row hr
  obtain ⟨i, _, rfl⟩ := List.mem_map.1 hr
  simp

/-- A left fold with a step injective in both arguments changes when one element changes. -/
theorem foldl_set_ne (f : F → F → F) (finj : ∀ k, Function.Injective (fun x => f x k))
    (finj2 : ∀ x, Function.Injective (f x)) : ∀ (l : List F) (i : Nat) (hi : i < l.length) (x v : F), v ≠ l[i] →
    l.foldl f x ≠ (l.set i v).foldl f x := by
  have foldinj : ∀ l : List F, Function.Injective (fun x => l.foldl f x) := by
    intro l
    induction l with
    | nil => exact Function.injective_id
    | cons k l ih => intro x y h; exact finj k (ih h)
  intro l
  induction l with
  | nil => intro i hi; simp at hi
  | cons k l ih =>
    intro i hi x v hv h
    cases i with
    | zero =>
      rw [List.set_cons_zero, List.foldl_cons, List.foldl_cons] at h
      exact hv (finj2 x (foldinj l h)).symm
    | succ i =>
      rw [List.set_cons_succ, List.foldl_cons, List.foldl_cons] at h
      exact ih i (by simpa using hi) _ v (by simpa using hv) h

/-- C28. The part of the claim that holds: for each hasher of the package (`t` = 2, 4, 8), a message word at an index that
is a multiple of `t` is not ignored: changing it (and no other word at such an index) changes the hash. Missing: all other
words, which are ignored (`C28_negation`). -/
theorem C28_heads_partial (t nF nP : Nat) (ht : 1 ≤ t) (ht' : t ≤ 100) (hF : 1 ≤ nF) (hc : nF + nP + nF ≤ 100)
    (p : PoseidonHasher Fr) (hp : newPoseidonHasher xArr yArr t nF nP = .ok p) (msg : List Fr) (n : Nat)
    (hn : n * t < msg.length) (v : Fr) (hv : v ≠ msg[n * t]) :
    ∃ a b, poseidonHash p arks msg = .ok a ∧ poseidonHash p arks (msg.set (n * t) v) = .ok b ∧ a ≠ b := by
  obtain ⟨p', h1, h2, h3, h4, h5⟩ := newPoseidonHasher_square t nF nP ht'
  rw [hp] at h1
  cases h1
  have hcl : p.nRoundsF + p.nRoundsP + p.nRoundsF ≤ arks.length := by rw [h4, h5, arks_length]; exact hc
  refine ⟨_, _, poseidonHash_heads p h2 arks msg (by omega) hcl (by omega),
    poseidonHash_heads p h2 arks _ (by omega) hcl (by omega), ?_⟩
  set f : Fr → Fr → Fr := fun x k => (x + k + arks[0]'arks_pos) ^ 7 with hf
  have finj : ∀ k, Function.Injective (fun x => f x k) := by
    intro k x y h
    have := pow7_bijective.1 h
    linear_combination this
  have finj2 : ∀ x, Function.Injective (f x) := by
    intro x k k' h
    have := pow7_bijective.1 h
    linear_combination this
  have hset := foldl_set_ne f finj finj2
  have hnb : n < (msg.length + t - 1) / t := by
    rw [Nat.lt_div_iff_mul_lt (by omega)]; omega
  have hb : blockHeads t (msg.set (n * t) v) = (blockHeads t msg).set n v := by
    apply List.ext_getElem
    · simp [blockHeads]
    intro i a1 a2
    rw [List.getElem_set]
    simp only [blockHeads, List.getElem_map, List.getElem_range, List.getD_eq_getElem?_getD]
    by_cases hi : n = i
    · subst hi
      rw [if_pos rfl, List.getElem?_set_self hn]; rfl
    · rw [if_neg hi, List.getElem?_set_ne]
      intro he
      exact hi (Nat.eq_of_mul_eq_mul_right (by omega) he)
  rw [h3, hb]
  apply hset (blockHeads t msg) n (by simpa [blockHeads] using hnb)
  simp only [blockHeads, List.getElem_map, List.getElem_range, List.getD_eq_getElem?_getD, List.getElem?_eq_getElem hn]
  exact hv

/-- C28 fails for every hasher of the package and every message: all words at an index that is not a multiple of `t` are
ignored by the hash. -/
theorem C28_negation (t nF nP : Nat) (ht : 1 ≤ t) (ht' : t ≤ 100) (hF : 1 ≤ nF) (hc : nF + nP + nF ≤ 100)
    (p : PoseidonHasher Fr) (hp : newPoseidonHasher xArr yArr t nF nP = .ok p) (msg msg' : List Fr)
    (hlen : msg.length = msg'.length) (h : ∀ n, msg.getD (n * t) 0 = msg'.getD (n * t) 0) :
    poseidonHash p arks msg = poseidonHash p arks msg' := by
  obtain ⟨p', h1, h2, h3, h4, h5⟩ := newPoseidonHasher_square t nF nP ht'
  rw [hp] at h1
  cases h1
  have hcl : p.nRoundsF + p.nRoundsP + p.nRoundsF ≤ arks.length := by rw [h4, h5, arks_length]; exact hc
  rw [poseidonHash_heads p h2 arks msg (by omega) hcl (by omega),
    poseidonHash_heads p h2 arks msg' (by omega) hcl (by omega)]
  unfold blockHeads
  rw [hlen, h3]
  congr 2
  exact List.map_congr_left fun n _ => h n

/-- C28: concrete collision of `PoseidonT2` on messages of two words. -/
theorem C28_collision (p : PoseidonHasher Fr) (hp : poseidonT2 = .ok p) :
    poseidonHash p arks [5, 6] = poseidonHash p arks [5, 7] :=
  C28_negation 2 8 82 (by omega) (by omega) (by omega) (by omega) p hp [5, 6] [5, 7] rfl (by
    intro n
    rcases Nat.eq_zero_or_pos n with h | h
    · subst h; rfl
    · rw [List.getD_eq_getElem?_getD, List.getD_eq_getElem?_getD, List.getElem?_eq_none (by simp; omega),
        List.getElem?_eq_none (by simp; omega)])

example : ∃ p, poseidonT2 = .ok p ∧ p.t = 2 := by
  obtain ⟨p, h1, _, h3, _⟩ := newPoseidonHasher_square 2 8 82 (by omega)
  exact ⟨p, h1, h3⟩

/-- C29. `InPlaceCircularPermutation` rotates left by one, for every length. -/
theorem C29_rotate (state : List F) : circularPermutation state = .ok (state.drop 1 ++ state.take 1) := by
  rw [circularPermutation_eq]
  cases state with
  | nil => rfl
  | cons a l => simp

/-- C29. `UpdateInplace` is the Miyaguchi–Preneel step of GMiMC. -/
theorem C29_update (g : GMimcHasher) (consts state block : List F) (hc : g.nRounds ≤ consts.length)
    (hs : state.length = block.length) (hp : 0 < state.length) :
    gmimcUpdate g consts state block =
      .ok (addWords (addWords (gmimcRounds (consts.take g.nRounds) block state) state) block) :=
  gmimcUpdate_eq g consts state block hc hs hp

/-- C29. `Hash` chains over the zero-padded blocks. -/
theorem C29_hash (g : GMimcHasher) (ht : 1 ≤ g.t) (consts msg : List F) (hc : g.nRounds ≤ consts.length) :
    gmimcHash g consts msg = .ok (Spec.gmimcHash (consts.take g.nRounds) g.t msg) := by
  unfold gmimcHash Spec.gmimcHash
  apply hashLoop_eq g.t ht
  intro s b hs hb
  have hl := gmimcRounds_length (consts.take g.nRounds) b s (by omega)
  exact ⟨gmimcUpdate_eq g consts s b hc (by omega) (by omega), by simp [addWords, hl, hs, hb]⟩

/-- C29. The cipher (before the feed-forward) is a bijection of the states of `t` words, for every block and any number
of rounds. -/
theorem C29_bijective (consts block : List Fr) (t : Nat) (ht : 1 ≤ t) (hb : block.length = t) :
    Function.Bijective (fun s : { s : List Fr // s.length = t } =>
      (⟨gmimcRounds consts block s.1, by rw [gmimcRounds_length _ _ _ (by rw [s.2, hb]), s.2]⟩ :
        { s : List Fr // s.length = t })) := by
  have : Finite { s : List Fr // s.length = t } := by
    have : Finite (List.Vector Fr t) := inferInstance
    exact this
  apply Finite.injective_iff_bijective.1
  rintro ⟨s, hs⟩ ⟨s', hs'⟩ h
  simp only [Subtype.mk.injEq] at h ⊢
  clear this
  induction consts generalizing s s' with
  | nil => exact h
  | cons c cs ih =>
    have e := ih (gmimcRound block s c) (by rw [gmimcRound_length _ _ _ (by omega), hs])
      (gmimcRound block s' c) (by rw [gmimcRound_length _ _ _ (by omega), hs']) h
    unfold gmimcRound at e
    have e := List.rotate_injective 1 e
    have e2 : s.zipWith (fun x k => x + k + c) block = s'.zipWith (fun x k => x + k + c) block := by
      revert e
      generalize hu : s.zipWith (fun x k => x + k + c) block = u
      generalize hu' : s'.zipWith (fun x k => x + k + c) block = u'
      intro e
      have l1 : u.length = t := by rw [← hu]; simp [hs, hb]
      have l2 : u'.length = t := by rw [← hu']; simp [hs', hb]
      cases u with
      | nil => simp at l1; omega
      | cons a u =>
        cases u' with
        | nil => simp at l2; omega
        | cons a' u' =>
          simp only [List.modifyHead_cons, List.cons.injEq] at e
          rw [pow7_bijective.1 e.1, e.2]
    apply List.ext_getElem (by omega)
    intro i h1 h2
    have := congrArg (fun l => l[i]?) e2
    simp only [List.getElem?_zipWith, List.getElem?_eq_getElem h1, List.getElem?_eq_getElem h2,
      List.getElem?_eq_getElem (show i < block.length by omega), Option.some.injEq] at this
    linear_combination this

/-- C29. Hence messages differing only by trailing zeros inside the last block collide. -/
theorem C29_padding_collides (g : GMimcHasher) (ht : 1 ≤ g.t) (consts msg : List F) (hc : g.nRounds ≤ consts.length)
    (z : Nat) (hz : (msg.length + z + g.t - 1) / g.t = (msg.length + g.t - 1) / g.t) :
    gmimcHash g consts (msg ++ List.replicate z 0) = gmimcHash g consts msg := by
  rw [C29_hash g ht consts _ hc, C29_hash g ht consts _ hc]
  unfold Spec.gmimcHash chainBlocks paddedBlocks
  rw [List.length_append, List.length_replicate, hz]
  congr 4
  funext n
  unfold paddedBlock
  apply List.map_congr_left
  intro j _
  rw [List.getD_eq_getElem?_getD, List.getD_eq_getElem?_getD]
  by_cases h : n * g.t + j < msg.length
  · rw [List.getElem?_append_left h]
  · rw [List.getElem?_append_right (by omega), List.getElem?_eq_none (i := n * g.t + j) (by omega),
      List.getElem?_replicate]
    split_ifs <;> rfl

example : (gmimcT 4).nRounds ≤ arks.length ∧ 1 ≤ (gmimcT 4).t ∧ (3 + 1 + 4 - 1) / 4 = (3 + 4 - 1) / 4 := by
  refine ⟨by rw [arks_length]; decide, by decide, by decide⟩
example : circularPermutation ([1, 2, 3, 4] : List Fr) = .ok [2, 3, 4, 1] := by decide +kernel

/-- Facts about the 200 constants: distinct `x`s, distinct `y`s, no sum is 0 modulo `r`. -/
theorem consts_cauchy : xNats.Nodup ∧ yNats.Nodup ∧
    ∀ x ∈ xNats, ∀ y ∈ yNats, (x + y) % frModulus ≠ 0 := by decide +kernel

/-- C30. For every `t ≤ 100`, `GenerateMDSMatrix` succeeds, never inverts zero, and the determinant of every square
submatrix (any rows, any columns) is nonzero. -/
theorem C30_mds (t : Nat) (ht : t ≤ 100) : ∃ M, generateMDSMatrix xArr yArr t = .ok M ∧
    M.length = t ∧ (∀ row ∈ M, row.length = t) ∧
    (∀ i < t, ∀ j < t, xArr.getD i 0 + yArr.getD j 0 ≠ 0 ∧
      (M.getD i []).getD j 0 * (xArr.getD i 0 + yArr.getD j 0) = 1) ∧
    ∀ (n : Nat) (rows cols : Fin n → Nat), (∀ a, rows a < t) → (∀ a, cols a < t) → Function.Injective rows →
      Function.Injective cols → (Matrix.of fun a b => (M.getD (rows a) []).getD (cols b) 0).det ≠ 0 := by
  obtain ⟨c1, c2, c3⟩ := consts_cauchy
  obtain ⟨k1, k2, _⟩ := consts_canonical
  obtain ⟨l1, l2, _⟩ := consts_length
  have xval : ∀ i (hi : i < 100), xArr.getD i 0 = ((xNats[i] : Nat) : Fr) := by
    intro i hi
    rw [xArr, List.getD_eq_getElem?_getD, List.getElem?_map, List.getElem?_eq_getElem (show i < xNats.length by omega)]; rfl
  have yval : ∀ i (hi : i < 100), yArr.getD i 0 = ((yNats[i] : Nat) : Fr) := by
    intro i hi
    rw [yArr, List.getD_eq_getElem?_getD, List.getElem?_map, List.getElem?_eq_getElem (show i < yNats.length by omega)]; rfl
  have xy : ∀ i < 100, ∀ j < 100, xArr.getD i 0 + yArr.getD j 0 ≠ 0 := by
    intro i hi j hj h
    rw [xval i hi, yval j hj, ← Nat.cast_add, ZMod.natCast_eq_zero_iff] at h
    exact c3 _ (List.getElem_mem _) _ (List.getElem_mem _) (Nat.mod_eq_zero_of_dvd h)
  have inj : ∀ (l : List Nat), l.Nodup → (∀ x ∈ l, x < frModulus) → ∀ i j (hi : i < l.length) (hj : j < l.length),
      ((l[i] : Nat) : Fr) = ((l[j] : Nat) : Fr) → i = j := by
    intro l hl hlt i j hi hj h
    rw [ZMod.natCast_eq_natCast_iff', Nat.mod_eq_of_lt (hlt _ (List.getElem_mem _)),
      Nat.mod_eq_of_lt (hlt _ (List.getElem_mem _))] at h
    exact (List.Nodup.getElem_inj_iff hl).1 h
  have entry : ∀ i < t, ∀ j < t, ((tab t fun i => tab t fun j => (xArr.getD i 0 + yArr.getD j 0)⁻¹).getD i []).getD j 0 =
      (xArr.getD i 0 + yArr.getD j 0)⁻¹ := by
    intro i hi j hj
    rw [List.getD_eq_getElem?_getD (l := tab t _), tab_getElem?, if_pos hi]
    simp only [Option.getD_some]
    rw [List.getD_eq_getElem?_getD, tab_getElem?, if_pos hj]
    rfl
  refine ⟨_, generateMDSMatrix_eq _ _ t (by rw [xArr_length]; exact ht) (by rw [yArr_length]; exact ht), by simp, ?_, ?_, ?_⟩
  · intro row hr
    obtain ⟨i, _, rfl⟩ := List.mem_map.1 hr
    simp
  · intro i hi j hj
    have := xy i (by omega) j (by omega)
    refine ⟨this, ?_⟩
    rw [entry i hi j hj]
    exact inv_mul_cancel₀ this
  · intro n rows cols hr hcol ir ic
    have : (Matrix.of fun a b => (((tab t fun i => tab t fun j => (xArr.getD i 0 + yArr.getD j 0)⁻¹).getD (rows a)
        []).getD (cols b) 0 : Fr)) = Matrix.of fun a b => (xArr.getD (rows a) 0 + yArr.getD (cols b) 0)⁻¹ := by
      ext a b
      exact entry _ (hr a) _ (hcol b)
    rw [this]
    apply cauchy_det_ne_zero (fun a => xArr.getD (rows a) 0) (fun b => yArr.getD (cols b) 0)
    · intro a b h
      have ha := hr a
      have hb := hr b
      apply ir
      simp only [xval (rows a) (by omega), xval (rows b) (by omega)] at h
      exact inj xNats c1 k1 _ _ (by omega) (by omega) h
    · intro a b h
      have ha := hcol a
      have hb := hcol b
      apply ic
      simp only [yval (cols a) (by omega), yval (cols b) (by omega)] at h
      exact inj yNats c2 k2 _ _ (by omega) (by omega) h
    · intro a b
      have ha := hr a
      have hb := hcol b
      exact xy _ (by omega) _ (by omega)

example : Function.Injective (![3, 1] : Fin 2 → Nat) ∧ ∀ a, (![3, 1] : Fin 2 → Nat) a < 4 := by decide

/-- Multiplication by a matrix of nonzero determinant loses nothing. -/
theorem matVec_injective (t : Nat) (M : List (List F)) (hM : M.length = t) (hr : ∀ row ∈ M, row.length = t)
    (hd : (Matrix.of fun a b : Fin t => (M.getD a []).getD b 0).det ≠ 0) (v w : List F) (hv : v.length = t)
    (hw : w.length = t) (h : matVec M v = matVec M w) : v = w := by
  have key : ∀ u : List F, u.length = t → ∀ i : Fin t,
      (Matrix.of fun a b : Fin t => (M.getD a []).getD b 0).mulVec (fun j => u.getD j 0) i = (matVec M u).getD i 0 := by
    intro u hu i
    have hi : i.1 < M.length := by rw [hM]; exact i.2
    have hrow := hr (M[i.1]) (List.getElem_mem hi)
    simp only [Matrix.mulVec, dotProduct, Matrix.of_apply, matVec, List.getD_eq_getElem?_getD, List.getElem?_map,
      List.getElem?_eq_getElem hi, Option.map_some, Option.getD_some]
    rw [show (M[i.1].zipWith (· * ·) u) = List.ofFn fun j : Fin t => M[i.1].getD j 0 * u.getD j 0 from ?_, List.sum_ofFn]
    · simp only [List.getD_eq_getElem?_getD]
    · apply List.ext_getElem
      · simp [hrow, hu]
      · intro n h1 h2
        simp only [List.length_zipWith, hrow, hu, lt_min_iff] at h1
        simp [List.getD_eq_getElem?_getD, List.getElem?_eq_getElem (show n < M[i.1].length by omega),
          List.getElem?_eq_getElem (show n < u.length by omega)]
  have e : (fun j : Fin t => v.getD j 0) = fun j : Fin t => w.getD j 0 := by
    apply Matrix.mulVec_injective_of_isUnit ((Matrix.isUnit_iff_isUnit_det _).2 (isUnit_iff_ne_zero.2 hd))
    funext i
    rw [key v hv i, key w hw i, h]
  apply List.ext_getElem (by omega)
  intro n h1 h2
  have := congrFun e ⟨n, by omega⟩
  simpa [List.getD_eq_getElem?_getD, List.getElem?_eq_getElem h1, List.getElem?_eq_getElem h2] using this

/-- C28. The Poseidon permutation of the package (any round counts and constants, any `t ≤ 100`) is a bijection of the states
of `t` words for every block, as a Miyaguchi–Preneel chaining requires. Missing: `Hash` does not use its result. -/
theorem C28_permutation_partial (t nF nP : Nat) (ht' : t ≤ 100) (p : PoseidonHasher Fr)
    (hp : newPoseidonHasher xArr yArr t nF nP = .ok p) (cF cP cF' block : List Fr) (hb : block.length = t) :
    ∃ perm : { s : List Fr // s.length = t } → { s : List Fr // s.length = t }, Function.Bijective perm ∧
      ∀ s, (perm s).1 = poseidonPerm p.cauchy cF cP cF' block s.1 := by
  obtain ⟨M, e, m1, m2, _, m4⟩ := C30_mds t ht'
  unfold newPoseidonHasher at hp
  rw [e, ok_bind] at hp
  cases hp
  have hd := m4 t (fun a => a.1) (fun a => a.1) (fun a => a.2) (fun a => a.2) Fin.val_injective Fin.val_injective
  have rl : ∀ full (s : List Fr) c, (Spec.poseidonRound M full block s c).length = t := by
    intro full s c
    simp [Spec.poseidonRound, matVec, m1]
  have ri : ∀ full (s s' : List Fr) c, s.length = t → s'.length = t →
      Spec.poseidonRound M full block s c = Spec.poseidonRound M full block s' c → s = s' := by
    intro full s s' c hs hs' h
    unfold Spec.poseidonRound at h
    have h := matVec_injective t M m1 m2 hd _ _ (by cases full <;> simp [hs, hb]) (by cases full <;> simp [hs', hb]) h
    have e2 : s.zipWith (fun x k => x + k + c) block = s'.zipWith (fun x k => x + k + c) block := by
      revert h
      generalize s.zipWith (fun x k => x + k + c) block = u
      generalize s'.zipWith (fun x k => x + k + c) block = u'
      intro h
      cases full with
      | true => exact (List.map_injective_iff.2 pow7_bijective.1) h
      | false =>
        simp only [Bool.false_eq_true, if_false] at h
        cases u <;> cases u' <;> simp only [List.modifyHead_cons, List.modifyHead_nil, List.cons.injEq, reduceCtorEq] at h
        · rfl
        · rw [pow7_bijective.1 h.1, h.2]
    apply List.ext_getElem (by omega)
    intro i h1 h2
    have := congrArg (fun l => l[i]?) e2
    simp only [List.getElem?_zipWith, List.getElem?_eq_getElem h1, List.getElem?_eq_getElem h2,
      List.getElem?_eq_getElem (show i < block.length by omega), Option.some.injEq] at this
    linear_combination this
  have fl : ∀ full (cs : List Fr) (s : List Fr), s.length = t → (cs.foldl (Spec.poseidonRound M full block) s).length = t := by
    intro full cs
    induction cs with
    | nil => exact fun s hs => hs
    | cons c cs ih => exact fun s _ => ih _ (rl full s c)
  have fi : ∀ full (cs : List Fr) (s s' : List Fr), s.length = t → s'.length = t →
      cs.foldl (Spec.poseidonRound M full block) s = cs.foldl (Spec.poseidonRound M full block) s' → s = s' := by
    intro full cs
    induction cs with
    | nil => exact fun s s' _ _ h => h
    | cons c cs ih => exact fun s s' hs hs' h => ri full s s' c hs hs' (ih _ _ (rl full s c) (rl full s' c) h)
  refine ⟨fun s => ⟨poseidonPerm M cF cP cF' block s.1, fl _ _ _ (fl _ _ _ (fl _ _ _ s.2))⟩, ?_, fun _ => rfl⟩
  have : Finite { s : List Fr // s.length = t } := by
    have : Finite (List.Vector Fr t) := inferInstance
    exact this
  apply Finite.injective_iff_bijective.1
  rintro ⟨s, hs⟩ ⟨s', hs'⟩ h
  have h := congrArg Subtype.val h
  simp only [Subtype.mk.injEq] at h ⊢
  have l1 := fl true cF s hs
  have l1' := fl true cF s' hs'
  exact fi _ _ _ _ hs hs' (fi _ _ _ _ l1 l1' (fi _ _ _ _ (fl _ _ _ l1) (fl _ _ _ l1') h))

/-- C28. The hashers of the package: `t` = 2, 4, 8 with 8 + 82 + 8, 8 + 83 + 8, 8 + 84 + 8 rounds, each round with its own
constant, and the matrix of `GenerateMDSMatrix(t)`; `Update` computes in its local variable the Miyaguchi–Preneel step of
that permutation, and `Hash` never panics. Missing: `Hash` does not use what `Update` computes. -/
theorem C28_package_partial (q : Go (PoseidonHasher Fr)) (t nP : Nat)
    (hq : (q, t, nP) ∈ [(poseidonT2, 2, 82), (poseidonT4, 4, 83), (poseidonT8, 8, 84)]) :
    ∃ p, q = .ok p ∧ p.t = t ∧ generateMDSMatrix xArr yArr t = .ok p.cauchy ∧
      (∀ state block : List Fr, state.length = t → block.length = t →
        ∃ s, poseidonUpdateVar p arks state block = .ok s ∧ s.cur = addWords (addWords
          (poseidonPerm p.cauchy (arks.take 8) ((arks.drop 8).take nP) ((arks.drop (8 + nP)).take 8) block state) state) block) ∧
      ∀ msg, ∃ x, poseidonHash p arks msg = .ok x := by
  have key : ∀ t nP, 1 ≤ t → t ≤ 100 → 8 + nP + 8 ≤ 100 → ∃ p, newPoseidonHasher xArr yArr t 8 nP = .ok p ∧ p.t = t ∧
      generateMDSMatrix xArr yArr t = .ok p.cauchy ∧
      (∀ state block : List Fr, state.length = t → block.length = t →
        ∃ s, poseidonUpdateVar p arks state block = .ok s ∧ s.cur = addWords (addWords
          (poseidonPerm p.cauchy (arks.take 8) ((arks.drop 8).take nP) ((arks.drop (8 + nP)).take 8) block state) state) block) ∧
      ∀ msg, ∃ x, poseidonHash p arks msg = .ok x := by
    intro t nP ht ht' hc
    obtain ⟨p, h1, h2, h3, h4, h5⟩ := newPoseidonHasher_square t 8 nP ht'
    have hcl : p.nRoundsF + p.nRoundsP + p.nRoundsF ≤ arks.length := by rw [h4, h5, arks_length]; exact hc
    refine ⟨p, h1, h3, ?_, ?_, fun msg => ⟨_, poseidonHash_heads p h2 arks msg (by omega) hcl (by omega)⟩⟩
    · unfold newPoseidonHasher at h1
      obtain ⟨M, e, _⟩ := C30_mds t ht'
      rw [e, ok_bind] at h1
      cases h1
      exact e
    · intro state block hs hb
      obtain ⟨s, e1, e2⟩ := (C28_update_partial p h2 arks state block (by omega) hcl (by omega) (by omega) (by omega)).1
      rw [h4, h5] at e2
      exact ⟨s, e1, e2⟩
  simp only [List.mem_cons, Prod.mk.injEq, List.not_mem_nil, or_false] at hq
  rcases hq with ⟨rfl, rfl, rfl⟩ | ⟨rfl, rfl, rfl⟩ | ⟨rfl, rfl, rfl⟩
  · exact key 2 82 (by omega) (by omega) (by omega)
  · exact key 4 83 (by omega) (by omega) (by omega)
  · exact key 8 84 (by omega) (by omega) (by omega)

/-- C29. The hashers of the package use 91 rounds. -/
theorem C29_package (t : Nat) (ht : 1 ≤ t) (msg : List Fr) :
    gmimcHash (gmimcT t) arks msg = .ok (Spec.gmimcHash (arks.take 91) t msg) :=
  C29_hash (gmimcT t) ht arks msg (by rw [arks_length]; change 91 ≤ 100; omega)

example : ([1, 2] : List Fr).length = 2 ∧ ∃ p, poseidonT8 = .ok p := by
  obtain ⟨p, h, _⟩ := C28_package_partial poseidonT8 8 84 (by simp)
  exact ⟨rfl, p, h⟩

end GkrMimc
