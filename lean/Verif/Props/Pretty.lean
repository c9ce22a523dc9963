import Verif.Model.Pretty
import Verif.Proofs.GoLemmas
import Std.Data.String.ToInt
import Mathlib.Tactic.NormNum

/-! Property C39: printing field elements. The reader of decimal numbers is Lean's `String.toInt?`. -/

namespace GkrMimc

/-- The two cases of `PrettyStringFr`, the canonical representatives named. -/
theorem pretty_cases (x : Fr) : ∃ a b : Nat, x.val = a ∧ (-x).val = b ∧ ((a : Int) : Fr) = x ∧ ((-(b : Int) : Int) : Fr) = x ∧
    ((a.repr.length ≤ b.repr.length ∧ prettyStringFr x = a.repr) ∨
      (b.repr.length < a.repr.length ∧ prettyStringFr x = "-" ++ b.repr)) := by
  refine ⟨_, _, rfl, rfl, by simp, by simp, ?_⟩
  by_cases h : (frDecimal x).length ≤ (frDecimal (-x)).length
  · exact .inl ⟨h, if_pos h⟩
  · exact .inr ⟨Nat.lt_of_not_le h, if_neg h⟩

/-- C39. What is printed is a decimal integer congruent to `x` modulo `r`. -/
theorem C39_congruent (x : Fr) : ∃ z : Int, (prettyStringFr x).toInt? = some z ∧ ((z : Int) : Fr) = x := by
  obtain ⟨a, b, _, _, ha, hb, ⟨_, h⟩ | ⟨_, h⟩⟩ := pretty_cases x <;> rw [h]
  · exact ⟨_, Nat.toInt?_repr _, ha⟩
  · refine ⟨-(b : Int), ?_, hb⟩
    rw [String.toInt?_minus_append, Nat.toNat?_repr]; rfl

/-- C39. Different elements print differently. -/
theorem C39_injective (x y : Fr) (h : prettyStringFr x = prettyStringFr y) : x = y := by
  obtain ⟨z, h1, h2⟩ := C39_congruent x
  obtain ⟨w, h3, h4⟩ := C39_congruent y
  rw [h, h3] at h1
  rw [← h2, ← h4, Option.some.inj h1]

/-- C39. The printed string is no longer than the plain decimal representation of `x`, and at most one character (the sign)
longer than that of `-x`. -/
theorem C39_length (x : Fr) : (prettyStringFr x).length ≤ (Nat.repr x.val).length ∧
    (prettyStringFr x).length ≤ (Nat.repr (-x).val).length + 1 := by
  obtain ⟨a, b, rfl, rfl, -, -, ⟨hl, h⟩ | ⟨hl, h⟩⟩ := pretty_cases x <;> rw [h]
  · exact ⟨le_rfl, by omega⟩
  · rw [String.length_append, show ("-" : String).length = 1 from rfl]
    omega

/-- C39. `-` is printed exactly when the opposite has a strictly shorter decimal representation. -/
theorem C39_sign (x : Fr) : (∃ n : Nat, prettyStringFr x = "-" ++ Nat.repr n) ↔
    (Nat.repr (-x).val).length < (Nat.repr x.val).length := by
  obtain ⟨a, b, ha, hb, -, -, ⟨hl, h⟩ | ⟨hl, h⟩⟩ := pretty_cases x <;> rw [h, ha, hb]
  · refine ⟨?_, fun h' => by omega⟩
    rintro ⟨n, hn⟩
    have h1 := Nat.toInt?_repr a
    rw [hn, String.toInt?_minus_append, Nat.toNat?_repr] at h1
    have h2 : -(n : Int) = a := Option.some.inj h1
    have h3 : a = 0 := by omega
    have h4 : n = 0 := by omega
    rw [h3, h4] at hn
    exact absurd hn (by decide)
  · exact ⟨fun _ => hl, fun _ => ⟨_, rfl⟩⟩

example : prettyStringFr 12 = "12" ∧ prettyStringFr (-12) = "-12" := by decide +kernel
example : prettyStringFr ((frModulus / 2 : Nat) : Fr) = Nat.repr (frModulus / 2) := by decide +kernel

/-- The characters of a printed element: no comma. -/
theorem pretty_no_comma (x : Fr) : ',' ∉ (prettyStringFr x).toList := by
  have key : ∀ n : Nat, ',' ∉ (Nat.repr n).toList := by
    intro n h
    rw [Nat.toList_repr] at h
    have := Nat.isDigit_of_mem_toDigits (by omega) (by omega) h
    exact absurd this (by decide)
  obtain ⟨a, b, -, -, -, -, ⟨_, h⟩ | ⟨_, h⟩⟩ := pretty_cases x <;> rw [h]
  · exact key _
  · rw [String.toList_append]
    intro h
    rcases List.mem_append.1 h with h | h
    · exact absurd h (by decide)
    · exact key _ h

/-- What the three printing loops produce. -/
theorem slice_toList {α : Type} (f : α → String) (l : List α) :
    (l.foldl (fun res x => res ++ (f x ++ ", ")) "[" ++ "]").toList =
      '[' :: (l.flatMap (fun x => (f x).toList ++ [',', ' ']) ++ [']']) := by
  have key : ∀ (l : List α) (s : String), (l.foldl (fun res x => res ++ (f x ++ ", ")) s).toList =
      s.toList ++ l.flatMap (fun x => (f x).toList ++ [',', ' ']) := by
    intro l
    induction l with
    | nil => simp
    | cons x l ih =>
      intro s
      rw [List.foldl_cons, ih]
      simp
  rw [String.toList_append, key]
  simp

theorem split_comma {a b s t : List Char} (ha : ',' ∉ a) (hb : ',' ∉ b) (h : a ++ ',' :: s = b ++ ',' :: t) : a = b ∧ s = t := by
  induction a generalizing b with
  | nil =>
    cases b with
    | nil => exact ⟨rfl, by simpa using h⟩
    | cons c b =>
      have : ',' = c := by simpa using congrArg List.head? h
      exact absurd (List.mem_cons.2 (.inl this)) hb
  | cons x a ih =>
    cases b with
    | nil =>
      have : x = ',' := by simpa using congrArg List.head? h
      exact absurd (List.mem_cons.2 (.inl this.symm)) ha
    | cons c b =>
      simp only [List.cons_append, List.cons.injEq] at h
      obtain ⟨rfl, h⟩ := h
      obtain ⟨rfl, rfl⟩ := ih (fun h => ha (List.mem_cons_of_mem _ h)) (fun h => hb (List.mem_cons_of_mem _ h)) h
      exact ⟨rfl, rfl⟩

theorem pretty_head (x : Fr) (s : List Char) : ∃ c t, (prettyStringFr x).toList ++ s = c :: t ∧ c ≠ ']' := by
  have key : ∀ n : Nat, ∃ c t, (Nat.repr n).toList = c :: t ∧ c ≠ ']' := by
    intro n
    rw [Nat.toList_repr]
    cases h : Nat.toDigits 10 n with
    | nil => exact absurd h Nat.toDigits_ne_nil
    | cons c t =>
      refine ⟨c, t, rfl, ?_⟩
      rintro rfl
      have := Nat.isDigit_of_mem_toDigits (b := 10) (n := n) (c := ']') (by omega) (by omega) (by rw [h]; simp)
      exact absurd this (by decide)
  obtain ⟨a, b, -, -, -, -, ⟨_, h⟩ | ⟨_, h⟩⟩ := pretty_cases x <;> rw [h]
  · obtain ⟨c, t, h, hc⟩ := key a
    exact ⟨c, t ++ s, by rw [h]; rfl, hc⟩
  · exact ⟨'-', b.repr.toList ++ s, by simp, by decide⟩

/-- A printing loop is injective if the printer of elements is, and writes neither a comma nor a leading bracket. -/
theorem slice_injective {α : Type} (f : α → String) (hf : ∀ x y, f x = f y → x = y) (hc : ∀ x, ',' ∉ (f x).toList)
    (hh : ∀ x s, ∃ c t, (f x).toList ++ s = c :: t ∧ c ≠ ']') (l l' : List α)
    (h : l.foldl (fun res x => res ++ (f x ++ ", ")) "[" ++ "]" = l'.foldl (fun res x => res ++ (f x ++ ", ")) "[" ++ "]") : l = l' := by
  replace h := congrArg String.toList h
  rw [slice_toList, slice_toList] at h
  replace h := (List.cons.inj h).2
  induction l generalizing l' with
  | nil =>
    cases l' with
    | nil => rfl
    | cons y l' =>
      obtain ⟨c, t, e, hc⟩ := hh y (',' :: ' ' :: (l'.flatMap (fun x => (f x).toList ++ [',', ' ']) ++ [']']))
      simp only [List.flatMap_nil, List.nil_append, List.flatMap_cons, List.append_assoc, List.cons_append] at h
      rw [e] at h
      exact absurd (List.cons.inj h).1.symm hc
  | cons x l ih =>
    cases l' with
    | nil =>
      obtain ⟨c, t, e, hc⟩ := hh x (',' :: ' ' :: (l.flatMap (fun x => (f x).toList ++ [',', ' ']) ++ [']']))
      simp only [List.flatMap_nil, List.nil_append, List.flatMap_cons, List.append_assoc, List.cons_append] at h
      rw [e] at h
      exact absurd (List.cons.inj h).1 hc
    | cons y l' =>
      simp only [List.flatMap_cons, List.append_assoc, List.cons_append, List.nil_append] at h
      obtain ⟨h1, h2⟩ := split_comma (hc x) (hc y) h
      rw [hf x y (String.toList_inj.1 h1), ih l' (List.cons.inj h2).2]

/-- C39 for slices: different slices print differently. -/
theorem C39_slice_injective (l l' : List Fr) (h : frSliceToString l = frSliceToString l') : l = l' :=
  slice_injective _ C39_injective pretty_no_comma pretty_head l l' h

/-- C39 for tables: different tables print differently. -/
theorem C39_table_injective (l l' : List Fr) (h : tableString l = tableString l') : l = l' := by
  replace h := congrArg String.toList h
  simp only [tableString, String.toList_append] at h
  exact C39_slice_injective l l' (String.toList_inj.1 (List.append_cancel_left h))

theorem repr_no_comma (n : Nat) : ',' ∉ (Nat.repr n).toList := by
  intro h
  rw [Nat.toList_repr] at h
  have := Nat.isDigit_of_mem_toDigits (by omega) (by omega) h
  exact absurd this (by decide)

theorem repr_head (n : Nat) (s : List Char) : ∃ c t, (Nat.repr n).toList ++ s = c :: t ∧ c ≠ ']' := by
  rw [Nat.toList_repr]
  cases h : Nat.toDigits 10 n with
  | nil => exact absurd h Nat.toDigits_ne_nil
  | cons c t =>
    refine ⟨c, t ++ s, rfl, ?_⟩
    rintro rfl
    have := Nat.isDigit_of_mem_toDigits (b := 10) (n := n) (c := ']') (by omega) (by omega) (by rw [h]; simp)
    exact absurd this (by decide)

theorem intRepr_cases (z : Int) : (∃ n : Nat, z = n ∧ z.repr = n.repr) ∨ ∃ n : Nat, z = -(n : Int) ∧ z.repr = "-" ++ n.repr := by
  cases z with
  | ofNat n => exact .inl ⟨n, rfl, rfl⟩
  | negSucc n => exact .inr ⟨n + 1, Int.negSucc_eq n, rfl⟩

/-- C39 for slices of integers: different slices print differently. -/
theorem C39_ints_injective (l l' : List Int) (h : intSliceToString l = intSliceToString l') : l = l' := by
  refine slice_injective _ ?_ ?_ ?_ l l' h
  · intro x y e
    have hx : ∀ z : Int, z.repr.toInt? = some z := by
      intro z
      rcases intRepr_cases z with ⟨n, rfl, e⟩ | ⟨n, rfl, e⟩ <;> rw [e]
      · exact Nat.toInt?_repr _
      · rw [String.toInt?_minus_append, Nat.toNat?_repr]; rfl
    have := hx x
    rw [e, hx y] at this
    exact (Option.some.inj this).symm
  · intro z
    rcases intRepr_cases z with ⟨n, -, e⟩ | ⟨n, -, e⟩ <;> rw [e]
    · exact repr_no_comma n
    · rw [String.toList_append]
      intro h
      rcases List.mem_append.1 h with h | h
      · exact absurd h (by decide)
      · exact repr_no_comma n h
  · intro z s
    rcases intRepr_cases z with ⟨n, -, e⟩ | ⟨n, -, e⟩ <;> rw [e]
    · exact repr_head n s
    · exact ⟨'-', n.repr.toList ++ s, by simp, by decide⟩

/-- C39 for slices of natural numbers. -/
theorem C39_uints_injective (l l' : List Nat) (h : uintSliceToString l = uintSliceToString l') : l = l' := by
  refine slice_injective _ ?_ repr_no_comma repr_head l l' h
  intro x y e
  have := Nat.toNat?_repr x
  rw [e, Nat.toNat?_repr y] at this
  exact (Option.some.inj this).symm

/-- C39. `Uint64ToFr` is injective: different numbers give different elements. -/
theorem C39_uint64 (x y : UInt64) (h : uint64ToFr x = uint64ToFr y) : x = y := by
  have hb : ∀ z : UInt64, z.toNat < frModulus := fun z => lt_trans z.toNat_lt (by decide)
  have e := congrArg ZMod.val h
  unfold uint64ToFr at e
  rw [ZMod.val_natCast_of_lt (hb x), ZMod.val_natCast_of_lt (hb y)] at e
  exact UInt64.toNat_inj.1 e

/-- C39. `Uint64ToFr` gives the element whose canonical representative is the number. -/
theorem C39_uint64_val (x : UInt64) : (uint64ToFr x).val = x.toNat := ZMod.val_natCast_of_lt (lt_trans x.toNat_lt (by decide))

/-- C39. `FrToGenericArray` never panics and keeps all the elements in order. -/
theorem C39_generic (l : List Fr) : frToGenericArray l = .ok (l.map some) := by
  unfold frToGenericArray
  have := forN_eq (body := fun i (res : List (Option Fr)) => do
      let x ← idx l i
      setIdx res i (some x)) (fun k => (l.take k).map some ++ List.replicate (l.length - k) none) l.length ?_
  · simpa using this
  · intro i hi
    simp only [idx_ok hi, ok_bind]
    rw [setIdx_ok (by simp; omega)]
    congr 1
    rw [List.set_append_right _ _ (by simp), List.take_succ_eq_append_getElem hi]
    rw [show i - (List.map some (List.take i l)).length = 0 by simp; omega]
    rw [show l.length - i = (l.length - (i + 1)) + 1 by omega, List.replicate_succ]
    simp only [List.set_cons_zero, List.map_append, List.map_cons, List.map_nil, List.append_assoc, List.cons_append, List.nil_append]

example : frSliceToString [1, -1, 30] = "[1, -1, 30, ]" := by decide +kernel
example : intSliceToString [1, -20, 0] = "[1, -20, 0, ]" ∧ uintSliceToString [] = "[]" ∧ tableString [-5] = "table = [-5, ]" := by decide +kernel
example : uint64ToFr 18446744073709551615 = -1 + 18446744073709551616 ∧ frToGenericArray [3, 1] = .ok [some 3, some 1] := by decide +kernel

end GkrMimc
