import Verif.Proofs.Race
import Verif.Proofs.ConcProto

/-! What is left of the goroutines over memory when those over values have come to their end. -/

namespace GkrMimc

open Spec

variable {F M V V' : Type}

/-- `P` only sends, closes channels and tells a wait group. -/
def Quiet : Prog M V → Prop
  | .ret _ => True
  | .send _ _ k => Quiet k
  | .close _ k => Quiet k
  | .wgDone _ k => Quiet k
  | _ => False

/-- `P` does not return before it sends on `f`; after that it is quiet. -/
def Fin (f : Nat) : Prog M V → Prop
  | .crash _ => True
  | .send c _ k => (c = f ∧ Quiet k) ∨ (c ≠ f ∧ Fin f k)
  | .recv _ k => ∀ v, Fin f (k v)
  | .close _ k => Fin f k
  | .wgDone _ k => Fin f k
  | .wgWait _ k => Fin f k
  | .mem _ _ k => ∀ h, Fin f (k h)
  | _ => False

/-- The goroutines that `P` starts are quiet, or quiet after a send on `f`; `n` is the number of the next channel. -/
def Starts (f : Nat) : Nat → Prog M V → Prop
  | _, .ret _ => True
  | _, .crash _ => True
  | n, .make _ k => Starts f (n + 1) (k n)
  | n, .send _ _ k => Starts f n k
  | n, .recv _ k => ∀ v, Starts f n (k v)
  | n, .close _ k => Starts f n k
  | n, .go p k => (Fin f p ∨ Quiet p) ∧ Starts f n k
  | n, .wgNew _ k => ∀ w, Starts f n (k w)
  | n, .wgDone _ k => Starts f n k
  | n, .wgWait _ k => Starts f n k
  | n, .act _ k => Starts f n k
  | n, .mem _ _ k => ∀ h, Starts f n (k h)

/-- The caller only starts such goroutines. -/
structure Orderly (f : Nat) (s : Conf M V) : Prop where
  pos : 1 ≤ s.nG
  main : Starts f s.nC (s.gs 0)
  others : ∀ i, i ≠ 0 → Fin f (s.gs i) ∨ Quiet (s.gs i)

theorem Orderly.upd {f : Nat} {s s' : Conf M V} (h : Orderly f s) {i : Nat} {P : Prog M V} (e : s'.gs = Function.update s.gs i P)
    (hG : s.nG ≤ s'.nG) (hC : i ≠ 0 → s'.nC = s.nC) (hC' : i = 0 → Starts f s'.nC P) (hP : i ≠ 0 → Fin f P ∨ Quiet P) : Orderly f s' := by
  refine ⟨le_trans h.pos hG, ?_, ?_⟩
  · by_cases hi : i = 0
    · subst hi; rw [e, Function.update_self]; exact hC' rfl
    · rw [e, Function.update_of_ne (fun e => hi e.symm), hC hi]; exact h.main
  · intro j hj
    by_cases hji : j = i
    · subst hji; rw [e, Function.update_self]; exact hP hj
    · rw [e, Function.update_of_ne hji]; exact h.others j hj

theorem Orderly.exec {f : Nat} {s s' : Conf M V} (h : Orderly f s) {i : Nat} (hs : GkrMimc.exec s i = some s') : Orderly f s' := by
  have hm : i = 0 → Starts f s.nC (s.gs i) := by rintro rfl; exact h.main
  have ho := h.others i
  unfold GkrMimc.exec at hs
  cases e : s.gs i with
  | ret r => rw [e] at hs; cases hs
  | crash x => rw [e] at hs; cases hs; exact ⟨h.pos, h.main, h.others⟩
  | make cap k =>
    rw [e] at hs hm ho; cases hs
    by_cases hi : i = 0
    · exact h.upd (i := i) rfl le_rfl (fun x => absurd hi x) (fun _ => hm hi) (fun x => absurd hi x)
    · rcases ho hi with x | x <;> exact x.elim
  | send c v k =>
    rw [e] at hs hm ho
    simp only at hs
    split_ifs at hs
    · cases hs; exact ⟨h.pos, h.main, h.others⟩
    · cases hs
      exact h.upd (i := i) rfl le_rfl (fun _ => rfl) hm fun hi => by
        rcases ho hi with (⟨_, x⟩ | ⟨_, x⟩) | x
        · exact .inr x
        · exact .inl x
        · exact .inr x
  | recv c k =>
    rw [e] at hs hm ho
    simp only at hs
    cases hb : (s.chans c).buf with
    | nil =>
      rw [hb] at hs
      simp only at hs
      split_ifs at hs
      cases hs
      exact h.upd (i := i) rfl le_rfl (fun _ => rfl) (fun x => hm x none) fun hi => by
        rcases ho hi with x | x
        · exact .inl (x none)
        · exact x.elim
    | cons y ys =>
      rw [hb] at hs
      cases hs
      exact h.upd (i := i) rfl le_rfl (fun _ => rfl) (fun x => hm x (some y)) fun hi => by
        rcases ho hi with x | x
        · exact .inl (x _)
        · exact x.elim
  | close c k =>
    rw [e] at hs hm ho
    simp only at hs
    split_ifs at hs
    · cases hs; exact ⟨h.pos, h.main, h.others⟩
    · cases hs
      exact h.upd (i := i) rfl le_rfl (fun _ => rfl) hm ho
  | go p k =>
    rw [e] at hs hm ho; cases hs
    by_cases hi : i = 0
    · subst hi
      have hp := h.pos
      refine ⟨by simp only; omega, ?_, ?_⟩
      · simp only
        rw [Function.update_of_ne (by omega), Function.update_self]
        exact (hm rfl).2
      · intro j hj
        simp only
        by_cases hjn : j = s.nG
        · subst hjn; rw [Function.update_self]; exact (hm rfl).1
        · rw [Function.update_of_ne hjn, Function.update_of_ne hj]; exact h.others j hj
    · rcases ho hi with x | x <;> exact x.elim
  | wgNew n k =>
    rw [e] at hs hm ho; cases hs
    by_cases hi : i = 0
    · exact h.upd (i := i) rfl le_rfl (fun x => absurd hi x) (fun _ => hm hi _) (fun x => absurd hi x)
    · rcases ho hi with x | x <;> exact x.elim
  | wgDone w k =>
    rw [e] at hs hm ho
    simp only at hs
    split_ifs at hs
    · cases hs; exact ⟨h.pos, h.main, h.others⟩
    · cases hs
      exact h.upd (i := i) rfl le_rfl (fun _ => rfl) hm ho
  | wgWait w k =>
    rw [e] at hs hm ho
    simp only at hs
    split_ifs at hs
    cases hs
    exact h.upd (i := i) rfl le_rfl (fun _ => rfl) hm fun hi => by
      rcases ho hi with x | x
      · exact .inl x
      · exact x.elim
  | act g k =>
    rw [e] at hs hm ho; cases hs
    by_cases hi : i = 0
    · exact h.upd (i := i) rfl le_rfl (fun x => absurd hi x) (fun _ => hm hi) (fun x => absurd hi x)
    · rcases ho hi with x | x <;> exact x.elim
  | mem a g k =>
    rw [e] at hs hm ho; cases hs
    exact h.upd (i := i) rfl le_rfl (fun _ => rfl) (fun x => hm x _) fun hi => by
      rcases ho hi with x | x
      · exact .inl (x _)
      · exact x.elim

theorem Orderly.step {f : Nat} {s s' : Conf M V} (h : Orderly f s) (hs : Step s s') : Orderly f s' := by
  obtain ⟨ha, ⟨i, hi⟩ | ⟨i, j, c, v, k, k', hij, hi, hj, hcap, hcl, rfl⟩⟩ := hs
  · exact h.exec hi
  · have hm := h.main
    have ho := h.others
    have h1 : Orderly f (s.goOn i k) := by
      refine h.upd (i := i) rfl le_rfl (fun _ => rfl) ?_ ?_
      · rintro rfl; rw [hi] at hm; exact hm
      · intro h0
        have := ho i h0
        rw [hi] at this
        rcases this with (⟨_, x⟩ | ⟨_, x⟩) | x
        · exact .inr x
        · exact .inl x
        · exact .inr x
    refine h1.upd (i := j) rfl le_rfl (fun _ => rfl) ?_ ?_
    · rintro rfl; rw [hj] at hm; exact hm _
    · intro h0
      have := ho j h0
      rw [hj] at this
      rcases this with x | x
      · exact .inl (x _)
      · exact x.elim

theorem Orderly.reach {f n : Nat} {s s' : Conf M V} (h : Orderly f s) (hr : ReachIn s n s') : Orderly f s' := by
  induction hr with
  | zero => exact h
  | step _ hs ih => exact ih.step hs

/-! ### Two goroutines -/

variable {MR : Set Nat → Heap F → V → V' → Prop} {ro : Set Nat}

theorem Fin.not_ended {f : Nat} {P : Prog (Heap F) V} (hP : Fin f P) {p : Prog M V'} {own : Set Nat} {h : Heap F}
    (g : GR MR ro P p own h) (a : ∀ b ∈ own ∪ ro, b < h.next) (e : Ended f p) : False := by
  have nc : ∀ e, p ≠ .crash e := by
    rintro x rfl
    rcases e with ⟨r, e⟩ | ⟨c, r, e⟩ | ⟨c, v, c', r, _, e⟩ <;> cases e
  have a' : Agree (own ∪ ro) h h := fun b hb => ⟨rfl, a b hb⟩
  induction P generalizing p own h with
  | ret r => exact hP
  | crash x => obtain ⟨x, rfl⟩ := g; exact nc x rfl
  | make cap k ih => exact hP
  | send c v K ih =>
    obtain ⟨v', k, rfl, o, ho, hm, g⟩ := Under.get g nc a'
    rcases e with ⟨r, e⟩ | ⟨c, r, e⟩ | ⟨c1, v1, c', r, hc, e⟩
    · cases e
    · cases e
    · injection e with e1 e2 e3
      subst e1; subst e3
      rcases hP with ⟨h1, _⟩ | ⟨_, h2⟩
      · exact hc h1
      · have b : ∀ b ∈ own \ o ∪ ro, b < h.next := by
          rintro x (hx | hx)
          · exact a x (.inl hx.1)
          · exact a x (.inr hx)
        exact ih h2 g b (.inr (.inl ⟨_, _, rfl⟩)) (by intro e he; cases he) fun x hx => ⟨rfl, b x hx⟩
  | recv c K ih =>
    obtain ⟨k, rfl, _⟩ := Under.get g nc a'
    rcases e with ⟨r, e⟩ | ⟨c, r, e⟩ | ⟨c1, v1, c', r, hc, e⟩ <;> cases e
  | close c K ih =>
    obtain ⟨k, rfl, g'⟩ := Under.get g nc a'
    rcases e with ⟨r, e⟩ | ⟨c, r, e⟩ | ⟨c1, v1, c', r, hc, e⟩
    · cases e
    · injection e with e1 e2
      subst e2
      exact ih hP g' a (.inl ⟨_, rfl⟩) (by intro e he; cases he) a'
    · cases e
  | go p k _ ih => exact hP
  | wgNew n k ih => exact hP
  | wgDone w K ih =>
    obtain ⟨k, rfl, _⟩ := Under.get g nc a'
    rcases e with ⟨r, e⟩ | ⟨c, r, e⟩ | ⟨c1, v1, c', r, hc, e⟩ <;> cases e
  | wgWait w K ih =>
    obtain ⟨k, rfl, _⟩ := Under.get g nc a'
    rcases e with ⟨r, e⟩ | ⟨c, r, e⟩ | ⟨c1, v1, c', r, hc, e⟩ <;> cases e
  | act f k ih => exact hP
  | mem x t K ih =>
    obtain ⟨_, hn, _, own', h1, h2, g'⟩ := Under.get g nc a'
    have b : ∀ b ∈ own' ∪ ro, b < (t h).next := by
      rintro b (hb | hb)
      · exact h2 b hb
      · exact lt_of_lt_of_le (a b (.inr hb)) hn
    exact ih h (hP h) g' b e nc fun x hx => ⟨rfl, b x hx⟩

theorem Quiet.ended {f : Nat} {P : Prog (Heap F) V} (hP : Quiet P) {p : Prog M V'} {own : Set Nat} {h : Heap F}
    (g : GR MR ro P p own h) (a : ∀ b ∈ own ∪ ro, b < h.next) (e : Ended f p) : Ended f P := by
  have nc : ∀ e, p ≠ .crash e := by
    rintro x rfl
    rcases e with ⟨r, e⟩ | ⟨c, r, e⟩ | ⟨c, v, c', r, _, e⟩ <;> cases e
  have a' : Agree (own ∪ ro) h h := fun b hb => ⟨rfl, a b hb⟩
  -- the last two steps
  have one : ∀ {P : Prog (Heap F) V} {r : V'} {own : Set Nat}, (∀ b ∈ own ∪ ro, b < h.next) → Quiet P →
      GR MR ro P (.ret r : Prog M V') own h → ∃ r, P = .ret r := by
    intro P r own a hP g
    have a' : Agree (own ∪ ro) h h := fun b hb => ⟨rfl, a b hb⟩
    have nc : ∀ e, (.ret r : Prog M V') ≠ .crash e := by intro e he; cases he
    cases P with
    | ret r => exact ⟨r, rfl⟩
    | send c v K => obtain ⟨v', k, h1, _⟩ := Under.get g nc a'; cases h1
    | close c K => obtain ⟨k, h1, _⟩ := Under.get g nc a'; cases h1
    | wgDone w K => obtain ⟨k, h1, _⟩ := Under.get g nc a'; cases h1
    | _ => exact hP.elim
  have two : ∀ {P : Prog (Heap F) V} {c : Nat} {r : V'} {own : Set Nat}, (∀ b ∈ own ∪ ro, b < h.next) → Quiet P →
      GR MR ro P (.close c (.ret r) : Prog M V') own h → ∃ c r, P = .close c (.ret r) := by
    intro P c r own a hP g
    have a' : Agree (own ∪ ro) h h := fun b hb => ⟨rfl, a b hb⟩
    have nc : ∀ e, (.close c (.ret r) : Prog M V') ≠ .crash e := by intro e he; cases he
    cases P with
    | ret r => obtain ⟨r, h1, _⟩ := Under.get g nc a'; cases h1
    | send c v K => obtain ⟨v', k, h1, _⟩ := Under.get g nc a'; cases h1
    | close c K =>
      obtain ⟨k, h1, g⟩ := Under.get g nc a'
      injection h1 with h1 h2
      subst h2
      obtain ⟨r, rfl⟩ := one (P := K) a hP g
      exact ⟨c, r, rfl⟩
    | wgDone w K => obtain ⟨k, h1, _⟩ := Under.get g nc a'; cases h1
    | _ => exact hP.elim
  rcases e with ⟨r, rfl⟩ | ⟨c, r, rfl⟩ | ⟨c, v, c', r, hc, rfl⟩
  · exact .inl (one a hP g)
  · exact .inr (.inl (two a hP g))
  · cases P with
    | ret r => obtain ⟨r, h1, _⟩ := Under.get g nc a'; cases h1
    | send x v K =>
      obtain ⟨v', k, h1, o, ho, _, g⟩ := Under.get g nc a'
      injection h1 with h1 h2 h3
      subst h1; subst h3
      have b : ∀ b ∈ own \ o ∪ ro, b < h.next := by
        rintro x (hx | hx)
        · exact a x (.inl hx.1)
        · exact a x (.inr hx)
      obtain ⟨c', r, rfl⟩ := two (P := K) b hP g
      exact .inr (.inr ⟨_, _, _, _, hc, rfl⟩)
    | close c K => obtain ⟨k, h1, _⟩ := Under.get g nc a'; cases h1
    | wgDone w K => obtain ⟨k, h1, _⟩ := Under.get g nc a'; cases h1
    | _ => exact hP.elim

variable {W : Set Nat} {h0 : Heap F} {s : Conf (Heap F) V} {t : Conf M V'} {ow : Nat → Owner} {hd : Nat → Nat}

theorem CR.ended (c : CR MR ro W h0 s t ow hd) {f : Nat} (h : Orderly f s) (e : ∀ i, i ≠ 0 → Ended f (t.gs i)) (i : Nat) (hi : i ≠ 0) :
    Ended f (s.gs i) := by
  have a : ∀ b ∈ {a | ow a = .g i} ∪ ro, b < s.mem.next := fun b hb => (c.agree_refl i b hb).2
  rcases h.others i hi with x | x
  · exact (x.not_ended (c.progs i) a (e i hi)).elim
  · exact x.ended (c.progs i) a (e i hi)

/-- All the schedules over memory, and what is left when the caller returns. -/
theorem CR.goodEnded (st : StableMsg MR) {sem nCore N f : Nat} {r0 : V'} (c : CR MR ro W s.mem s t ow hd) (ho : Orderly f s)
    (g : GoodRun sem nCore (fun t => t.gs 0 = .ret r0 ∧ ∀ i, i ≠ 0 → Ended f (t.gs i)) N t) :
    ∃ B, GoodMemRun W (fun s => (∃ r o, s.gs 0 = .ret r ∧ MR o s.mem r r0) ∧ ∀ i, i ≠ 0 → Ended f (s.gs i)) B s := by
  obtain ⟨B, hB⟩ := c.goodOf st g
  refine ⟨B, fun n s' hr => ⟨(hB n s' hr).1, ?_⟩⟩
  have gs := (hB n s' hr).2
  refine { gs with result := ?_ }
  rintro ⟨r, hx⟩
  obtain ⟨t', ow', hd', c', nc, ht, he⟩ := gs.result ⟨r, hx⟩
  obtain ⟨o, ho'⟩ := c'.main nc hx ht
  exact ⟨⟨r, o, hx, ho'⟩, c'.ended (ho.reach hr) he⟩

end GkrMimc
