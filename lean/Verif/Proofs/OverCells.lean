import Verif.Proofs.ProvePasses
import Verif.Proofs.Race
import Verif.Proofs.Heap

/-! Code over memory of elements, on memory of elements and headers. -/

namespace GkrMimc

open Spec

set_option linter.unusedSectionVars false

variable {F : Type} [Field F] [DecidableEq F]

theorem onCells_elems {a : Access} {f : Heap F → Heap F} {k : Heap F → Prog (Heap F) (MsgH F)} (l : Labelled (.mem a f k))
    (h : Heap (Cell F)) : (onCells a f h).elems = f h.elems := by
  cases a with
  | read a i => rw [l.1]; rfl
  | write a i =>
    obtain ⟨v, hv⟩ := l.1
    rw [hv]
    refine Heap.ext' (fun b j => ?_) rfl rfl
    simp only [onCells, Heap.elems, hv]
    split_ifs <;> simp_all [Cell.toElem]
  | alloc =>
    obtain ⟨h1, h2⟩ := l.1 h.elems
    refine Heap.ext' (fun b j => ?_) h1.symm rfl
    show ((Function.update h.cells h.next _ : Nat → Nat → Cell F) b j).toElem = _
    by_cases hb : b = h.next
    · subst hb; rw [Function.update_self]; rfl
    · rw [Function.update_of_ne hb, h2 b hb]; rfl

theorem Spec.Labelled.overCells {P : Prog (Heap F) (MsgH F)} (l : Labelled P) : Labelled P.overCells := by
  induction P with
  | ret r => trivial
  | crash e => trivial
  | make cap k ih => exact fun n => ih n (l n)
  | send c v k ih => exact ih l
  | recv c k ih => exact fun v => ih v (l v)
  | close c k ih => exact ih l
  | go p k ihp ih => exact ⟨ihp l.1, ih l.2⟩
  | wgNew n k ih => exact fun n => ih n (l n)
  | wgDone w k ih => exact ih l
  | wgWait w k ih => exact ih l
  | act f k ih => exact l
  | mem a f k ih =>
    cases a with
    | read a i =>
      refine ⟨fun _ => rfl, fun h h' e => ?_, fun h => ih _ (l.2.2 _)⟩
      show (k _).overCells = (k _).overCells
      rw [l.2.1 h.elems h'.elems (by simp only [Heap.elems, e])]
    | write a i =>
      obtain ⟨v, hv⟩ := l.1
      refine ⟨⟨.elem v, fun h => ?_⟩, fun h h' => ?_, fun h => ih _ (l.2.2 _)⟩
      · simp only [onCells, hv, and_self, if_true]
      · show (k _).overCells = (k _).overCells
        rw [l.2.1 h.elems h'.elems]
    | alloc =>
      refine ⟨fun h => ⟨rfl, fun b hb => Function.update_of_ne hb _ _⟩, fun h h' e => ?_, fun h => ih _ (l.2.2 _)⟩
      show (k _).overCells = (k _).overCells
      rw [l.2.1 h.elems h'.elems e]

theorem Agree.elems {A : Set Nat} {h h' : Heap (Cell F)} (a : Agree A h h') : Agree A h.elems h'.elems :=
  fun x hx => ⟨by simp only [Heap.elems, (a x hx).1], (a x hx).2⟩

variable {M V' : Type}

theorem Under.elems {ro own : Set Nat} {p : Prog M V'} {h : Heap (Cell F)} {Q : Heap F → Prop} {Q' : Heap (Cell F) → Prop}
    (u : Under ro p own h.elems Q) (hq : ∀ h', Q h'.elems → Q' h') : Under ro p own h Q' :=
  u.imp_right fun u h' a => hq h' (u _ a.elems)

/-- Messages over memory of elements and headers. -/
def OnElems (MR : Set Nat → Heap F → MsgH F → V' → Prop) : Set Nat → Heap (Cell F) → MsgH F → V' → Prop :=
  fun o h v v' => MR o h.elems v v'

theorem StableMsg.onElems {MR : Set Nat → Heap F → MsgH F → V' → Prop} (st : StableMsg MR) : StableMsg (OnElems MR) :=
  fun o _ _ v v' m a => st o _ _ v v' m a.elems

theorem GR.overCells {MR : Set Nat → Heap F → MsgH F → V' → Prop} {ro : Set Nat} {P : Prog (Heap F) (MsgH F)} {p : Prog M V'}
    {own : Set Nat} {h : Heap (Cell F)} (l : Labelled P) (g : GR MR ro P p own h.elems) : GR (OnElems MR) ro P.overCells p own h := by
  induction P generalizing p own h with
  | ret r => exact Under.elems g fun _ x => x
  | crash e => exact g
  | make cap k ih => exact Under.elems g fun _ ⟨k', e, x⟩ => ⟨k', e, fun n => ih n (l n) (x n)⟩
  | send c v k ih => exact Under.elems g fun _ ⟨v', k', e, o, ho, m, x⟩ => ⟨v', k', e, o, ho, m, ih l x⟩
  | recv c k ih =>
    exact Under.elems g fun _ ⟨k', e, x, y⟩ => ⟨k', e, ih none (l none) x, fun o v v' d n m => ih _ (l _) (y o v v' d n m)⟩
  | close c k ih => exact Under.elems g fun _ ⟨k', e, x⟩ => ⟨k', e, ih l x⟩
  | go P k ihp ih => exact Under.elems g fun _ ⟨p', k', e, o, ho, x, y⟩ => ⟨p', k', e, o, ho, ihp l.1 x, ih l.2 y⟩
  | wgNew n k ih => exact Under.elems g fun _ ⟨k', e, x⟩ => ⟨k', e, fun n => ih n (l n) (x n)⟩
  | wgDone w k ih => exact Under.elems g fun _ ⟨k', e, x⟩ => ⟨k', e, ih l x⟩
  | wgWait w k ih => exact Under.elems g fun _ ⟨k', e, x⟩ => ⟨k', e, ih l x⟩
  | act f k ih => exact l.elim
  | mem a f k ih =>
    refine Under.elems g fun h' ⟨al, nx, fr, own', o1, o2, x⟩ => ?_
    have e := onCells_elems l h'
    have en : (onCells a f h').next = (f h'.elems).next := by rw [← e]; rfl
    have lk : Labelled (k h'.elems) := by cases a <;> exact l.2.2 _
    refine ⟨al, en ▸ nx, ?_, own', o1, fun b hb => en ▸ o2 b hb, ih _ lk (by rw [e]; exact x)⟩
    intro b hb hn
    cases a with
    | read a i => rfl
    | write a i =>
      funext j
      have : b ≠ a := fun e => hb (e ▸ al)
      simp [onCells, this]
    | alloc => exact Function.update_of_ne (Nat.ne_of_lt hn) _ _

theorem Ren.overCells {c0 w0 n m : Nat} {P P' : Prog (Heap F) (MsgH F)} (r : Ren c0 w0 n m P P') :
    Ren c0 w0 n m P.overCells P'.overCells := by
  induction P generalizing P' n m with
  | ret r' => rw [show P' = _ from r]; rfl
  | crash e => rw [show P' = _ from r]; rfl
  | make cap k ih => obtain ⟨k', rfl, x⟩ := r; exact ⟨_, rfl, fun c => ih c (x c)⟩
  | send c v k ih => obtain ⟨k', rfl, hc, x⟩ := r; exact ⟨_, rfl, hc, ih x⟩
  | recv c k ih => obtain ⟨k', rfl, hc, x⟩ := r; exact ⟨_, rfl, hc, fun v => ih v (x v)⟩
  | close c k ih => obtain ⟨k', rfl, hc, x⟩ := r; exact ⟨_, rfl, hc, ih x⟩
  | go p k ihp ih => obtain ⟨p', k', rfl, x, y⟩ := r; exact ⟨_, _, rfl, ihp x, ih y⟩
  | wgNew n k ih => obtain ⟨k', rfl, x⟩ := r; exact ⟨_, rfl, fun c => ih c (x c)⟩
  | wgDone w k ih => obtain ⟨k', rfl, hc, x⟩ := r; exact ⟨_, rfl, hc, ih x⟩
  | wgWait w k ih => obtain ⟨k', rfl, hc, x⟩ := r; exact ⟨_, rfl, hc, ih x⟩
  | act f k ih => obtain ⟨k', rfl, x⟩ := r; exact ⟨_, rfl, ih x⟩
  | mem a f k ih => obtain ⟨k', rfl, x⟩ := r; exact ⟨_, rfl, fun h => ih _ (x _)⟩

theorem Quiet.overCells {P : Prog (Heap F) (MsgH F)} (q : Quiet P) : Quiet P.overCells := by
  induction P with
  | ret r => trivial
  | send c v k ih => exact ih q
  | close c k ih => exact ih q
  | wgDone w k ih => exact ih q
  | _ => exact q.elim

theorem Fin.overCells {f : Nat} {P : Prog (Heap F) (MsgH F)} (q : Fin f P) : Fin f P.overCells := by
  induction P with
  | crash e => trivial
  | send c v k ih => exact q.imp (fun x => ⟨x.1, x.2.overCells⟩) fun x => ⟨x.1, ih x.2⟩
  | recv c k ih => exact fun v => ih v (q v)
  | close c k ih => exact ih q
  | wgDone w k ih => exact ih q
  | wgWait w k ih => exact ih q
  | mem a g k ih => exact fun h => ih _ (q _)
  | _ => exact q.elim

theorem Starts.overCells {f n : Nat} {P : Prog (Heap F) (MsgH F)} (q : Starts f n P) : Starts f n P.overCells := by
  induction P generalizing n with
  | ret r => trivial
  | crash e => trivial
  | make cap k ih => exact ih _ q
  | send c v k ih => exact ih q
  | recv c k ih => exact fun v => ih v (q v)
  | close c k ih => exact ih q
  | go p k ihp ih => exact ⟨q.1.imp Fin.overCells Quiet.overCells, ih q.2⟩
  | wgNew n k ih => exact fun w => ih w (q w)
  | wgDone w k ih => exact ih q
  | wgWait w k ih => exact ih q
  | act f k ih => exact ih q
  | mem a g k ih => exact fun h => ih _ (q _)

end GkrMimc
