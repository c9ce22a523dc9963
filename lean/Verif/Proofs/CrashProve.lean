import Verif.Proofs.CrashPools
import Verif.Proofs.ConcProve

/-! Panics of `MultiThreadedProver.Prove`: a program that sends a mark where a worker of `Prove` panics, and returns a mark in the end. -/

set_option linter.unusedSectionVars false

namespace GkrMimc

open Spec Finset

variable {F : Type} [Field F] [DecidableEq F]

/-! ### The code of a worker, for any channels -/

/-- The code of a worker after Acquire, in round `k`. -/
def uniLoopC (b K w ec rc fc sem k : Nat) (sp : SProver F) : Prog Unit (Msg F) :=
  loopP (fun k => workerTurn (workerEvals b k) (workerFold b k) ec rc sem)
    (fun sp => .send fc (.prover w sp) <| releaseP sem .tok <| .close rc <| .ret .tok) k (K - k) sp

theorem runForChunkP_eqC {b K : Nat} {p : MProver F} {w : Nat} {sp : SProver F} {bN : Nat} (h1 : p.subProver w = .ok sp)
    (h2 : sp.dims = .ok (b, bN)) (hK : 2 * b + bN = K) (ec rc fc sem : Nat) :
    p.runForChunkP w ec rc fc sem = acquireP sem (uniLoopC b K w ec rc fc sem 0 sp) := by
  unfold MProver.runForChunkP uniLoopC
  rw [h1, liftGo_ok, h2, liftGo_ok]
  congr 1
  rw [show K - 0 = b + (b + bN) by omega, loopP_add]
  apply loopP_shift
  · intro sp
    rw [loopP_add]
    apply loopP_shift
    · intro sp
      apply loopP_shift
      · intro sp; rfl
      · intro i hi s next
        unfold workerTurn
        have e1 : workerEvals b (0 + b + b + i) s = s.getEvalsOnHPrime := by
          unfold workerEvals; rw [if_neg (by omega), if_neg (by omega)]
        have e2 : ∀ r, workerFold b (0 + b + b + i) s r = s.foldHPrime r := by
          intro r; unfold workerFold; rw [if_neg (by omega), if_neg (by omega)]
        simp only [e1, e2]
    · intro i hi s next
      unfold workerTurn
      have e1 : workerEvals b (0 + b + i) s = s.getEvalsOnHR := by
        unfold workerEvals; rw [if_neg (by omega), if_pos (by omega)]
      have e2 : ∀ r, workerFold b (0 + b + i) s r = s.foldHR r := by
        intro r; unfold workerFold; rw [if_neg (by omega), if_pos (by omega)]
      simp only [e1, e2]
  · intro i hi s next
    unfold workerTurn
    have e1 : workerEvals b (0 + i) s = s.getEvalsOnHL := by
      unfold workerEvals; rw [if_pos (by omega)]
    have e2 : ∀ r, workerFold b (0 + i) s r = s.foldHL r := by
      intro r; unfold workerFold; rw [if_pos (by omega)]
    simp only [e1, e2]

/-! ### The program with marks -/

/-- A result, if there is one. -/
def goOk {α : Type} : Go α → Option α
  | .ok a => some a
  | .error _ => none

theorem goOk_some {α : Type} {x : Go α} {a : α} : goOk x = some a ↔ x = .ok a := by
  cases x <;> simp [goOk]

theorem goOk_none {α : Type} {x : Go α} : goOk x = none ↔ ∃ e, x = .error e := by
  cases x <;> simp [goOk]

/-- The mark. -/
def markMsg : Msg F := .out ⟨[], [], [], [], []⟩

def vecMsg : Option (List F) → Msg F
  | some xs => .vec xs
  | none => markMsg

def provMsg (w : Nat) : Option (SProver F) → Msg F
  | some sp => .prover w sp
  | none => markMsg

/-- What `Prove` and its workers send. -/
def SaneMsg : Msg F → Prop
  | .out _ => False
  | _ => True

def vecOf : Option (Msg F) → Option (List F)
  | some (.vec xs) => some xs
  | some (.out _) => none
  | _ => some []

def provOf : Option (Msg F) → Option (Nat × SProver F)
  | some (.prover i p) => some (i, p)
  | some (.out _) => none
  | _ => some (0, ⟨[], [], [], [], [], 0, 0, 0⟩)

theorem vecOf_vecMsg (o : Option (List F)) : vecOf (some (vecMsg o)) = o := by cases o <;> rfl

theorem provOf_provMsg (w : Nat) (o : Option (SProver F)) : provOf (some (provMsg w o)) = o.map fun sp => (w, sp) := by cases o <;> rfl

/-- The evaluations of a worker. -/
def evalsT (b k : Nat) (o : Option (SProver F)) : Option (List F) := o.bind fun sp => goOk (workerEvals b k sp)

/-- The next state of a worker. -/
def stepT (b k : Nat) (o : Option (SProver F)) (r : F) : Option (SProver F) :=
  o.bind fun sp => (goOk (workerEvals b k sp)).map fun _ => workerFold b k sp r

def turnT (b k ec rc sem : Nat) (o : Option (SProver F)) (next : Option (SProver F) → Prog Unit (Msg F)) : Prog Unit (Msg F) :=
  .send ec (vecMsg (evalsT b k o)) <|
  releaseP sem .tok <|
  recvElem rc fun r =>
  acquireP sem <|
  next (stepT b k o r)

def workerT (b K w ec rc fc sem k : Nat) (o : Option (SProver F)) : Prog Unit (Msg F) :=
  loopP (fun k => turnT b k ec rc sem)
    (fun o => .send fc (provMsg w o) <| releaseP sem .tok <| .close rc <| .ret .tok) k (K - k) o

def addT (tmp res : Option (List F)) : Option (List F) := tmp.bind fun t => res.bind fun r => goOk (addMsg t r)

def accT (ch n : Nat) (k : Option (List F) → Prog Unit (Msg F)) : Prog Unit (Msg F) :=
  .recv ch fun v =>
  loopP (fun _ res next => .recv ch fun v => next (addT (vecOf v) res)) k 0 (n - 1) (vecOf v)

def mergeT (m : Option (Nat × SProver F)) (s : Option (List F × List F × List F)) : Option (List F × List F × List F) :=
  m.bind fun m => s.bind fun s => goOk (mergeMsg m.1 m.2 s)

/-- The merged prover; the first message gives the gates and the static tables. -/
def newT (m : Option (Nat × SProver F)) (s : Option (List F × List F × List F)) : Option (SProver F) :=
  m.bind fun m => s.map fun s => newSProver s.1 s.2.1 s.2.2 m.2.gates m.2.statics

def mergeAllT (ch n : Nat) (k : Option (SProver F) → Prog Unit (Msg F)) : Prog Unit (Msg F) :=
  .recv ch fun v =>
  loopP (fun _ s next => .recv ch fun v => next (mergeT (provOf v) s)) (fun s => k (newT (provOf v) s)) 0 (n - 1)
    (mergeT (provOf v) (some (List.replicate n 0, List.replicate n 0, List.replicate n 0)))

def chalT (H : List F → F) : Option (List F) → F
  | some c => H c
  | none => 0

def histT (H : List F → F) (s : Option (List (List F) × List F)) (c : Option (List F)) : Option (List (List F) × List F) :=
  s.bind fun s => c.map fun c => (s.1 ++ [c], s.2 ++ [H c])

/-- What is returned in the end: `z` after a panic. -/
def outT (H : List F → F) (bG logN : Nat) (z : Msg F) (s : Option (List (List F) × List F)) (newP : Option (SProver F)) : Msg F :=
  match s, newP with
  | some s, some newP =>
    match rounds H SProver.getEvalsOnHPrime SProver.foldHPrime logN newP with
    | .error _ => z
    | .ok t =>
      match t.1.finalClaims with
      | .error _ => z
      | .ok fc => .out { polyCoeffs := s.1 ++ t.2.1,
                         qL := s.2.take bG,
                         qR := (s.2.drop bG).take bG,
                         qPrime := s.2.drop (2 * bG) ++ t.2.2,
                         finalClaims := fc }
  | _, _ => z

/-- The main loop from round `B` on. -/
def mainT (H : List F → F) (n K bG logN : Nat) (z : Msg F) (ec fc : Nat) (chs : List Nat) (B : Nat) (s : Option (List (List F) × List F)) :
    Prog Unit (Msg F) :=
  loopP (fun _ s next =>
      accT ec n fun evals =>
      broadcastP chs (chalT H (evals.bind fun x => goOk (interpolateOnRange x)))
        (next (histT H s (evals.bind fun x => goOk (interpolateOnRange x)))))
    (fun s => mergeAllT fc n fun newP => .close ec <| .close fc <| .ret (outT H bG logN z s newP)) B (K - B) s

/-- The launching loop. -/
def launchT (H : List F → F) (b n K bG logN : Nat) (W0 : Nat → Option (SProver F)) (z : Msg F) (ec fc sem j : Nat) (chs : List Nat) :
    Prog Unit (Msg F) :=
  loopP (fun i chs next =>
      .make 1 fun rc =>
      .go (acquireP sem (workerT b K i ec rc fc sem 0 (W0 i))) (next (chs ++ [rc])))
    (fun chs => mainT H n K bG logN z ec fc chs 0 (some ([], []))) j (n - j) chs

/-- The whole program. -/
def proveT (H : List F → F) (b n K bG logN : Nat) (W0 : Nat → Option (SProver F)) (z : Msg F) (nCore : Int) : Prog Unit (Msg F) :=
  .make n fun ec =>
  .make n fun fc =>
  newSemaphoreP .tok nCore fun sem =>
  launchT H b n K bG logN W0 z ec fc sem 0 []

/-! ### `Prove` is this program until it panics -/

abbrev AnyErr : Abort → Prop := fun _ => True

theorem upto_recvElem {E : Abort → Prop} {S : Msg F → Prop} (c : Nat) {k k' : F → Prog Unit (Msg F)} (h : ∀ x, Upto E S (k x) (k' x)) :
    Upto E S (recvElem c k) (recvElem c k') := by
  refine .recv _ fun v _ => ?_
  cases v with
  | none => exact h _
  | some v => cases v <;> exact h _

theorem upto_worker (b K w ec rc fc sem : Nat) (sp : SProver F) :
    Upto AnyErr SaneMsg (uniLoopC b K w ec rc fc sem 0 sp) (workerT b K w ec rc fc sem 0 (some sp)) := by
  refine upto_loop_rel (fun sp o => o = some sp) ?_ _ _ ?_ _ _ rfl
  · rintro sp _ rfl
    exact .send _ _ trivial (.send _ _ trivial (.close _ (.ret _)))
  · rintro i _ _ sp _ next next' rfl hnext
    refine upto_liftGo _ (fun _ _ => trivial) fun e he => ?_
    have : turnT b i ec rc sem (some sp) next' = .send ec (.vec e) (releaseP sem .tok <| recvElem rc fun r => acquireP sem <|
        next' (some (workerFold b i sp r))) := by
      simp [turnT, evalsT, stepT, he, goOk, vecMsg]
    rw [this]
    exact .send _ _ trivial (.send _ _ trivial (upto_recvElem _ fun r => .recv _ fun _ _ => hnext _ _ rfl))

theorem upto_broadcast (chs : List Nat) (r : F) {k k' : Prog Unit (Msg F)} (h : Upto AnyErr SaneMsg k k') :
    Upto AnyErr SaneMsg (broadcastP chs r k) (broadcastP chs r k') := by
  refine .wgNew _ fun wg => upto_loop (fun _ => .wgWait _ h) _ _ ?_ _
  intro i _ _ _ next next' hnext
  cases idx chs i with
  | error e => exact .both e
  | ok ch => exact .go (.send _ _ trivial (.wgDone _ (.ret _))) (hnext _)

theorem upto_recvVec (c : Nat) {k : List F → Prog Unit (Msg F)} {k' : Option (List F) → Prog Unit (Msg F)}
    (h : ∀ xs, Upto AnyErr SaneMsg (k xs) (k' (some xs))) : Upto AnyErr SaneMsg (recvVec c k) (.recv c fun v => k' (vecOf v)) := by
  refine .recv _ fun v hv => ?_
  cases v with
  | none => exact h _
  | some v =>
    cases v with
    | out o => exact absurd (hv _ rfl) (by simp [SaneMsg])
    | _ => exact h _

theorem upto_recvProver (c : Nat) {k : Nat → SProver F → Prog Unit (Msg F)} {k' : Option (Nat × SProver F) → Prog Unit (Msg F)}
    (h : ∀ i sp, Upto AnyErr SaneMsg (k i sp) (k' (some (i, sp)))) : Upto AnyErr SaneMsg (recvProver c k) (.recv c fun v => k' (provOf v)) := by
  refine .recv _ fun v hv => ?_
  cases v with
  | none => exact h _ _
  | some v =>
    cases v with
    | out o => exact absurd (hv _ rfl) (by simp [SaneMsg])
    | _ => exact h _ _

theorem upto_acc (c n : Nat) {k : List F → Prog Unit (Msg F)} {k' : Option (List F) → Prog Unit (Msg F)}
    (h : ∀ xs, Upto AnyErr SaneMsg (k xs) (k' (some xs))) : Upto AnyErr SaneMsg (consumeAccumulateP c n k) (accT c n k') := by
  refine upto_recvVec c (k' := fun o => loopP (fun _ res next => .recv c fun v => next (addT (vecOf v) res)) k' 0 (n - 1) o) fun xs => ?_
  refine upto_loop_rel (fun xs o => o = some xs) (fun xs _ hxs => hxs ▸ h xs) _ _ ?_ _ _ rfl
  rintro _ _ _ res _ next next' rfl hnext
  refine upto_recvVec c (k' := fun o => next' (addT o (some res))) fun tmp => ?_
  refine upto_liftGo _ (fun _ _ => trivial) fun a ha => hnext _ _ ?_
  simp [addT, ha, goOk]

theorem upto_merge (c n : Nat) {k : SProver F → Prog Unit (Msg F)} {k' : Option (SProver F) → Prog Unit (Msg F)}
    (h : ∀ xs, Upto AnyErr SaneMsg (k xs) (k' (some xs))) : Upto AnyErr SaneMsg (consumeMergeProversP c n k) (mergeAllT c n k') := by
  refine upto_recvProver c (k' := fun o => loopP (fun _ s next => .recv c fun v => next (mergeT (provOf v) s))
    (fun s => k' (newT o s)) 0 (n - 1) (mergeT o (some (List.replicate n 0, List.replicate n 0, List.replicate n 0)))) fun i sp => ?_
  refine upto_liftGo _ (fun _ _ => trivial) fun a ha => ?_
  refine upto_loop_rel (fun s o => o = some s) ?_ _ _ ?_ _ _ (by simp [mergeT, ha, goOk])
  · rintro s _ rfl
    exact h _
  · rintro _ _ _ s _ next next' rfl hnext
    refine upto_recvProver c (k' := fun o => next' (mergeT o (some s))) fun i sp => ?_
    refine upto_liftGo _ (fun _ _ => trivial) fun a ha => hnext _ _ ?_
    simp [mergeT, ha, goOk]

/-- The first states of the workers. -/
def startT (p : MProver F) (w : Nat) : Option (SProver F) := goOk (p.subProver w >>= fun sp => sp.dims >>= fun _ => pure sp)

/-- `Prove` and the program with marks. -/
theorem proveP_upto {H : List F → F} {p : MProver F} {eq0 vL0 : List F} {g b K : Nat} (h1 : idx p.eq 0 = .ok eq0) (h2 : idx p.vL 0 = .ok vL0)
    (h3 : goDiv (p.eq.length * vL0.length) (p.eq.length * eq0.length) = .ok g)
    (hK : K = 2 * log2Ceil g + log2Ceil ((p.eq.length * eq0.length : Nat) : Int) - log2Ceil p.eq.length)
    (hd : ∀ w < p.eq.length, ∀ d, (p.subProver w >>= SProver.dims) = .ok d → d.1 = b ∧ 2 * d.1 + d.2 = K) (z : Msg F) (nCore : Int) :
    Upto AnyErr SaneMsg (p.proveP H nCore) (proveT H b p.eq.length K (log2Ceil g) (log2Ceil p.eq.length) (startT p) z nCore) := by
  unfold MProver.proveP
  simp only [h1, h2, liftGo_ok]
  rw [h3, liftGo_ok, ← hK]
  refine .make _ fun ec => .make _ fun fc => upto_semaphore trivial _ fun sem => ?_
  refine upto_loop ?_ _ _ ?_ _
  · intro chs
    refine upto_loop_rel (fun s o => o = some s) ?_ _ _ ?_ _ _ rfl
    · rintro s _ rfl
      refine upto_merge fc _ fun newP => ?_
      refine upto_liftGo _ (fun _ _ => trivial) fun t ht => upto_liftGo _ (fun _ _ => trivial) fun c hc => ?_
      have : outT H (log2Ceil g) (log2Ceil p.eq.length) z (some s) (some newP) =
          .out { polyCoeffs := s.1 ++ t.2.1, qL := s.2.take (log2Ceil g), qR := (s.2.drop (log2Ceil g)).take (log2Ceil g),
                 qPrime := s.2.drop (2 * log2Ceil g) ++ t.2.2, finalClaims := c } := by
        simp only [outT, ht, hc]
      rw [this]
      exact .close _ (.close _ (.ret _))
    · rintro _ _ _ s _ next next' rfl hnext
      refine upto_acc ec _ fun evals => upto_liftGo _ (fun _ _ => trivial) fun c hc => ?_
      simp only [Option.bind_some, hc, goOk, chalT, histT, Option.map_some]
      exact upto_broadcast _ _ (hnext _ _ rfl)
  · intro i _ hi chs next next' hnext
    refine .make _ fun rc => .go ?_ (hnext _)
    cases hw : p.subProver i with
    | error e =>
      unfold MProver.runForChunkP
      rw [hw]
      exact .recv _ fun _ _ => .crash e trivial _
    | ok sp =>
      cases hdm : sp.dims with
      | error e =>
        unfold MProver.runForChunkP
        rw [hw, liftGo_ok, hdm]
        exact .recv _ fun _ _ => .crash e trivial _
      | ok d =>
        obtain ⟨hb, hdK⟩ := hd i (by omega) d (by rw [hw, ok_bind, hdm])
        obtain ⟨b', bN⟩ := d
        dsimp only at hb hdK
        subst hb
        rw [runForChunkP_eqC hw hdm hdK]
        have : startT p i = some sp := by simp [startT, hw, hdm, goOk, ok_bind]
        rw [this]
        exact .recv _ fun _ _ => upto_worker _ _ _ _ _ _ _ sp

end GkrMimc
