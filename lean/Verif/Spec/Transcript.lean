import Verif.Spec.PublicCoin
import Verif.Model.Transcript

/-! Specification of the protocol with transcript challenges: the stages of a run, the messages of a proof in their order, and
adversaries that ask a random oracle. Of the models only the data types are used. -/

namespace GkrMimc.Spec

variable {F : Type} [Field F]

/-- Where a run stands: choosing the initial point; or in layer `i`, with its goal, the challenges of the rounds so far and the
value expected next; or rejected. -/
inductive Stage (F : Type) where
  | point (pre : List F)
  | layer (i : Nat) (t : Goal F) (ρ : List F) (e : F)
  | rejected

/-- The check of the value that the rounds of a layer leave, for the challenges `ρ` and the claims `left`, `right`. -/
def valueAt (l : Layer F) (t : Goal F) (ρ : List F) (left right : F) : F :=
  eqPoly t.point (ρ.drop (2 * l.bGInputs)) *
    wiringValue l.wires t.weight (ρ.take l.bGInputs) ((ρ.drop l.bGInputs).take l.bGInputs) left right

/-- The goal that a layer leaves to the one below, when its claims are combined with `a`. -/
def goalAfter (l : Layer F) (ρ : List F) (left right a : F) : Goal F :=
  ⟨left + a * right, ρ.drop (2 * l.bGInputs),
    fun O => chi (ρ.take l.bGInputs) O + a * chi ((ρ.drop l.bGInputs).take l.bGInputs) O⟩

section
variable (bN bG : Nat) (layers : List (Layer F)) (U : List F)

/-- The stage with coordinates `pre` of the point drawn: the last layer begins when there are `bG + bN` of them. `U` is the table of
the outputs. -/
def opening (pre : List F) : Stage F :=
  if pre.length < bG + bN then .point pre
  else .layer (layers.length - 1) ⟨mle U pre, pre.drop bG, chi (pre.take bG)⟩ [] (mle U pre)

open Classical in
/-- One message and the challenge that follows it. -/
noncomputable def step : Stage F → List F → F → Stage F
  | .rejected, _, _ => .rejected
  | .point pre, _, a => opening bN bG layers U (pre ++ [a])
  | .layer i t ρ e, msg, a =>
    match layers[i]? with
    | none => .rejected
    | some l =>
      if ρ.length < 2 * l.bGInputs + bN then
        if (polyOf msg).eval 0 + (polyOf msg).eval 1 = e then .layer i t (ρ ++ [a]) ((polyOf msg).eval a) else .rejected
      else
        match i, msg with
        | j + 1, [left, right] =>
          if e = valueAt l t ρ left right then .layer j (goalAfter l ρ left right a) [] (left + a * right) else .rejected
        | _, _ => .rejected

/-- The stage after a transcript. -/
noncomputable def stageAfter (past : List (List F × F)) : Stage F :=
  past.foldl (fun s x => step bN bG layers U s x.1 x.2) (opening bN bG layers U [])

/-- The claims of the first layer pass the last checks. -/
def Accepting (inputs : List F) (left right : F) (s : Stage F) : Prop :=
  ∃ (l : Layer F) (t : Goal F) (ρ : List F) (e : F), layers[0]? = some l ∧ s = .layer 0 t ρ e ∧ ρ.length = 2 * l.bGInputs + bN ∧
    e = valueAt l t ρ left right ∧ mle inputs (ρ.take l.bGInputs ++ ρ.drop (2 * l.bGInputs)) = left ∧
    mle inputs ((ρ.drop l.bGInputs).take l.bGInputs ++ ρ.drop (2 * l.bGInputs)) = right

/-- A stage from which only luck leads to acceptance, when the true inputs of layer `i` are `V i` and the true outputs are `T`: the
outputs claimed differ from the true ones somewhere beyond the coordinates drawn; or the value expected is not the true partial
sum. -/
def Doomed (T : List F) (V : Nat → List F) : Stage F → Prop
  | .rejected => True
  | .point pre => ∃ z : List F, pre.length + z.length = bG + bN ∧ mle U (pre ++ z) ≠ mle T (pre ++ z)
  | .layer i t ρ e => ∀ l : Layer F, layers[i]? = some l →
      e ≠ cubeSum (2 * l.bGInputs + bN - ρ.length) fun b => goalSummand l (V i) t (ρ ++ b)

end

/-- The messages of the layers `i, i-1, …, 0` that are answered with a challenge. -/
def messagesFrom (proof : GkrProof F) : Nat → List (List F)
  | 0 => (msgOf proof 0).rounds
  | i + 1 => (msgOf proof (i + 1)).rounds ++ [(msgOf proof (i + 1)).left, (msgOf proof (i + 1)).right] :: messagesFrom proof i

/-- All the messages that are answered with a challenge; those of the initial point are empty. -/
def messages (n nLayers : Nat) (proof : GkrProof F) : List (List F) :=
  List.replicate n [] ++ messagesFrom proof (nLayers - 1)

/-- The transcript of messages whose challenges are given by `H`. -/
def say (H : List (List F × F) → List F → F) (past : List (List F × F)) (msgs : List (List F)) : List (List F × F) :=
  msgs.foldl (fun past c => past ++ [(c, H past c)]) past

/-- Someone who asks a random oracle: the next question, and at the end inputs, outputs and a proof, as functions of the answers
so far. -/
structure Adversary (F : Type) where
  next : List F → Query F
  out : List F → List (List F) × List (List F) × GkrProof F

variable [DecidableEq F]

/-- Questions and answers when a new question is answered by the next element of the tape, and an old one as before. -/
def oracleLog (next : List F → Query F) (tape : List F) : List (Query F × F) :=
  tape.foldl (fun log x => log ++ [(next (log.map Prod.snd), (log.lookup (next (log.map Prod.snd))).getD x)]) []

/-- The questions of the adversary, `Q` of them, and then those of the verifier, who checks what the adversary put out. `n` is the
number of coordinates of the initial point. -/
def Adversary.thenVerifier (A : Adversary F) (Q n nLayers : Nat) (answers : List F) : Query F :=
  if answers.length < Q then A.next answers
  else
    let o := A.out (answers.take Q)
    let msgs := messages n nLayers o.2.2
    ⟨o.1, o.2.1, msgs.zip (answers.drop Q), msgs.getD (answers.length - Q) []⟩

end GkrMimc.Spec
