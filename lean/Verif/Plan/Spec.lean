import Verif.Plan.Model
/-
Specification vocabulary for optimization plans: what an action means for the variables, without
logging, checkpoints, pointers and the modification flag.
-/
namespace Verif.Plan
variable {Name Val Ev Mon : Type} [DecidableEq Name]

/-- Replace the state of a known variable; `false` if there is none. -/
def change (n : Name) (f : VarState Val → Option (VarState Val)) (vs : Vars Name Val) :
    Vars Name Val × Bool :=
  match getVar n vs with
  | none => (vs, false)
  | some s =>
    match f s with
    | none => (vs, false)
    | some t => (putVar n t vs, true)

/-- Effect of an action on the variables, and whether it returns. Setting a frozen variable raises
(unless the check is waived), logging raises only if a monitor does. -/
def effect : Prog Name Val Ev Mon → Vars Name Val → Vars Name Val × Bool
  | .done, vs => (vs, true)
  | .raise, vs => (vs, false)
  | .getValue n k, vs => effect (k ((getVar n vs).map VarState.value)) vs
  | .getBounds n k, vs => effect (k ((getVar n vs).map VarState.bounds)) vs
  | .getThawed k, vs =>
    effect (k (some ((vs.filter (fun e => !e.2.frozen)).map Prod.fst))) vs
  | .look k, vs => effect (k vs) vs
  | .setValue n v c k, vs =>
    let r := change n (fun s => if c && s.frozen then none else some { s with value := v }) vs
    effect (k r.2) r.1
  | .setBounds n b k, vs =>
    let r := change n (fun s => some { s with bounds := b }) vs
    effect (k r.2) r.1
  | .freeze n k, vs =>
    let r := change n (fun s => some { s with frozen := true }) vs
    effect (k r.2) r.1
  | .thaw n k, vs =>
    let r := change n (fun s => some { s with frozen := false }) vs
    effect (k r.2) r.1
  | .writeEvent _ m k, vs => effect (k (m vs).isSome) vs
  | .writeCheckpoint _ k, vs => effect (k true) vs

/-- Effect of a list of actions run one after the other, stopping at the first that raises. -/
def effects : List (Action Name Val Ev Mon) → Vars Name Val → Vars Name Val × Bool
  | [], vs => (vs, true)
  | a :: as, vs =>
    match effect a.run vs with
    | (vs', false) => (vs', false)
    | (vs', true) => effects as vs'

/-- The numbers of the step files in a list of written files. -/
def steps (l : List File) : List Nat :=
  l.filterMap (fun f => match f with | .step k => some k | _ => none)

/-- A direct call of a modifying method. -/
def Op.isModifying : Op Name Val Ev Mon → Bool
  | .setValue .. | .setBounds .. | .freeze .. | .thaw .. | .writeEvent .. | .getThawed => true
  | _ => false

/-- A call that runs actions. -/
def Op.runsActions : Op Name Val Ev Mon → Bool
  | .run .. | .resume .. | .addAction .. => true
  | _ => false

/-- All monitors in the program evaluate without raising. -/
def MonOk : Prog Name Val Ev Mon → Prop
  | .done => True
  | .raise => True
  | .getValue _ k => ∀ b, MonOk (k b)
  | .getBounds _ k => ∀ b, MonOk (k b)
  | .getThawed k => ∀ b, MonOk (k b)
  | .look k => ∀ vs, MonOk (k vs)
  | .setValue _ _ _ k => ∀ b, MonOk (k b)
  | .setBounds _ _ k => ∀ b, MonOk (k b)
  | .freeze _ k => ∀ b, MonOk (k b)
  | .thaw _ k => ∀ b, MonOk (k b)
  | .writeEvent _ m k => (∀ vs, (m vs).isSome) ∧ ∀ b, MonOk (k b)
  | .writeCheckpoint _ k => ∀ b, MonOk (k b)

end Verif.Plan
