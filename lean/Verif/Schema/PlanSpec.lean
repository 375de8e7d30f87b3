import Verif.Schema.Plan
import Mathlib.Data.List.Forall2
/-
What it means for a plan to be well formed and for two plans to be the same.
-/
namespace Verif.Schema
variable {P I H : Type}

/-- `y` can be reached from `x` through fields. -/
inductive Reach (h : Heap P I H) : Nat → Nat → Prop
  | refl (x) : Reach h x x
  | step {x y z} : y ∈ (h x).children → Reach h y z → Reach h x z

/-- `y` belongs to the plan. -/
def PlanReach (h : Heap P I H) (p : PlanObj) (y : Nat) : Prop :=
  ∃ r ∈ p.nodes ++ p.actions, Reach h r y

/-- An acyclic plan with unique node names whose reference fields hold nodes, or names of nodes of
the plan. -/
structure WellFormed (h : Heap P I H) (p : PlanObj) : Prop where
  acyclic : ∃ rk : Nat → Nat, ∀ x y, y ∈ (h x).children → rk y < rk x
  unique : ∀ x y, PlanReach h p x → PlanReach h p y → (h x).isNode = true → (h y).isNode = true →
    (h x).name = (h y).name → x = y
  refs : ∀ x, PlanReach h p x → ∀ f ∈ (h x).fields, f.isRef = true → ∀ i ∈ f.items,
    (∃ y, i = .obj y ∧ (h y).isNode = true) ∨
    (∃ z, i = .str (h z).name ∧ PlanReach h p z ∧ (h z).isNode = true)
  nodes : ∀ x ∈ p.nodes, (h x).isNode = true

/-- The name a reference stands for. -/
def refName (h : Heap P I H) : Item P → Option Str
  | .obj y => some (h y).name
  | .str s => some s
  | .prim _ => none

/-- Same values outside reference fields; `sub` compares nested models. -/
def ItemSame (sub : Nat → Nat → Prop) : Item P → Item P → Prop
  | .prim p, .prim p' => p = p'
  | .str s, .str s' => s = s'
  | .obj y, .obj y' => sub y y'
  | _, _ => False

/-- The objects `x` and `x'` agree down to depth `n`: same class, name and fields; references stand
for the same names, nested models agree. -/
def SameUpTo (h h' : Heap P I H) : Nat → Nat → Nat → Prop
  | 0, _, _ => True
  | n + 1, x, x' =>
    (h x).isNode = (h' x').isNode ∧ (h x).name = (h' x').name ∧ (h x).hdr = (h' x').hdr ∧
    List.Forall₂ (fun f f' => f.info = f'.info ∧ f.isRef = f'.isRef ∧
      List.Forall₂ (fun i i' =>
        if f.isRef then refName h i = refName h' i'
        else ItemSame (SameUpTo h h' n) i i') f.items f'.items) (h x).fields (h' x').fields

/-- The objects agree to every depth. -/
def Same (h h' : Heap P I H) (x x' : Nat) : Prop := ∀ n, SameUpTo h h' n x x'

/-- The plan `p'` is the plan `p`: the actions correspond one to one; the nodes of `p'` are exactly
the nodes that belong to `p`, each once and with the same content; and every reference in `p'` is a
pointer to the one object with its name. -/
structure SamePlan (h : Heap P I H) (p : PlanObj) (h' : Heap P I H) (p' : PlanObj) : Prop where
  version : p'.version = p.version
  actions : List.Forall₂ (Same h h') p.actions p'.actions
  unique : (p'.nodes.map (fun x => (h' x).name)).Nodup
  present : ∀ x, PlanReach h p x → (h x).isNode = true → ∃ x' ∈ p'.nodes, Same h h' x x'
  nothingElse : ∀ x' ∈ p'.nodes, ∃ x, PlanReach h p x ∧ (h x).isNode = true ∧ Same h h' x x'
  shared : ∀ x', PlanReach h' p' x' → ∀ f ∈ (h' x').fields, f.isRef = true → ∀ i ∈ f.items,
    ∃ y ∈ p'.nodes, i = .obj y

end Verif.Schema
