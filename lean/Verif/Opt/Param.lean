import Mathlib.Data.Real.Basic
/-
Model of `spins/invdes/parametrization/parametrization.py` (`Parametrization`, `DirectParam`),
`spins/invdes/parametrization/composite_parametrization.py` (`CompositeParam`) and `SlackParam` of
`spins/invdes/problem/slack_optimization_problem.py`. Numbers are exact real numbers. `none` is an exception.
-/
namespace Verif.Opt

/-- One side of the bounds: a number or `None` per entry. The Python object is a tuple, a list or an array; this
matters for `+` in `SlackParam.get_bounds`. -/
inductive Side where
  | tuple (l : List (Option ℝ))
  | list (l : List (Option ℝ))
  | array (l : List (Option ℝ))

def Side.entries : Side → List (Option ℝ)
  | .tuple l => l
  | .list l => l
  | .array l => l

/-- The methods of a parametrization class; `P` is the type of its objects. Objects are values: `decode` and `project`
return the new state. `getBounds` returns `none` for the result `None`. -/
structure Methods (P : Type) where
  encode : P → Option (List ℝ)
  decode : P → List ℝ → Option P
  project : P → Option P
  getBounds : P → Option (Side × Side)

variable {P : Type}

/-- `Parametrization.to_vector` (parametrization.py 77-92). -/
def Methods.toVector (m : Methods P) (p : P) : Option (List ℝ) := m.encode p

/-- `Parametrization.from_vector` (94-97). -/
def Methods.fromVector (m : Methods P) (p : P) (v : List ℝ) : Option P := (m.decode p v).bind m.project

/-! ### DirectParam -/

structure Direct where
  vector : List ℝ
  lower : Side
  upper : Side

/-- One entry of the argument `bounds`. -/
inductive BoundArg where
  | absent
  | number (x : ℝ)
  | seq (s : Side)

/-- Expansion of a bound (136-143). -/
def expandBound (n : Nat) : BoundArg → Side
  | .absent => .tuple (List.replicate n none)
  | .number x => .tuple (List.replicate n (some x))
  | .seq s => s

/-- `DirectParam.__init__` (124-143); `none` is `bounds=None` (or an empty sequence). -/
def mkDirect (initial : List ℝ) (bounds : Option (BoundArg × BoundArg)) : Direct :=
  let b := bounds.getD (.absent, .absent)
  ⟨initial, expandBound initial.length b.1, expandBound initial.length b.2⟩

/-- `np.clip` of one entry, with `None` replaced by an infinity (151-157): `minimum(maximum(x, lower), upper)`. -/
noncomputable def clip1 (x : ℝ) (lo hi : Option ℝ) : ℝ :=
  let y := match lo with | none => x | some l => max x l
  match hi with | none => y | some h => min y h

/-- `DirectParam.project` (148-157). Arrays of different lengths cannot be clipped; broadcasting of arrays of length
one is not modelled. -/
noncomputable def Direct.project (p : Direct) : Option Direct :=
  if p.lower.entries.length = p.vector.length ∧ p.upper.entries.length = p.vector.length then
    let bounds := p.lower.entries.zip p.upper.entries
    some ⟨List.zipWith (fun (x : ℝ) (b : Option ℝ × Option ℝ) => clip1 x b.1 b.2) p.vector bounds, p.lower, p.upper⟩
  else none

/-- `DirectParam.encode`, `decode`, `get_bounds` (159-169). -/
noncomputable def directMethods : Methods Direct where
  encode p := some p.vector
  decode p v := some { p with vector := v }
  project := Direct.project
  getBounds p := some (p.lower, p.upper)

/-! ### CompositeParam -/

/-- `np.cumsum(sizes)`, starting from `acc`. -/
def cumsum (acc : Nat) : List Nat → List Nat
  | [] => []
  | n :: t => (acc + n) :: cumsum (acc + n) t

/-- `np.split(vec, indices)`: `vec[:i_1]`, `vec[i_1:i_2]`, ..., `vec[i_N:]`, with `start` the previous index. -/
def npSplit {α : Type} (vec : List α) (start : Nat) : List Nat → List (List α)
  | [] => [vec.drop start]
  | i :: t => (vec.take i).drop start :: npSplit vec i t

/-- `_split_vector` (33-54). -/
def splitVector {α : Type} (vec : List α) (sizes : List Nat) : List (List α) :=
  npSplit vec 0 (cumsum 0 sizes).dropLast

/-- `np.hstack`; the empty list raises. -/
def hstack {α : Type} (l : List (List α)) : Option (List α) := if l = [] then none else some l.flatten

/-- Runs `f` on every element; an exception in one is an exception of the whole. -/
def forAll {α β : Type} (f : α → Option β) : List α → Option (List β)
  | [] => some []
  | a :: l => (f a).bind fun b => (forAll f l).map (b :: ·)

/-- A `CompositeParam`: the components and `_param_sizes`. The components may be of different classes: `P` is then the
disjoint union and `m` dispatches on the class. -/
structure Composite (P : Type) where
  params : List P
  sizes : List Nat

/-- `CompositeParam.__init__` (59-92). `_z_size` and `_ext_vec_sizes` are not modelled. -/
def mkComposite (m : Methods P) (params : List P) : Option (Composite P) :=
  (forAll (fun p => (m.encode p).map List.length) params).map fun sizes => ⟨params, sizes⟩

/-- `CompositeParam.encode` (149-156). -/
def Composite.encode (m : Methods P) (c : Composite P) : Option (List ℝ) :=
  (forAll m.encode c.params).bind hstack

/-- `CompositeParam.decode` (158-166). -/
def Composite.decode (m : Methods P) (c : Composite P) (v : List ℝ) : Option (Composite P) :=
  let zipped := c.params.zip (splitVector v c.sizes)
  (forAll (fun q : P × List ℝ => m.decode q.1 q.2) zipped).map fun ps =>
    { c with params := ps ++ c.params.drop zipped.length }

/-- `CompositeParam.project` (168-171). -/
def Composite.project (m : Methods P) (c : Composite P) : Option (Composite P) :=
  (forAll m.project c.params).map fun ps => { c with params := ps }

/-- `CompositeParam.get_bounds` (173-203). -/
def Composite.getBounds (m : Methods P) (c : Composite P) : Option (Side × Side) :=
  let sides := (c.params.zip c.sizes).map fun q =>
    match m.getBounds q.1 with
    | some (lo, hi) => (lo.entries, hi.entries)
    | none => (List.replicate q.2 none, List.replicate q.2 none)
  (hstack (sides.map (·.1))).bind fun lo => (hstack (sides.map (·.2))).map fun hi => (.array lo, .array hi)

/-- `get_bounds` of an empty composite raises; here it counts as `None`. -/
def compositeMethods (m : Methods P) : Methods (Composite P) where
  encode := Composite.encode m
  decode := Composite.decode m
  project := Composite.project m
  getBounds := Composite.getBounds m

/-- `CompositeParam.get_structure` (94-104). -/
def Composite.getStructure (structureOf : P → List ℝ) (c : Composite P) : Option (List ℝ) :=
  hstack (c.params.map structureOf)

/-- The Jacobian-vector product of `CompositeParam.calculate_gradient` (120-147); `jac p` is the product with the
Jacobian of one component. -/
def Composite.jacobian (jac : P → List ℝ → List ℝ) (c : Composite P) (v : List ℝ) : Option (List ℝ) :=
  hstack ((c.params.zip (splitVector v c.sizes)).map fun q => jac q.1 q.2)

/-! ### SlackParam -/

/-- `SlackParam` (slack_optimization_problem.py 54-65). -/
structure Slack (P : Type) where
  param : P
  slack : List ℝ
  num : Nat

/-- `SlackParam.__init__` (57-65). -/
def mkSlack (p : P) (n : Nat) : Slack P := ⟨p, List.replicate n 0, n⟩

/-- `SlackParam.encode` (91-92). -/
def Slack.encode (m : Methods P) (s : Slack P) : Option (List ℝ) := (m.encode s.param).map (· ++ s.slack)

/-- `SlackParam.decode` (94-99). `vector[:-n]` and `vector[-n:]` clip at the start. -/
def Slack.decode (m : Methods P) (s : Slack P) (v : List ℝ) : Option (Slack P) :=
  if 0 < s.num then
    (m.decode s.param (v.take (v.length - s.num))).map fun p =>
      { s with param := p, slack := v.drop (v.length - s.num) }
  else (m.decode s.param v).map fun p => { s with param := p }

/-- `SlackParam.project` (67-68). -/
def Slack.project (m : Methods P) (s : Slack P) : Option (Slack P) :=
  (m.project s.param).map fun p => { s with param := p }

/-- `bounds + n * (x,)` (81-82): concatenates tuples, raises for a list, and adds elementwise with broadcasting for an
array, where adding to or with `None` raises. -/
def sidePlus (s : Side) (n : Nat) (x : Option ℝ) : Option Side :=
  match s with
  | .tuple l => some (.tuple (l ++ List.replicate n x))
  | .list _ => none
  | .array l =>
    (if l.length = n ∨ n = 1 then some l
      else if l.length = 1 then some (List.replicate n (l.headD none)) else none).bind fun l' =>
    (forAll (fun e : Option ℝ => e.bind fun a => x.map fun y => some (a + y)) l').map .array

/-- `SlackParam.get_bounds` (76-83); `none` is an exception. The result `None` never occurs. -/
def Slack.getBounds (m : Methods P) (s : Slack P) : Option (Side × Side) :=
  (match m.getBounds s.param with
  | some b => some b
  | none => (m.toVector s.param).map fun (v : List ℝ) =>
      (Side.tuple (v.map fun _ => none), Side.tuple (v.map fun _ => none))).bind fun b =>
    (sidePlus b.1 s.num (some 0)).bind fun lo => (sidePlus b.2 s.num none).map fun hi => (lo, hi)

def slackMethods (m : Methods P) : Methods (Slack P) where
  encode := Slack.encode m
  decode := Slack.decode m
  project := Slack.project m
  getBounds := Slack.getBounds m

end Verif.Opt
