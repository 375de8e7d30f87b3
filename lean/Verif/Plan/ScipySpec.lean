import Verif.Plan.Scipy
import Mathlib.Data.List.Forall2
/-
Specification vocabulary for the optimizer action.
-/
namespace Verif.Plan
variable {Name R : Type}

/-- The names of the variables that are not frozen, in the order of the plan. -/
def thawedNames (vs : Vars Name (Arr R)) : List Name :=
  (vs.filter (fun e => !e.2.frozen)).map Prod.fst

/-- All entries of all variables that are not frozen, in order. -/
def flat (vs : Vars Name (Arr R)) : List R :=
  (vs.filter (fun e => !e.2.frozen)).flatMap (fun e => e.2.value.data)

/-- All bounds of the variables that are not frozen, in order. -/
def flatBounds (vs : Vars Name (Arr R)) : List (R × R) :=
  (vs.filter (fun e => !e.2.frozen)).flatMap (fun e => e.2.bounds.1.data.zip e.2.bounds.2.data)

/-- Replace the entries of the variables that are not frozen by consecutive pieces of `x`. Frozen
variables, bounds and flags stay. A value without shape gets the shape `[1]`. -/
def assign : Vars Name (Arr R) → List R → Vars Name (Arr R)
  | [], _ => []
  | (n, s) :: vs, x =>
    if s.frozen then (n, s) :: assign vs x
    else
      (n, { s with value := ⟨normShape s.value.shape, x.take s.value.data.length⟩ }) ::
        assign vs (x.drop s.value.data.length)

/-- Arrays have as many entries as their shape says. -/
def WellShaped (vs : Vars Name (Arr R)) : Prop :=
  ∀ e ∈ vs, e.2.value.data.length = size e.2.value.shape

/-- Same names in the same order, same flags and bounds, same frozen variables. -/
def Kept (vs vs' : Vars Name (Arr R)) : Prop :=
  List.Forall₂ (fun e e' => e'.1 = e.1 ∧ e'.2.frozen = e.2.frozen ∧ e'.2.bounds = e.2.bounds ∧
    (e.2.frozen = true → e'.2 = e.2)) vs vs'

/-- The optimizer only uses vectors of length `n`, as scipy does. -/
def Sized (n : Nat) : Client R → Prop
  | .call _ x k => x.length = n ∧ ∀ r, Sized n (k r)
  | .callback x k => x.length = n ∧ Sized n k
  | .finish x => x.length = n
  | .raise => True

/-- The optimizer running against mathematical functions: `f q x` is the answer to query `q` at
`x`, `cb x` tells whether the callback succeeds. The result is the vector it ends with. -/
def Client.result (f : Query → List R → Option (List R)) (cb : Nat → List R → Bool) :
    Client R → Nat → Option (List R)
  | .raise, _ => none
  | .finish x, _ => some x
  | .call q x k, it =>
    match f q x with
    | none => none
    | some r => (k r).result f cb it
  | .callback x k, it => if cb (it + 1) x then k.result f cb (it + 1) else none

end Verif.Plan
