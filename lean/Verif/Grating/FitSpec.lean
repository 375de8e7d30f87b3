import Mathlib.Algebra.BigOperators.Group.Finset.Basic
import Mathlib.Algebra.Order.Field.Basic
import Mathlib.Algebra.Ring.Parity
/-
Specification for the discretisation of a grating: edges on the lattice of fifths of pixels (natural numbers), starting with
solid material on the left unless the first edge is at 0.
-/
namespace Verif.Grating
variable {K : Type} [Field K]

/-- The lattice edge lists the discretisation may return: at least one hole, whole holes, everything on the grating of `n` pixels,
all holes and all walls between holes at least `d` wide, and so is the wall on the left if there is one. -/
def LatticeEdges (d n : Nat) (S : List Nat) : Prop :=
  S ≠ [] ∧ Even S.length ∧ S.IsChain (fun a b => a + d ≤ b) ∧ (∀ e ∈ S, e ≤ 5 * n) ∧ (∀ e, S.head? = some e → e = 0 ∨ d ≤ e)

/-- There is material in the fifth `p`: an even number of edges is on its left. -/
def Solid (S : List Nat) (p : Nat) : Prop := Even (S.countP fun e => decide (e ≤ p))

instance (S : List Nat) (p : Nat) : Decidable (Solid S p) := inferInstanceAs (Decidable (Even _))

/-- The part of pixel `q` that is solid: the rendered value. -/
def fill (S : List Nat) (q : Nat) : K := (∑ r ∈ Finset.range 5, if Solid S (5 * q + r) then (1 : K) else 0) / 5

/-- `‖R(y) - x‖²`, what the discretisation minimises. -/
def fitError (x : List K) (S : List Nat) : K := ∑ q ∈ Finset.range x.length, (fill S q - x.getD q 0) ^ 2

end Verif.Grating
