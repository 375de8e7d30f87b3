import Mathlib.Algebra.BigOperators.Group.Finset.Basic
import Mathlib.Algebra.Order.Field.Basic
/-
Specification for the discretisation to a multi-level grating. A grating is a list of edges with the level on their right; the edges
are on the lattice of `1 / q` of a pixel (natural numbers); `start` is the level on the left of the first edge.
-/
namespace Verif.Grating.General
variable {K : Type} [Field K]

/-- The level of the lattice cell `c`: the one of the last edge at or before it. -/
def levelAt (start : Nat) (S : List (Nat × Nat)) (c : Nat) : Nat :=
  ((S.filter fun e => decide (e.1 ≤ c)).getLast?.map Prod.snd).getD start

/-- The mean height of pixel `j`: what is rendered. -/
def pixelHeight (depths : List K) (start q : Nat) (S : List (Nat × Nat)) (j : Nat) : K :=
  (∑ r ∈ Finset.range q, depths.getD (levelAt start S (q * j + r)) 0) / (q : K)

/-- The squared distance to the continuous grating `x`. -/
def levelError (x depths : List K) (start q : Nat) (S : List (Nat × Nat)) : K :=
  ∑ j ∈ Finset.range x.length, (pixelHeight depths start q S j - x.getD j 0) ^ 2

/-- The gratings with at least one edge that start and stop at the given levels, change the level at every edge, and in which every
segment between two edges is between `lo` and `hi` (functions of its level) wide, the first and the last segment at most `hi`. -/
structure Allowed (n len start stop : Nat) (lo hi : Nat → Nat) (S : List (Nat × Nat)) : Prop where
  ne : S ≠ []
  first : ∀ e, S.head? = some e → e.2 ≠ start ∧ e.1 ≤ hi start
  chain : S.IsChain fun e f => f.2 ≠ e.2 ∧ e.1 + lo e.2 ≤ f.1 ∧ f.1 ≤ e.1 + hi e.2
  last : ∀ e, S.getLast? = some e → e.2 = stop ∧ e.1 ≤ len ∧ len ≤ e.1 + hi stop
  level : ∀ e ∈ S, e.2 < n

end Verif.Grating.General
