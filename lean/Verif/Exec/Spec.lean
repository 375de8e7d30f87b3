import Verif.Exec.Model
/-
Specification vocabulary for the graph executors, independent of the algorithms:
only the object graph `Net` (what the user built) is mentioned.
-/
namespace Verif.Exec
variable {V : Type}

/-- Nodes reachable from the outputs by following inputs. -/
inductive Reach (N : Net V) (outs : List V) : V → Prop
  | out {v} : v ∈ outs → Reach N outs v
  | step {v u} : Reach N outs v → u ∈ N.inputs v → Reach N outs u

/-- The object graph has no cycles: every node is built from nodes of lower rank. -/
def Acyclic (N : Net V) : Prop := ∃ rank : V → Nat, ∀ v, ∀ u ∈ N.inputs v, rank u < rank v

/-- Value of a node by recursive application of the node functions (big-step semantics).
`ov` gives the values supplied by the caller (goos `override_map`, invdes: the structure
for the `Variable` node). -/
inductive Evals {α : Type} (N : Net V) (f : V → List α → α) (ov : V → Option α) : V → α → Prop
  | override {v a} : ov v = some a → Evals N f ov v a
  | node {v as} : ov v = none → as.length = (N.inputs v).length →
      (∀ p ∈ (N.inputs v).zip as, Evals N f ov p.1 p.2) → Evals N f ov v (f v as)

end Verif.Exec
