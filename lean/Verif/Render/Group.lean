import Mathlib.Data.List.Basic
/-
Model of `GroupShape` (`spins/goos/shapes.py`).
-/
namespace Verif.Render

/-- The flow of a shape, with its priority, or an array of flows, for example the output of another group. -/
inductive Flow (α : Type) where
  | shape (a : α) (priority : Int)
  | array (fs : List (Flow α))

/-- An extended flow: the shape flow, where its gradient goes, and its priority. The place of the gradient, a list of the
skeleton and an index in the code, is the path of indices that leads to it from the inputs. shapes.py 475-487 -/
structure Ext (α : Type) where
  flow : α
  path : List Nat
  priority : Int

mutual
/-- One turn of the loop of `_create_extended_flow`. shapes.py 479-486 -/
def extFlow {α : Type} : Flow α → List Nat → List (Ext α)
  | .shape a p, path => [⟨a, path, p⟩]
  | .array fs, path => extFlows fs path 0
/-- `_create_extended_flow` for the inputs from the index `i`. shapes.py 475-487 -/
def extFlows {α : Type} : List (Flow α) → List Nat → Nat → List (Ext α)
  | [], _, _ => []
  | f :: fs, path, i => extFlow f (path ++ [i]) ++ extFlows fs path (i + 1)
end

/-- The extended flow after sorting by priority (Python's sort is stable). shapes.py 462-470 -/
def sortedExt {α : Type} (inputs : List (Flow α)) : List (Ext α) :=
  (extFlows inputs [] 0).mergeSort fun a b => decide (a.priority ≤ b.priority)

/-- `GroupShape.eval`. shapes.py 459-473 -/
def groupEval {α : Type} (inputs : List (Flow α)) : List α := (sortedExt inputs).map (·.flow)

/-- `GroupShape.eval_const_flags`: the flags of the inputs as they are. shapes.py 454-457 -/
def groupFlags {β : Type} (inputs : List β) : List β := inputs

/-- A gradient of an input: of a shape (`none` if it was never set) or of an array. -/
inductive GradFlow (γ : Type) where
  | grad (g : Option γ)
  | array (gs : List (GradFlow γ))

mutual
/-- The skeleton, read after its entries have been set: `heap path` is the entry of the skeleton at the path. -/
def readFlow {α γ : Type} (heap : List Nat → Option γ) : Flow α → List Nat → GradFlow γ
  | .shape _ _, path => .grad (heap path)
  | .array fs, path => .array (readFlows heap fs path 0)
/-- The same for the inputs from the index `i`. -/
def readFlows {α γ : Type} (heap : List Nat → Option γ) : List (Flow α) → List Nat → Nat → List (GradFlow γ)
  | [], _, _ => []
  | f :: fs, path, i => readFlow heap f (path ++ [i]) :: readFlows heap fs path (i + 1)
end

/-- `parent[ind] = grad`. shapes.py 493 -/
def setEntry {γ : Type} (heap : List Nat → Option γ) (path : List Nat) (g : γ) : List Nat → Option γ :=
  fun q => if q = path then some g else heap q

/-- `GroupShape.grad`. shapes.py 489-496 -/
def groupGrad {α γ : Type} (inputs : List (Flow α)) (grads : List γ) : List (GradFlow γ) :=
  let heap := (grads.zip (sortedExt inputs)).foldl (fun h ge => setEntry h ge.2.path ge.1) (fun _ => none)
  readFlows heap inputs [] 0

end Verif.Render
