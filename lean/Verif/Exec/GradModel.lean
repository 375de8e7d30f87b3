import Verif.Exec.Model
/-
Model of the backward pass of `spins/invdes/problem/graph_executor.py` `eval_grad`
(189-326).

`γ` is the type of gradients with respect to a node value, `δ` the type of gradients with
respect to the parametrization vector. Both only need a zero and an addition.
-/
namespace Verif.Exec
variable {V : Type} [DecidableEq V] {α γ δ : Type}

/-- The part of a node the backward pass uses. `old v = some c` for an old-style function,
where `c g` is `np.dot(g, fun.calculate_gradient(param))` (266-270); otherwise
`grad v xs g` is `fun.grad(input_vals, grad_val)`. -/
structure GradOps (V α γ δ : Type) where
  grad : V → List α → γ → List γ
  old : V → Option (γ → δ)

/-- `for next_node, next_fun_grad in zip(graph[node], node_grad_vals):
grad_vals[next_node] += next_fun_grad` (281-284 and 311-314). The accumulators start as the
immutable `0.0` (239), so `+=` never writes into an array owned by somebody else the first
time; afterwards it writes into an array created by that first addition. Hence the
accumulators do not alias and are modelled as values. -/
def addGrads [Add γ] : List (V × γ) → (V → γ) → (V → γ)
  | [], G => G
  | (u, x) :: r, G => addGrads r (upd G u (G u + x))

/-- Reading the arguments of a heavy block (295-301). -/
def gradArgs (g : List (V × List V)) (vals : V → Option α) (G : V → γ) :
    List V → Except (Err V) (List (V × List α × γ))
  | [] => .ok []
  | v :: vs =>
    match lookupAll vals (adj g v) with
    | .error e => .error e
    | .ok as =>
      match gradArgs g vals G vs with
      | .error e => .error e
      | .ok rest => .ok ((v, as, G v) :: rest)

/-- Storing the results of a heavy block in order (306-309). -/
def storeGrads [Add γ] (g : List (V × List V)) (ops : GradOps V α γ δ) :
    List (V × List α × γ) → (V → γ) → (V → γ)
  | [], G => G
  | (v, as, x) :: r, G => storeGrads g ops r (addGrads ((adj g v).zip (ops.grad v as x)) G)

/-- The loop of the backward pass (253-316) over the remaining sorted nodes. -/
def backward [Add γ] (g : List (V × List V)) (heavy : V → Bool) (ops : GradOps V α γ δ)
    (vals : V → Option α) : Nat → List V → (V → γ) → List δ → Except (Err V) ((V → γ) × List δ)
  | _, [], G, os => .ok (G, os)
  | 0, _ :: _, _, _ => .error .outOfFuel
  | n + 1, v :: rest, G, os =>
    if heavy v then
      let block := (v :: rest).takeWhile heavy
      match gradArgs g vals G block with
      | .error e => .error e
      | .ok args =>
        backward g heavy ops vals n ((v :: rest).dropWhile heavy) (storeGrads g ops args G) os
    else
      match ops.old v with
      | some c => backward g heavy ops vals n rest G (os ++ [c (G v)])
      | none =>
        match lookupAll vals (adj g v) with
        | .error e => .error e
        | .ok as =>
          backward g heavy ops vals n rest (addGrads ((adj g v).zip (ops.grad v as (G v))) G) os

/-- `np.sum(total_grads, axis=0)` (326). -/
def sumList [Add δ] [Zero δ] : List δ → δ
  | [] => 0
  | x :: xs => x + sumList xs

/-- `eval_grad` (189-326). `seed` is the `1` stored for the output (240), `pg g` is
`np.array(g) @ param.calculate_gradient()` (322-325). -/
def evalGrad [Add γ] [Zero γ] [Add δ] [Zero δ] (N : Net V) (isVar : V → Bool)
    (f : V → List α → α) (ops : GradOps V α γ δ) (ord : List V → List V) (fuel : Nat)
    (struct : α) (seed : γ) (pg : γ → δ) (out : V) : Except (Err V) δ :=
  match createGraph N fuel [out] with
  | none => .error .outOfFuel
  | some g =>
    let inNodes := (g.map Prod.fst).filter isVar
    if 1 < inNodes.length then .error .multipleVariables
    else
      let ov : V → Option α := fun v => if inNodes.head? = some v then some struct else none
      match topSort g N.heavy ord with
      | none => .error .outOfFuel
      | some ts =>
        match forward g N.heavy f ts.reverse.length ts.reverse ⟨ov, []⟩ with
        | .error e => .error e
        | .ok s =>
          match backward g N.heavy ops s.vals ts.length ts (upd (fun _ => 0) out seed) [] with
          | .error e => .error e
          | .ok (G, os) =>
            match inNodes.head? with
            | none => .ok (sumList os)
            | some x => .ok (sumList (os ++ [pg (G x)]))

end Verif.Exec
