import Verif.Exec.GradModel
/-
Model of the backward pass of `spins/goos/graph_executor.py` `eval_grad` (227-377), with
Python's object identity: the gradient accumulators are `Flow.Grad` objects that own numpy
arrays, `+=` on them writes into the array (`goos/flows.py` `NumericFlow.Grad.__iadd__`,
201-203), and a node may hand the very same array to several inputs
(`goos/math.py` `Sum.grad`, 257-267).
-/
namespace Verif.Exec
variable {V : Type} [DecidableEq V] {α γ : Type}

/-- The numpy arrays that exist: `next` is the first unused reference. A gradient object is
modelled by the reference of its array (`array_grad`): two `Grad` objects sharing an array are
indistinguishable for `+=`. -/
structure Heap (γ : Type) where
  get : Nat → γ
  next : Nat

/-- A new array. -/
def Heap.alloc (h : Heap γ) (x : γ) : Nat × Heap γ :=
  (h.next, ⟨fun r => if r = h.next then x else h.get r, h.next + 1⟩)

/-- `array += ...` in place. -/
def Heap.set (h : Heap γ) (r : Nat) (x : γ) : Heap γ :=
  ⟨fun r' => if r' = r then x else h.get r', h.next⟩

/-- New arrays for a list of values. -/
def Heap.allocAll : List γ → Heap γ → List Nat × Heap γ
  | [], h => ([], h)
  | x :: xs, h =>
    let p := h.alloc x
    let q := Heap.allocAll xs p.2
    (p.1 :: q.1, q.2)

/-- `node.grad(input_vals, grad_val)`: takes the reference of the incoming gradient, may create
arrays, returns one reference per input. Nodes returning `None` entries (which the executor
replaces by zeros, 303-305) are not modelled. -/
abbrev HGrad (V α γ : Type) := V → List α → Nat → Heap γ → List Nat × Heap γ

/-- A node whose `grad` builds a new array for every input: `Product.grad`, `Power.grad`,
`AbsoluteValue.grad`, `DotProduct.grad` (`goos/math.py` 295-314, 343-349, 363-378, 400-407). -/
def freshGrad (gr : List α → γ → List γ) (as : List α) (r : Nat) (h : Heap γ) :
    List Nat × Heap γ :=
  Heap.allocAll (gr as (h.get r)) h

/-- The list comprehension of `Sum.grad` (`goos/math.py` 257-267): a deep copy for the dominant
index, the incoming array itself for all others. `k` is the number of inputs still to do, `i`
the current index. -/
def sumGradLoop (ind : Nat) (r : Nat) : Nat → Nat → Heap γ → List Nat × Heap γ
  | 0, _, h => ([], h)
  | k + 1, i, h =>
    if ind = i then
      let p := h.alloc (h.get r)
      let q := sumGradLoop ind r k (i + 1) p.2
      (p.1 :: q.1, q.2)
    else
      let q := sumGradLoop ind r k (i + 1) h
      (r :: q.1, q.2)

/-- `Sum.grad`. `dom` is the index computed by `find_dominant_numeric_flow` (188-241); it is `0`
when all inputs are plain numeric flows of the same shape. -/
def sumGrad (dom : List α → Nat) (as : List α) (r : Nat) (h : Heap γ) : List Nat × Heap γ :=
  sumGradLoop (dom as) r as.length 0 h

/-- The accumulators: `grad_vals` and the arrays. -/
structure GState (V γ : Type) where
  gv : V → Option Nat
  heap : Heap γ

/-- `_update_grad_vals` (300-312): `grad_vals[next_node] += g` writes into the stored array, and
the first gradient of a node is stored without copying. -/
def updateGrads [Add γ] : List (V × Nat) → GState V γ → GState V γ
  | [], s => s
  | (u, x) :: zs, s =>
    match s.gv u with
    | some r => updateGrads zs ⟨s.gv, s.heap.set r (s.heap.get r + s.heap.get x)⟩
    | none => updateGrads zs ⟨upd s.gv u (some x), s.heap⟩

/-- `_eval_grad` (290-298). `known v` is the gradient object given in `override_map`. -/
def evalGradNode (known : V → Option Nat) (hg : HGrad V α γ) (v : V) (as : List α) (r : Nat)
    (h : Heap γ) : List Nat × Heap γ :=
  match known v with
  | some k => ([k], h)
  | none => hg v as r h

/-- `arg_list` of a heavy block (346-353). -/
def heapArgs (g : List (V × List V)) (vals : V → Option α) (gv : V → Option Nat) :
    List V → Except (Err V) (List (V × List α × Nat))
  | [] => .ok []
  | v :: vs =>
    match lookupAll vals (adj g v) with
    | .error e => .error e
    | .ok as =>
      match gv v with
      | none => .error (.keyError v)
      | some r =>
        match heapArgs g vals gv vs with
        | .error e => .error e
        | .ok rest => .ok ((v, as, r) :: rest)

/-- `executor.map(_eval_grad, arg_list)` (354-356): all calls happen before any update. The calls
run concurrently; node gradients are assumed to create new arrays and only read the incoming
one, so the order only affects the numbering of new arrays. Returns the pairs
`zip(graph[node_], node_grad_vals)` of the block, in order. -/
def heapBlock (g : List (V × List V)) (known : V → Option Nat) (hg : HGrad V α γ) :
    List (V × List α × Nat) → Heap γ → List (V × Nat) × Heap γ
  | [], h => ([], h)
  | (v, as, r) :: rest, h =>
    let p := evalGradNode known hg v as r h
    let q := heapBlock g known hg rest p.2
    ((adj g v).zip p.1 ++ q.1, q.2)

/-- The loop of the backward pass (314-365). -/
def goosBackward [Add γ] (g : List (V × List V)) (heavy : V → Bool) (known : V → Option Nat)
    (hg : HGrad V α γ) (vals : V → Option α) :
    Nat → List V → GState V γ → Except (Err V) (GState V γ)
  | _, [], s => .ok s
  | 0, _ :: _, _ => .error .outOfFuel
  | n + 1, v :: rest, s =>
    if heavy v then
      let block := (v :: rest).takeWhile heavy
      match heapArgs g vals s.gv block with
      | .error e => .error e
      | .ok args =>
        let p := heapBlock g known hg args s.heap
        goosBackward g heavy known hg vals n ((v :: rest).dropWhile heavy)
          (updateGrads p.1 ⟨s.gv, p.2⟩)
    else
      match lookupAll vals (adj g v) with
      | .error e => .error e
      | .ok as =>
        match s.gv v with
        | none => .error (.keyError v)
        | some r =>
          let p := evalGradNode known hg v as r s.heap
          goosBackward g heavy known hg vals n rest
            (updateGrads ((adj g v).zip p.1) ⟨s.gv, p.2⟩)

/-- `eval_grad` (227-377) with respect to the nodes `vars`, with `override_map` giving the values
`ov` and gradient objects for the same nodes. Array `0` is the seed `np.array([1.0])` (288),
array `1` stands for all gradient objects of the override map (for a variable they are read only
to be zipped with the empty list of inputs). -/
def evalGradGoos [Add γ] [Zero γ] (N : Net V) (f : V → List α → α) (hg : HGrad V α γ)
    (ord : List V → List V) (fuel : Nat) (ov : V → Option α) (seed kn : γ) (vars : List V)
    (out : V) : Except (Err V) (List γ) :=
  match createGraph N fuel [out] with
  | none => .error .outOfFuel
  | some g =>
    match topSort g N.heavy ord with
    | none => .error .outOfFuel
    | some ts =>
      match forward g N.heavy f ts.reverse.length ts.reverse ⟨ov, []⟩ with
      | .error e => .error e
      | .ok s =>
        match goosBackward g N.heavy (fun v => (ov v).map (fun _ => 1)) hg s.vals ts.length ts
            ⟨upd (fun _ => none) out (some 0), ⟨fun r => if r = 0 then seed else kn, 2⟩⟩ with
        | .error e => .error e
        | .ok st =>
          -- 369-377: zeros for variables that do not occur in the graph
          .ok (vars.map (fun v => match st.gv v with
            | some r => st.heap.get r
            | none => 0))

end Verif.Exec
