/-
Model of the graph executors

* `spins/invdes/problem/graph_executor.py`
* `spins/goos/graph_executor.py`

The two files share `_create_computational_graph`, `_top_sort_affinity` and the
forward loop of `_eval_fun_vals` (up to flags, which are modelled as part of the
node value), so these are modelled once.

Simplifications, common to the file:
* `id(fun)` is modelled by the node itself (a type with decidable equality);
* node functions are pure and do not raise;
* dictionaries that are only read at keys they are proved to contain are total
  functions; dictionaries whose missing keys matter return `Option`.
-/
namespace Verif.Exec

/-- The object graph the user builds: `inputs` is `_inputs` / `_goos_inputs`
(`invdes/problem/objective.py` `OptimizationFunction.__init__`,
`goos/optplan/optplan.py` `ProblemGraphNode`), with old-style functions
(`_is_old_fun`, graph_executor.py:468) having no inputs; `heavy` is
`_is_heavy_fun` (invdes 473, goos 515). -/
structure Net (V : Type) where
  inputs : V → List V
  heavy : V → Bool

variable {V : Type} [DecidableEq V]

/-- State of the breadth first search in `_create_computational_graph`
(invdes 351-393, goos 402-440). `graph` is the insertion ordered dictionary of
adjacency lists, `seen` the keys of `fun_map`, `qu` the deque. -/
structure BfsState (V : Type) where
  graph : List (V × List V)
  seen : List V
  qu : List V

/-- `graph[node] = adj` on an insertion ordered dictionary (a re-assigned key keeps
its position). -/
def dictSet (d : List (V × List V)) (k : V) (x : List V) : List (V × List V) :=
  if k ∈ d.map Prod.fst then d.map (fun p => if p.1 = k then (k, x) else p)
  else d ++ [(k, x)]

/-- `graph[node]`; `[]` stands for a missing key (proved not to happen). -/
def adj (d : List (V × List V)) (k : V) : List V :=
  match d.find? (fun p => p.1 = k) with
  | some p => p.2
  | none => []

/-- The inner `for next_fun in fun_map[node]._inputs` loop
(invdes 382-391, goos 429-438): enqueue the inputs not yet in `fun_map`. -/
def bfsPush : List V → List V × List V → List V × List V
  | [], s => s
  | u :: us, (seen, qu) =>
    if u ∈ seen then bfsPush us (seen, qu)
    else bfsPush us (seen ++ [u], qu ++ [u])

/-- The `while qu` loop (invdes 366-391, goos 417-438). Python has no bound: `fuel`
is the number of iterations granted, `none` means it was not enough. -/
def bfsLoop (N : Net V) : Nat → BfsState V → Option (BfsState V)
  | _, ⟨g, seen, []⟩ => some ⟨g, seen, []⟩
  | 0, ⟨_, _, _ :: _⟩ => none
  | n + 1, ⟨g, seen, v :: qu⟩ =>
    let p := bfsPush (N.inputs v) (seen, qu)
    bfsLoop N n ⟨dictSet g v (N.inputs v), p.1, p.2⟩

/-- `fun_map = {node: fun ...}` keeps one key per distinct output (invdes 352, goos 403). -/
def dedupKeys : List V → List V → List V
  | [], acc => acc
  | v :: vs, acc => if v ∈ acc then dedupKeys vs acc else dedupKeys vs (acc ++ [v])

/-- `_create_computational_graph` (invdes 329-393, goos 380-440): the adjacency
dictionary. `heavy_nodes` is `N.heavy` restricted to it. -/
def createGraph (N : Net V) (fuel : Nat) (outs : List V) : Option (List (V × List V)) :=
  (bfsLoop N fuel ⟨[], dedupKeys outs [], outs⟩).map BfsState.graph

/-- A function update, for `parents[next_node] -= 1`. -/
def upd {β : Type} (f : V → β) (k : V) (x : β) : V → β := fun v => if v = k then x else f v

/-- First half of `_top_sort_affinity` (invdes 421-425, goos 468-472):
`parents[child] += 1` for every edge, counted with multiplicity. -/
def countParents (g : List (V × List V)) : V → Int :=
  g.foldl (fun p e => e.2.foldl (fun p c => upd p c (p c + 1)) p) (fun _ => 0)

/-- The loop `for next_node in graph[node]: parents[next_node] -= 1; if ... == 0:
qu.append(next_node)` (invdes 449-452 and 457-460, goos 496-499 and 504-507). -/
def release : List V → (V → Int) × List V → (V → Int) × List V
  | [], s => s
  | c :: cs, (par, qu) =>
    let par' := upd par c (par c - 1)
    if par' c = 0 then release cs (par', qu ++ [c]) else release cs (par', qu)

/-- State of the sort: parent counters, queue, output list. -/
structure SortState (V : Type) where
  par : V → Int
  qu : List V
  out : List V

/-- The inner `while qu` loop (invdes 439-452, goos 486-499). Returns the affinity
block as the list of nodes in order of insertion (a duplicate insertion into the
set would be kept by the list; it is proved that none happens). -/
def inner (g : List (V × List V)) (heavy : V → Bool) :
    Nat → SortState V → List V → Option (SortState V × List V)
  | _, ⟨par, [], out⟩, block => some (⟨par, [], out⟩, block)
  | 0, ⟨_, _ :: _, _⟩, _ => none
  | n + 1, ⟨par, v :: qu, out⟩, block =>
    if heavy v then inner g heavy n ⟨par, qu, out⟩ (if v ∈ block then block else block ++ [v])
    else
      let r := release (adj g v) (par, qu)
      inner g heavy n ⟨r.1, r.2, out ++ [v]⟩ block

/-- The `for node in affinity_nodes_block` loop (invdes 456-460, goos 503-507). -/
def releaseAll (g : List (V × List V)) : List V → (V → Int) × List V → (V → Int) × List V
  | [], s => s
  | v :: vs, s => releaseAll g vs (release (adj g v) s)

/-- The outer `while qu` loop (invdes 435-460, goos 482-507). `ord` is the iteration
order of the Python set `affinity_nodes_block`: it is the same for `list(block)` and for
the `for` loop because the set is not modified in between. -/
def outer (g : List (V × List V)) (heavy : V → Bool) (ord : List V → List V) (fuel : Nat) :
    Nat → SortState V → Option (List V)
  | _, ⟨_, [], out⟩ => some out
  | 0, ⟨_, _ :: _, _⟩ => none
  | n + 1, ⟨par, v :: qu, out⟩ =>
    match inner g heavy fuel ⟨par, v :: qu, out⟩ [] with
    | none => none
    | some (s, block) =>
      let b := ord block
      let r := releaseAll g b (s.par, s.qu)
      outer g heavy ord fuel n ⟨r.1, r.2, s.out ++ b⟩

/-- `_top_sort_affinity` (invdes 396-462, goos 443-509). Python's loops are unbounded;
the bounds used here are proved to be sufficient for every graph. -/
def topSort (g : List (V × List V)) (heavy : V → Bool) (ord : List V → List V) :
    Option (List V) :=
  let keys := g.map Prod.fst
  let par := countParents g
  outer g heavy ord (keys.length + 1) (keys.length + 1)
    ⟨par, keys.filter (fun v => par v = 0), []⟩

/-! ### Forward evaluation -/

/-- Errors the executor can raise. -/
inductive Err (V : Type) where
  | keyError (v : V)
  | multipleVariables
  | outOfFuel
  deriving Repr, DecidableEq

/-- `fun_vals` and the trace of `eval` calls (the trace is not in the code, it
instruments the calls of `fun_map[node].eval`). -/
structure EvalState (V α : Type) where
  vals : V → Option α
  trace : List V

/-- `[fun_vals[in_node] for in_node in graph[node]]` with `KeyError`. -/
def lookupAll {α : Type} (vals : V → Option α) : List V → Except (Err V) (List α)
  | [] => .ok []
  | v :: vs =>
    match vals v with
    | none => .error (.keyError v)
    | some a =>
      match lookupAll vals vs with
      | .error e => .error e
      | .ok as => .ok (a :: as)

/-- Building `arg_list` for a heavy block (invdes 161-164, goos 205-209): every input
is read before any result of the block is stored. -/
def blockArgs {α : Type} (g : List (V × List V)) (vals : V → Option α) :
    List V → Except (Err V) (List (V × List α))
  | [] => .ok []
  | v :: vs =>
    match lookupAll vals (adj g v) with
    | .error e => .error e
    | .ok as =>
      match blockArgs g vals vs with
      | .error e => .error e
      | .ok rest => .ok ((v, as) :: rest)

/-- Evaluating the block with `executor.map` and storing the results in order
(invdes 166-173, goos 211-218). -/
def storeBlock {α : Type} (f : V → List α → α) :
    List (V × List α) → EvalState V α → EvalState V α
  | [], s => s
  | (v, as) :: rest, s =>
    storeBlock f rest ⟨upd s.vals v (some (f v as)), s.trace ++ [v]⟩

/-- The loop of `_eval_fun_vals` (invdes 129-186, goos 171-223) over the remaining
nodes of `reversed(top_sorted_nodes)`. `n` bounds the recursion and is taken to be
the length of the list. -/
def forward {α : Type} (g : List (V × List V)) (heavy : V → Bool) (f : V → List α → α) :
    Nat → List V → EvalState V α → Except (Err V) (EvalState V α)
  | _, [], s => .ok s
  | 0, _ :: _, _ => .error .outOfFuel
  | n + 1, v :: rest, s =>
    if (s.vals v).isSome then forward g heavy f n rest s
    else if heavy v then
      -- the block: all nodes up to the next non-heavy one, even if already set
      let block := (v :: rest).takeWhile heavy
      match blockArgs g s.vals block with
      | .error e => .error e
      | .ok args => forward g heavy f n ((v :: rest).dropWhile heavy) (storeBlock f args s)
    else
      match lookupAll s.vals (adj g v) with
      | .error e => .error e
      | .ok as => forward g heavy f n rest ⟨upd s.vals v (some (f v as)), s.trace ++ [v]⟩

/-- `eval_fun` of goos (43-100) with `override_map = ov`; also `eval_fun` of invdes
(41-92) after the check for several variables, where `ov` maps the variable node to
`param.get_structure()`. Returns the output values and the trace of `eval` calls. -/
def evalFun {α : Type} (N : Net V) (f : V → List α → α) (ord : List V → List V)
    (fuel : Nat) (ov : V → Option α) (outs : List V) :
    Except (Err V) (List α × List V) :=
  match createGraph N fuel outs with
  | none => .error .outOfFuel
  | some g =>
    match topSort g N.heavy ord with
    | none => .error .outOfFuel
    | some ts =>
      match forward g N.heavy f ts.reverse.length ts.reverse ⟨ov, []⟩ with
      | .error e => .error e
      | .ok s =>
        match lookupAll s.vals outs with
        | .error e => .error e
        | .ok r => .ok (r, s.trace)

/-- `eval_fun` of invdes (41-92): `isVar` is `isinstance(fun, problem.Variable)`,
`struct` is `param.get_structure()`. The check for several variables (lines 81-84)
happens after the sort and before the evaluation. -/
def evalFunInv {α : Type} (N : Net V) (isVar : V → Bool) (f : V → List α → α)
    (ord : List V → List V) (fuel : Nat) (struct : α) (outs : List V) :
    Except (Err V) (List α × List V) :=
  match createGraph N fuel outs with
  | none => .error .outOfFuel
  | some g =>
    match (g.map Prod.fst).filter isVar with
    | [] => evalFun N f ord fuel (fun _ => none) outs
    | [x] => evalFun N f ord fuel (fun v => if v = x then some struct else none) outs
    | _ => .error .multipleVariables

/-- Default rule of `_eval_flags` (goos 138-153, the `else` branch): a flag is set on a
node when it is set on all inputs (`all` of an empty list is `True`). -/
def defaultFlag : V → List Bool → Bool := fun _ bs => bs.all id

end Verif.Exec
