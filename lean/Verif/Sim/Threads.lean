/-
Threads that share a simulation: `FdfdSimulation.simulate` and `AdjointFdfdSimulation.simulate`
(`spins/invdes/problem/simulation.py` 76-111, 151-186), which hold a lock, `FdfdSimulation._simulate` and
`_simulate_adjoint` (`spins/invdes/problem_graph/creator_em.py` 330-424), which do not, and the threads that
`calculate_objective_parallel`, `calculate_gradient_parallel` and `OptimizationProblem` start
(`spins/invdes/problem/objective.py` 178-308).

Every access of a thread to the list that holds the cache is one step, and between any two steps other threads may
run. `Z` is what a call is looked up by (a structure, or a structure and a source) and `solve` the solver, `none` if it
raises. Simplification: arrays are not changed after the call (C50 is about that).
-/
namespace Verif.Sim.Threads

variable {Z V : Type}

/-- How a call ends: with the fields, an exception of the solver, or an `IndexError` from the cache. -/
inductive Out (V : Type) where
  | value (v : V)
  | solverError
  | indexError
  deriving DecidableEq

/-- Where a thread is in `simulate`. Lines are those of simulation.py. -/
inductive Pc (Z V : Type) where
  /-- between calls -/
  | idle
  /-- before iteration `i` of the `n` of the loop, 95 -/
  | search (z : Z) (i n : Nat)
  /-- before `del self.cache[cache_index]`, 103 -/
  | hit (z : Z) (i : Nat) (f : V)
  /-- before the solve, 106 -/
  | solve (z : Z)
  /-- before `del self.cache[0]`, 108 -/
  | drop (z : Z) (f : V)
  /-- before `self.cache.append`, 110 -/
  | insert (z : Z) (f : V)
  /-- before the lock is released, by `return` or an exception -/
  | leave (z : Z) (o : Out V)

/-- The cache: unused places are `None`, 63. -/
abbrev Store (Z V : Type) := List (Option (Z × V))

/-- A step inside `simulate`: where the thread is then, the cache, and the structures solved so far. 90-110 -/
def pcStep [DecidableEq Z] (solve : Z → Option V) (c : Store Z V) (sv : List Z) : Pc Z V → Pc Z V × Store Z V × List Z
  | .search z i n =>
    if i < n then
      match c[i]? with
      | none => (.leave z .indexError, c, sv)
      | some none => (.search z (i + 1) n, c, sv)
      | some (some e) => if z = e.1 then (.hit z i e.2, c, sv) else (.search z (i + 1) n, c, sv)
    else (.solve z, c, sv)
  | .hit z i f => if i < c.length then (.insert z f, c.eraseIdx i, sv) else (.leave z .indexError, c, sv)
  | .solve z =>
    match solve z with
    | none => (.leave z .solverError, c, sv)
    | some f => (.drop z f, c, sv ++ [z])
  | .drop z f =>
    match c with
    | [] => (.leave z .indexError, c, sv)
    | _ :: t => (.insert z f, t, sv)
  | .insert z f => (.leave z (.value f), c ++ [some (z, f)], sv)
  | .idle => (.idle, c, sv)
  | .leave z o => (.leave z o, c, sv)

/-- A thread: the calls to come, where it is, and how the calls made so far ended. -/
structure Th (Z V : Type) where
  todo : List Z
  pc : Pc Z V
  outs : List (Z × Out V)

structure Sys (Z V : Type) where
  cache : Store Z V
  owner : Option Nat
  threads : List (Th Z V)
  solved : List Z

def Out.isValue : Out V → Bool
  | .value _ => true
  | _ => false

/-- A step of thread `t`; `none` if it cannot make one: it does not exist, has finished, was ended by an exception, or
waits for the lock (88; there is none if `locked` is false). -/
def step [DecidableEq Z] (locked : Bool) (solve : Z → Option V) (s : Sys Z V) (t : Nat) : Option (Sys Z V) :=
  match s.threads[t]? with
  | none => none
  | some th =>
    match th.pc with
    | .idle =>
      match th.todo with
      | [] => none
      | z :: rest =>
        if th.outs.all (fun o => o.2.isValue) = false ∨ (locked = true ∧ s.owner ≠ none) then none
        else some { s with
          owner := if locked then some t else s.owner
          threads := s.threads.set t { th with todo := rest, pc := .search z 0 s.cache.length } }
    | .leave z o => some { s with
        owner := if locked then none else s.owner
        threads := s.threads.set t { th with pc := .idle, outs := th.outs ++ [(z, o)] } }
    | pc => some { s with
        cache := (pcStep solve s.cache s.solved pc).2.1
        solved := (pcStep solve s.cache s.solved pc).2.2
        threads := s.threads.set t { th with pc := (pcStep solve s.cache s.solved pc).1 } }

/-- A schedule says which thread gets the next turn; a turn of a thread that cannot make a step is lost. -/
def run [DecidableEq Z] (locked : Bool) (solve : Z → Option V) (s : Sys Z V) : List Nat → Sys Z V
  | [] => s
  | t :: ts => run locked solve ((step locked solve s t).getD s) ts

/-- Threads that will make these calls, and a new simulation. 63-64 -/
def start (size : Nat) (calls : List (List Z)) : Sys Z V :=
  ⟨List.replicate size none, none, calls.map fun zs => ⟨zs, .idle, []⟩, []⟩

/-! ### Objectives and constraints -/

/-- A function of the problem: the structures it has simulated, one after the other, and its value for the fields.
Simplification: what it simulates does not depend on earlier fields. -/
structure ObjFn (Z V R : Type) where
  sims : List Z
  post : List V → R

/-- What the thread returns: the value, or `none` if a simulation raised. objective.py 191-193 -/
def ObjFn.result {R : Type} (o : ObjFn Z V R) (th : Th Z V) : Option R :=
  (th.outs.mapM fun (x : Z × Out V) => match x.2 with
    | .value v => some v
    | _ => none).map o.post

/-- `list(executor.map(…, objs))`: the results in the order of `objs`; an exception is raised again. `threads` is how
the threads ended, one for each function. 201-203, 232-234 -/
def collect {R : Type} (objs : List (ObjFn Z V R)) (threads : List (Th Z V)) : Option (List R) :=
  (objs.zip threads).mapM fun p => p.1.result p.2

/-- `calculate_constraints` and `calculate_constraint_gradients`: the results are split after the equality constraints.
289-292, 306-308 -/
def constraints {R : Type} (eq ineq : List (ObjFn Z V R)) (threads : List (Th Z V)) : Option (List R × List R) :=
  (collect (eq ++ ineq) threads).map fun r => (r.take eq.length, r.drop eq.length)

end Verif.Sim.Threads
