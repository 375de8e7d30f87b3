/-
Model of `run_plan` with `resume`, spins/invdes/problem_graph/solver.py, of `Workspace.run` and `Logger`, workspace.py, and of the
transformation `ScipyOptimizer`, creator_opt.py. The folder is the list of the files written to it, later ones replacing earlier ones
of the same name.

Simplifications. Values of parametrizations and of parameters are of one type `Val`; serializing and deserializing a parametrization
gives back its value. Initial values are fixed by the plan (no random initializers). A transformation changes its own parametrization
only, and only that becomes known to the workspace through it. The functions of a `parameter_list` use only parameters which the
transformation uses anyway. Monitors, times and the final GDS file are left out. `PenaltyOptimizer` is not modelled here. The optimizer
library is a parameter: a state (`Mem`), a step, and the number of steps it takes for a given `maxiter`.
-/
namespace Verif.Work

/-- The event dictionaries of `ScipyOptimizer`. creator_opt.py 14-19, 103, 131, 165 -/
inductive Event
  | start
  | optimizing (iteration : Nat)
  | finish
deriving DecidableEq

/-- An optimizer: how it sets up its state from the parameters and the starting value, a step (`none` when it has converged), the
steps it makes at most given `maxiter`, the option `maxiter` and the library's default, and whether there are callback monitors. -/
structure Optimizer (Val Mem : Type) where
  setup : (Nat → Val) → Val → Mem
  step : (Nat → Val) → Mem → Val → Option (Mem × Val)
  bound : Nat → Nat
  maxiter : Option Nat
  default : Nat
  callback : Bool

/-- What a transformation does: the transformations that log nothing compute a value for the parametrization from all values
(creator_opt.py, e.g. `CubicParamSigmoidStrength`), or it is an optimizer. -/
inductive Action (Val Mem : Type)
  | compute (f : (Nat → Val) → (Nat → Val) → Val)
  | optimize (o : Optimizer Val Mem)

/-- A transformation of the plan: its name, its parametrization, the parameters below its node, its `parameter_list`, as the name of
the parameter and its value computed from the values of parametrizations and parameters. -/
structure Transformation (Val Mem : Type) where
  name : Nat
  parametrization : Nat
  uses : List Nat
  sets : List (Nat × ((Nat → Val) → (Nat → Val) → Val))
  action : Action Val Mem

/-- The plan: initial values of parametrizations and parameters, and the transformations. -/
structure Plan (Val Mem : Type) where
  initPz : Nat → Val
  initPar : Nat → Val
  transformations : List (Transformation Val Mem)

/-- The files: `step{n}.pkl`, whose `log_counter` is its number, and `{name}.chkpt.pkl`. workspace.py 291-375 -/
inductive File (Val : Type)
  | log (step : Nat) (transformation : Nat) (event : Event) (value : Val) (par : Nat → Option Val)
  | chkpt (name : Nat) (pz par : Nat → Option Val)

/-- The state of the process: values of the parametrizations and parameters known to the workspace, and the log counter. -/
structure Proc (Val : Type) where
  pz : Nat → Option Val
  par : Nat → Option Val
  counter : Nat

variable {Val Mem : Type}

/-- A new workspace. -/
def Proc.init : Proc Val := ⟨fun _ => none, fun _ => none, 0⟩

/-- Nodes become known, with their initial values. workspace.py 70-98, 189-198 -/
def know (init : Nat → Val) (names : List Nat) (store : Nat → Option Val) : Nat → Option Val := fun p =>
  match store p with
  | some v => some v
  | none => if p ∈ names then some (init p) else none

/-- Set one value. -/
def put (store : Nat → Option Val) (p : Nat) (v : Val) : Nat → Option Val := fun q => if q = p then some v else store q

/-- The values seen by functions. -/
def env (init : Nat → Val) (store : Nat → Option Val) : Nat → Val := fun p => (store p).getD (init p)

/-- `_set_parameters`. workspace.py 229-250 -/
def setParameters (plan : Plan Val Mem) (pz : Nat → Option Val) :
    (Nat → Option Val) → List (Nat × ((Nat → Val) → (Nat → Val) → Val)) → Nat → Option Val
  | par, [] => par
  | par, (p, f) :: rest =>
    let par := know plan.initPar [p] par
    setParameters plan pz (put par p (f (env plan.initPz pz) (env plan.initPar par))) rest

/-- The optimization loop, with the callback: at most `n` steps. Returns the value, the counter and the files.
creator_opt.py 120-154 -/
def iterate (o : Optimizer Val Mem) (name : Nat) (par : Nat → Option Val) (e : Nat → Val) :
    (n : Nat) → Mem → Val → (iteration counter : Nat) → Val × Nat × List (File Val)
  | 0, _, v, _, c => (v, c, [])
  | n + 1, m, v, i, c =>
    match o.step e m v with
    | none => (v, c, [])
    | some (m, v) =>
      if o.callback then
        let r := iterate o name par e n m v (i + 1) (c + 1)
        (r.1, r.2.1, .log (c + 1) name (.optimizing (i + 1)) v par :: r.2.2)
      else iterate o name par e n m v (i + 1) c

/-- The number of steps of the library in `_iterate`, after `iteration` steps. creator_opt.py 142-149 -/
def steps (o : Optimizer Val Mem) (iteration : Nat) : Nat :=
  match o.maxiter with
  | some n => o.bound (n - iteration)
  | none => o.bound o.default

/-- `ScipyOptimizer.__call__`. creator_opt.py 58-171 -/
def optimizerCall (o : Optimizer Val Mem) (name : Nat) (par : Nat → Option Val) (e : Nat → Val) (v : Val) (c : Nat)
    (event : Option Event) : Val × Nat × List (File Val) :=
  let started := if event = none then (c + 1, [File.log (c + 1) name .start v par]) else (c, [])
  let c := started.1
  let iteration := match event with
    | some (.optimizing k) => k
    | _ => 0
  let iterated := if event = some .finish then (v, c, []) else iterate o name par e (steps o iteration) (o.setup e v) v iteration c
  let v := iterated.1
  let c := iterated.2.1
  let ended := if event = some .finish then (c, []) else (c + 1, [File.log (c + 1) name .finish v par])
  (v, ended.1, started.2 ++ iterated.2.2 ++ ended.2)

/-- `Workspace.run`. workspace.py 108-137 -/
def runTransformation (plan : Plan Val Mem) (t : Transformation Val Mem) (event : Option Event) (s : Proc Val) :
    Proc Val × List (File Val) :=
  let par := know plan.initPar t.uses s.par
  let par := if event = none then setParameters plan s.pz par t.sets else par
  let pz := know plan.initPz [t.parametrization] s.pz
  let v := env plan.initPz pz t.parametrization
  match t.action with
  | .compute f => (⟨put pz t.parametrization (f (env plan.initPz pz) (env plan.initPar par)), par, s.counter⟩, [])
  | .optimize o =>
    let r := optimizerCall o t.name par (env plan.initPar par) v s.counter event
    (⟨put pz t.parametrization r.1, par, r.2.1⟩, r.2.2)

/-- The loop of `run_plan`. solver.py 57-64 -/
def runAll (plan : Plan Val Mem) : List (Transformation Val Mem) → Option Event → Proc Val → Proc Val × List (File Val)
  | [], _, s => (s, [])
  | t :: ts, event, s =>
    let a := runTransformation plan t event s
    let b := runAll plan ts none a.1
    (b.1, a.2 ++ .chkpt t.name a.1.pz a.1.par :: b.2)

/-- The contents of `{name}.chkpt.pkl`. -/
def findChkpt (files : List (File Val)) (name : Nat) : Option ((Nat → Option Val) × (Nat → Option Val)) :=
  (files.filterMap fun f => match f with
    | .chkpt n pz par => if n = name then some (pz, par) else none
    | _ => none).getLast?

/-- The logs in the folder: number, transformation, event and value. -/
def logs (files : List (File Val)) : List (Nat × Nat × Event × Val) :=
  files.filterMap fun f => match f with
    | .log step tr ev v _ => some (step, tr, ev, v)
    | _ => none

/-- `get_latest_log_step`. workspace.py 378-399 -/
def latestStep (files : List (File Val)) : Nat := (logs files).foldl (fun a l => max a l.1) 0

/-- `get_latest_log_file` and its contents. workspace.py 402-417 -/
def latestLog (files : List (File Val)) : Option (Nat × Nat × Event × Val) :=
  if latestStep files = 0 then none else ((logs files).filter fun l => l.1 = latestStep files).getLast?

/-- The index of the transformation to run next. solver.py 117-121 -/
def transformIndex (files : List (File Val)) : List (Transformation Val Mem) → (i acc : Nat) → Nat
  | [], _, acc => acc
  | t :: ts, i, acc => transformIndex files ts (i + 1) (if (findChkpt files t.name).isSome then i + 1 else acc)

/-- The loop that restores parametrizations and adds the parameters that were set; `none` for a missing key. solver.py 140-148 -/
def restoreTransformations (plan : Plan Val Mem) (chk : Nat → Option Val) :
    List (Transformation Val Mem) → (pz par : Nat → Option Val) → Option ((Nat → Option Val) × (Nat → Option Val))
  | [], pz, par => some (pz, par)
  | t :: ts, pz, par =>
    match chk t.parametrization with
    | none => none
    | some v => restoreTransformations plan chk ts (put pz t.parametrization v) (know plan.initPar (t.sets.map (·.1)) par)

/-- The loop that restores the parameters: `none` for a parameter that is not in the workspace. The parameters of the checkpoint are
looked up among the names occurring in the plan. solver.py 150-152 -/
def restoreParameters (chk : Nat → Option Val) : List Nat → (Nat → Option Val) → Option (Nat → Option Val)
  | [], par => some par
  | p :: ps, par =>
    match chk p with
    | none => restoreParameters chk ps par
    | some v => match par p with
      | none => none
      | some _ => restoreParameters chk ps (put par p v)

/-- All names of parameters in the plan. -/
def Plan.parameters (plan : Plan Val Mem) : List Nat := plan.transformations.flatMap fun t => t.uses ++ t.sets.map (·.1)

/-- Restoring from the checkpoint of the last finished transformation, if any. solver.py 123-152 -/
def restoreCheckpoint (plan : Plan Val Mem) (files : List (File Val)) (idx : Nat) : Option (Proc Val) :=
  if idx > 0 then do
    let last ← plan.transformations[idx - 1]?
    let chk ← findChkpt files last.name
    let r ← restoreTransformations plan chk.1 (plan.transformations.take idx) (fun _ => none) (fun _ => none)
    let par ← restoreParameters chk.2 plan.parameters r.2
    pure ⟨r.1, par, 0⟩
  else some Proc.init

/-- `restore_workspace`: the state, the index and the event; `none` for an exception. solver.py 82-183 -/
def restoreWorkspace (plan : Plan Val Mem) (files : List (File Val)) : Option (Proc Val × Nat × Option Event) := do
  let idx := transformIndex files plan.transformations 0 0
  let s ← restoreCheckpoint plan files idx
  if idx ≥ plan.transformations.length then pure (s, idx, none)
  else match latestLog files with
    | none => pure (s, idx, none)
    | some (step, tr, ev, v) => do
      let t ← plan.transformations[idx]?
      if tr = t.name then pure (⟨put s.pz t.parametrization v, s.par, step⟩, idx, some ev)
      else pure (⟨s.pz, s.par, step⟩, idx, none)

/-- `run_plan`: the final state and the files it writes, in order. solver.py 16-79 -/
def runPlan (plan : Plan Val Mem) (folder : List (File Val)) (resume : Bool) : Option (Proc Val × List (File Val)) :=
  if resume then do
    let (s, idx, ev) ← restoreWorkspace plan folder
    pure (runAll plan (plan.transformations.drop idx) ev s)
  else some (runAll plan plan.transformations none Proc.init)

end Verif.Work
