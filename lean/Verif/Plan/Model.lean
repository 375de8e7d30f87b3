/-
Model of `spins/goos/optplan/optplan.py` `OptimizationPlan` (238-697): variables, actions,
logging, checkpoints, `run` and `resume`.

An action is an arbitrary program over the plan API (`Prog`): it may read variables, call the
modifying methods, catch the exceptions they raise, branch on everything it has seen, and raise.
Simplifications, common to the file:
* actions do not call `plan.run`, `plan.resume`, `plan.add_action` or `plan.read_checkpoint`
  themselves, and do not touch underscore attributes;
* values are immutable (the numpy arrays handed out by `get_var_value` are copies; the shallow
  copy returned by `get_var_bounds` is not modelled);
* the order of the keys of the variable dictionary is kept.
-/
namespace Verif.Plan

/-- State of one variable: entries of `_var_value`, `_var_frozen`, `_var_bounds` (275-283). -/
structure VarState (Val : Type) where
  value : Val
  frozen : Bool
  bounds : Val × Val

variable {Name Val Ev Mon : Type} [DecidableEq Name]

/-- The variable dictionary, in insertion order. -/
abbrev Vars (Name Val : Type) := List (Name × VarState Val)

/-- Dictionary read. -/
def getVar (n : Name) : Vars Name Val → Option (VarState Val)
  | [] => none
  | (m, s) :: r => if m = n then some s else getVar n r

/-- Dictionary write. -/
def putVar (n : Name) (s : VarState Val) : Vars Name Val → Vars Name Val
  | [] => [(n, s)]
  | (m, t) :: r => if m = n then (n, s) :: r else (m, t) :: putVar n s r

/-- Files in the save folder: `step{k}.pkl` (427), `action{k}.chkpt` (568), others. -/
inductive File where
  | step (k : Nat)
  | action (k : Nat)
  | user (k : Nat)
  deriving DecidableEq

/-- Pickled data: `get_state_dict` (343-366), for `step` files with the event (402-406). -/
structure Record (Name Val Ev Mon : Type) where
  ptr : Nat
  vars : Vars Name Val
  event : Option Ev
  monitors : Option Mon
  counter : Option Nat

/-- Programs of actions. `k true` is the continuation if the call returned, `k false` if it
raised. -/
inductive Prog (Name Val Ev Mon : Type) where
  | done
  | raise
  | getValue (n : Name) (k : Option Val → Prog Name Val Ev Mon)
  | getBounds (n : Name) (k : Option (Val × Val) → Prog Name Val Ev Mon)
  | getThawed (k : Option (List Name) → Prog Name Val Ev Mon)
  /-- Any other reading of the variables, such as `eval_node`, which takes all of them as
  overrides (629-700; the nodes are assumed to be in the plan already). -/
  | look (k : Vars Name Val → Prog Name Val Ev Mon)
  | setValue (n : Name) (v : Val) (checkFrozen : Bool) (k : Bool → Prog Name Val Ev Mon)
  | setBounds (n : Name) (b : Val × Val) (k : Bool → Prog Name Val Ev Mon)
  | freeze (n : Name) (k : Bool → Prog Name Val Ev Mon)
  | thaw (n : Name) (k : Bool → Prog Name Val Ev Mon)
  /-- `mon` evaluates the monitors from the variables, `none` if that raises. -/
  | writeEvent (e : Ev) (mon : Vars Name Val → Option Mon) (k : Bool → Prog Name Val Ev Mon)
  | writeCheckpoint (f : Nat) (k : Bool → Prog Name Val Ev Mon)

/-- An action: `run`, and `resume` if it has one (606). -/
structure Action (Name Val Ev Mon : Type) where
  run : Prog Name Val Ev Mon
  resume : Option (Ev → Prog Name Val Ev Mon)

/-- `resume` continues the current action with its `resume` method if there is an event to resume
from, and otherwise calls `run` again (604-616). -/
def Action.resumeProg (a : Action Name Val Ev Mon) (d : Option Ev) : Prog Name Val Ev Mon :=
  match d, a.resume with
  | some e, some r => r e
  | _, _ => a.run

/-- The plan object and the save folder. `writes` records the files written, most recent last
(instrumentation). -/
structure Plan (Name Val Ev Mon : Type) where
  modifiable : Bool
  save : Bool
  autorun : Bool
  counter : Nat
  actions : List (Action Name Val Ev Mon)
  ptr : Nat
  data : Option Ev
  vars : Vars Name Val
  disk : File → Option (Record Name Val Ev Mon)
  writes : List File

/-- `OptimizationPlan.__init__` (240-283) in a folder with content `disk`. -/
def Plan.new (save autorun : Bool) (disk : File → Option (Record Name Val Ev Mon)) :
    Plan Name Val Ev Mon :=
  { modifiable := false, save := save, autorun := autorun, counter := 0, actions := [], ptr := 0,
    data := none, vars := [], disk := disk, writes := [] }

/-- Writing a file. -/
def Plan.write (p : Plan Name Val Ev Mon) (f : File) (r : Record Name Val Ev Mon) :
    Plan Name Val Ev Mon :=
  { p with disk := fun g => if g = f then some r else p.disk g, writes := p.writes ++ [f] }

/-- `set_var_value` (513-522). -/
def Plan.setValue (p : Plan Name Val Ev Mon) (n : Name) (v : Val) (check : Bool) :
    Plan Name Val Ev Mon × Bool :=
  if p.modifiable then
    match getVar n p.vars with
    | none => (p, false)
    | some s =>
      if check && s.frozen then (p, false)
      else ({ p with vars := putVar n { s with value := v } p.vars }, true)
  else (p, false)

/-- `set_var_bounds` (524-527); an unknown variable is not modelled (it would create an entry that
no other method can use). -/
def Plan.setBounds (p : Plan Name Val Ev Mon) (n : Name) (b : Val × Val) :
    Plan Name Val Ev Mon × Bool :=
  if p.modifiable then
    match getVar n p.vars with
    | none => (p, false)
    | some s => ({ p with vars := putVar n { s with bounds := b } p.vars }, true)
  else (p, false)

/-- `freeze_var` / `thaw_var` (535-541), same remark. -/
def Plan.setFrozen (p : Plan Name Val Ev Mon) (n : Name) (b : Bool) :
    Plan Name Val Ev Mon × Bool :=
  if p.modifiable then
    match getVar n p.vars with
    | none => (p, false)
    | some s => ({ p with vars := putVar n { s with frozen := b } p.vars }, true)
  else (p, false)

/-- `get_thawed_vars` (543-549). -/
def Plan.thawed (p : Plan Name Val Ev Mon) : Option (List Name) :=
  if p.modifiable then some ((p.vars.filter (fun e => !e.2.frozen)).map Prod.fst) else none

/-- `write_event` (372-430). The counter is increased before the monitors are evaluated; looking
up the current action (390) raises if the plan is finished. -/
def Plan.writeEvent (p : Plan Name Val Ev Mon) (e : Ev) (mon : Vars Name Val → Option Mon) :
    Plan Name Val Ev Mon × Bool :=
  if p.modifiable then
    let p1 := { p with counter := p.counter + 1 }
    if p.ptr < p.actions.length then
      match mon p.vars with
      | none => (p1, false)
      | some m =>
        let p2 := { p1 with data := some e }
        if p.save then
          (p2.write (.step p1.counter)
            ⟨p.ptr, p.vars, some e, some m, some p1.counter⟩, true)
        else (p2, true)
    else (p1, false)
  else (p, false)

/-- `write_checkpoint` (432-449) to a file; `get_state_dict` raises if the plan is finished
(357). -/
def Plan.writeCheckpoint (p : Plan Name Val Ev Mon) (f : File) : Plan Name Val Ev Mon × Bool :=
  if p.ptr < p.actions.length then (p.write f ⟨p.ptr, p.vars, none, none, none⟩, true)
  else (p, false)

/-- `read_checkpoint` (451-470). -/
def Plan.readCheckpoint (p : Plan Name Val Ev Mon) (f : File) : Plan Name Val Ev Mon × Bool :=
  match p.disk f with
  | none => (p, false)
  | some r =>
    ({ p with ptr := r.ptr, data := r.event,
              vars := r.vars.foldl (fun vs e => putVar e.1 e.2 vs) p.vars }, true)

/-- Running the program of an action; the result tells whether it returned. -/
def runProg : Prog Name Val Ev Mon → Plan Name Val Ev Mon → Plan Name Val Ev Mon × Bool
  | .done, p => (p, true)
  | .raise, p => (p, false)
  | .getValue n k, p => runProg (k ((getVar n p.vars).map VarState.value)) p
  | .getBounds n k, p => runProg (k ((getVar n p.vars).map VarState.bounds)) p
  | .getThawed k, p => runProg (k p.thawed) p
  | .look k, p => runProg (k p.vars) p
  | .setValue n v c k, p => runProg (k (p.setValue n v c).2) (p.setValue n v c).1
  | .setBounds n b k, p => runProg (k (p.setBounds n b).2) (p.setBounds n b).1
  | .freeze n k, p => runProg (k (p.setFrozen n true).2) (p.setFrozen n true).1
  | .thaw n k, p => runProg (k (p.setFrozen n false).2) (p.setFrozen n false).1
  | .writeEvent e m k, p => runProg (k (p.writeEvent e m).2) (p.writeEvent e m).1
  | .writeCheckpoint f k, p =>
    runProg (k (p.writeCheckpoint (.user f)).2) (p.writeCheckpoint (.user f)).1

/-- Automatic checkpoint (565-568 and 618-621). -/
def Plan.autoCheckpoint (p : Plan Name Val Ev Mon) (auto : Bool) : Plan Name Val Ev Mon :=
  if auto && p.save then (p.writeCheckpoint (.action p.ptr)).1 else p

/-- `_action_ptr += 1; _action_data = None` (570-571, 623-624). -/
def Plan.advance (p : Plan Name Val Ev Mon) : Plan Name Val Ev Mon :=
  { p with ptr := p.ptr + 1, data := none }

/-- The loop of `run` (560-571) over the actions from the pointer on. -/
def runLoop (auto : Bool) : List (Action Name Val Ev Mon) → Plan Name Val Ev Mon →
    Plan Name Val Ev Mon × Bool
  | [], p => (p, true)
  | a :: as, p =>
    match runProg a.run p with
    | (p', false) => (p', false)
    | (p', true) => runLoop auto as (p'.autoCheckpoint auto).advance

/-- `run` (551-572). An exception leaves `_modifiable` set. -/
def Plan.run (p : Plan Name Val Ev Mon) (auto : Bool) : Plan Name Val Ev Mon × Bool :=
  match runLoop auto (p.actions.drop p.ptr) { p with modifiable := true } with
  | (p', false) => (p', false)
  | (p', true) => ({ p' with modifiable := false }, true)

/-- `resume` (574-627) after the optional `read_checkpoint`. An empty event counts as no event;
events here are non-empty. The final `self.run()` uses `auto_checkpoint=True`. -/
def Plan.resumeHere (p : Plan Name Val Ev Mon) (auto : Bool) : Plan Name Val Ev Mon × Bool :=
  let p1 := { p with modifiable := true }
  match p.actions[p.ptr]? with
  | none => (p1, false)
  | some a =>
    match runProg (a.resumeProg p.data) p1 with
    | (p', false) => (p', false)
    | (p', true) => ({ (p'.autoCheckpoint auto).advance with modifiable := false }).run true

def Plan.resume (p : Plan Name Val Ev Mon) (f : Option File) (auto : Bool) :
    Plan Name Val Ev Mon × Bool :=
  match f with
  | none => p.resumeHere auto
  | some f =>
    match p.readCheckpoint f with
    | (p', false) => (p', false)
    | (p', true) => p'.resumeHere auto

/-- `add_node` (482-508) for a variable with the given initial state. Other nodes do not change
the state modelled here. -/
def Plan.addVar (p : Plan Name Val Ev Mon) (n : Name) (s : VarState Val) :
    Plan Name Val Ev Mon :=
  match getVar n p.vars with
  | some _ => p
  | none => { p with vars := p.vars ++ [(n, s)] }

/-- `add_action` (472-479) (the nodes it depends on are added with `addVar`). -/
def Plan.addAction (p : Plan Name Val Ev Mon) (a : Action Name Val Ev Mon) :
    Plan Name Val Ev Mon × Bool :=
  let p' := { p with actions := p.actions ++ [a] }
  if p.autorun then p'.run true else (p', true)

/-- Calls a client can make outside of actions. -/
inductive Op (Name Val Ev Mon : Type) where
  | setValue (n : Name) (v : Val) (check : Bool)
  | setBounds (n : Name) (b : Val × Val)
  | freeze (n : Name)
  | thaw (n : Name)
  | getThawed
  | writeEvent (e : Ev) (mon : Vars Name Val → Option Mon)
  | addVar (n : Name) (s : VarState Val)
  | addAction (a : Action Name Val Ev Mon)
  | run (auto : Bool)
  | resume (f : Option File) (auto : Bool)
  | writeCheckpoint (f : Nat)
  | readCheckpoint (f : File)

/-- One call; the result tells whether it returned (`true`) or raised. -/
def step (p : Plan Name Val Ev Mon) : Op Name Val Ev Mon → Plan Name Val Ev Mon × Bool
  | .setValue n v c => p.setValue n v c
  | .setBounds n b => p.setBounds n b
  | .freeze n => p.setFrozen n true
  | .thaw n => p.setFrozen n false
  | .getThawed => (p, p.thawed.isSome)
  | .writeEvent e m => p.writeEvent e m
  | .addVar n s => (p.addVar n s, true)
  | .addAction a => p.addAction a
  | .run auto => p.run auto
  | .resume f auto => p.resume f auto
  | .writeCheckpoint f => p.writeCheckpoint (.user f)
  | .readCheckpoint f => p.readCheckpoint f

/-- A session: a sequence of calls, the client catching exceptions; the results in order. -/
def exec : List (Op Name Val Ev Mon) → Plan Name Val Ev Mon → Plan Name Val Ev Mon × List Bool
  | [], p => (p, [])
  | o :: os, p =>
    let r := step p o
    let q := exec os r.1
    (q.1, r.2 :: q.2)

end Verif.Plan
