/-
Model of spins/invdes/problem_graph/log_tools/loader.py: the data frame of all logs, and the monitor data extracted from it.

A row holds what the functions look at. Names are natural numbers. A value is `none` when it is null for pandas: not logged, `None` or
NaN (a column that does not exist at all is null in every row). The scalar operations applied at the end are not modelled.
-/
namespace Verif.Work

/-- A log file: `monitor_data` may be missing, as in checkpoints. -/
structure LogRow (Val : Type) where
  counter : Nat
  transformation : Nat
  event : Nat
  iteration : Option Nat
  monitor : Nat → Option Val

variable {Val : Type}

/-- `load_all_logs`: the files of the folder, in the order the system lists them, without those that have no monitor data (`none`).
106-130 -/
def loadAllLogs (folder : List (Option (LogRow Val))) : List (LogRow Val) := folder.filterMap id

/-- `create_log_data_frame`: the rows sorted by `log_counter`. (The sort of pandas is not stable; see `frame_unique`.) 67-103 -/
def createLogDataFrame (logs : List (LogRow Val)) : List (LogRow Val) := logs.mergeSort fun a b => decide (a.counter ≤ b.counter)

/-- `unique`: keep first occurrences. -/
def unique : List Nat → List Nat
  | [] => []
  | a :: l => a :: (unique l).filter (· ≠ a)

/-- The loop over the monitor names, for the rows of one event and transformation. 165-183 -/
def firstData (rows : List (LogRow Val)) : List Nat → Option (List Val × List Nat)
  | [] => none
  | name :: names =>
    let data := rows.filterMap fun r => r.monitor name
    let iters := (rows.filter fun r => (r.monitor name).isSome && r.iteration.isSome).filterMap fun r => r.iteration
    if data ≠ [] then some (data, iters) else firstData rows names

/-- `get_monitor_data`: the ordered dictionary. 133-184 -/
def getMonitorData (df : List (LogRow Val)) (names : List Nat) (event : Nat) : List (Nat × List Val × List Nat) :=
  let rows := df.filter fun r => r.event = event
  (unique (df.map (·.transformation))).filterMap fun tr =>
    (firstData (rows.filter fun r => r.transformation = tr) names).map fun d => (tr, d)

/-- The dictionary access `data_all[name]`. -/
def lookup (d : List (Nat × List Val × List Nat)) (tr : Nat) : Option (List Val × List Nat) :=
  (d.find? fun x => x.1 = tr).map (·.2)

/-- The inner loop of `get_single_monitor_data`, over the events. 230-244. (The list of data is not empty, so index -1 is its last.) -/
def singleEvents (df : List (LogRow Val)) (names : List Nat) (tr : Nat) (iteration : Option Nat) : List Nat → Option Val
  | [] => none
  | ev :: evs =>
    match lookup (getMonitorData df names ev) tr with
    | none => singleEvents df names tr iteration evs
    | some (data, iters) =>
      match iteration with
      | some i => if i ∈ iters then data[iters.idxOf i]? else data.getLast?
      | none => data.getLast?

/-- The outer loop, over the transformations. 229-246 -/
def singleLoop (df : List (LogRow Val)) (names : List Nat) (iteration : Option Nat) (events : List Nat) : List Nat → Option Val
  | [] => none
  | tr :: trs =>
    match singleEvents df names tr iteration events with
    | none => singleLoop df names iteration events trs
    | some v => some v

/-- `get_single_monitor_data`; `none` for the empty list. 187-246. (There are never more iterations than
data, so the index is in range.) -/
def getSingleMonitorData (df : List (LogRow Val)) (names : List Nat) (transformation iteration event : Option Nat) : Option Val :=
  let trs := match transformation with
    | some t => [t]
    | none => unique (df.map LogRow.transformation)
  let evs := match event with
    | some e => [e]
    | none => unique (df.map LogRow.event)
  singleLoop df names iteration evs.reverse trs.reverse

/-- The loop of `get_joined_scalar_monitors`; `none` for the `IndexError` of `iterations[-1]`. 324-333 -/
def joinLoop : List (Nat × List Val × List Nat) → List Val → List Nat → List Nat → Option (List Val × List Nat × List Nat)
  | [], data, changes, iters => some (data, changes, iters)
  | (_, d, i) :: rest, data, changes, iters =>
    if data.length > 0 then
      match iters.getLast? with
      | none => none
      | some last => joinLoop rest (data ++ d) (changes ++ [data.length]) (iters ++ i.map (· + last))
    else joinLoop rest (data ++ d) changes (iters ++ i)

/-- `get_joined_scalar_monitors`: data, transformation changes and iterations. 300-336 -/
def getJoinedScalarMonitors (df : List (LogRow Val)) (names : List Nat) (event : Nat) : Option (List Val × List Nat × List Nat) :=
  joinLoop (getMonitorData df names event) [] [] []

end Verif.Work
