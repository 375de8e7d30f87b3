/-
Model of the plots and the summary of monitor data: spins/invdes/problem_graph/log_tools/plotter.py, and `get_monitors_by_type`,
`process_scalar`, `process_field` and `display_summary` of spins/invdes/problem_graph/log_tools/loader.py.

The data frame is the one of Logs.lean, once with complex values (scalar monitors) and once with field slices (planar monitors). What
matplotlib draws is a list of records: the axes drawn on, the curve, the dashed lines, the title. Arrays of real numbers are arrays of
complex numbers. Saving to a file and showing on the screen are not modelled.
-/
import Verif.Work.Logs
import Mathlib.Analysis.SpecialFunctions.Complex.Arg

namespace Verif.Work.Plots

open Verif.Work

/-- The exceptions that can leave these functions. -/
inductive PlotErr
  | valueError | attributeError | unboundLocal | indexError | typeError
deriving DecidableEq, Repr

/-- The fields of `JoinedMonitorDescription` that are used here. spins/invdes/problem_graph/log_tools/monitor_spec.py 37-52 -/
structure PlotDesc where
  joinerId : Nat
  monitorNames : List Nat
  monitorType : String
  scalarOperation : Option String
  vectorOperation : Option String
deriving DecidableEq

/-- The function that `process_scalar` applies to each element. `None` and the empty string are both false. `np.angle` is the principal
argument; the sign of a negative zero is not modelled. loader.py 351-365. (`lower` of Python and `toLower` differ on letters outside
ASCII, none of which lowers to a letter of these five names.) -/
noncomputable def scalarFn (op : Option String) : Except PlotErr (ℂ → ℂ) :=
  match op with
  | none => .ok fun z => z
  | some s =>
    if s = "" then .ok fun z => z
    else if s.toLower = "magnitude_squared" then .ok fun z => ((‖z‖ ^ 2 : ℝ) : ℂ)
    else if s.toLower = "magnitude" then .ok fun z => ((‖z‖ : ℝ) : ℂ)
    else if s.toLower = "phase" then .ok fun z => ((z.arg : ℝ) : ℂ)
    else if s.toLower = "real" then .ok fun z => ((z.re : ℝ) : ℂ)
    else if s.toLower = "imag" then .ok fun z => ((z.im : ℝ) : ℂ)
    else .error .valueError

/-- `process_scalar` for a list. loader.py 339-365 -/
noncomputable def processScalar (data : List ℂ) (op : Option String) : Except PlotErr (List ℂ) :=
  match scalarFn op with
  | .error e => .error e
  | .ok f => .ok (data.map f)

/-- `process_scalar` for an array with the indices `ι`. loader.py 339-365 -/
noncomputable def processArray {ι : Type} (data : ι → ℂ) (op : Option String) : Except PlotErr (ι → ℂ) :=
  match scalarFn op with
  | .error e => .error e
  | .ok f => .ok fun i => f (data i)

/-- `process_field`: `None.lower()` is an `AttributeError`; with an unknown operation `mag` is not bound. loader.py 368-394 -/
noncomputable def processField {ι : Type} (field : Fin 3 → ι → ℂ) (vectorOp scalarOp : Option String) : Except PlotErr (ι → ℂ) :=
  match vectorOp with
  | none => .error .attributeError
  | some s =>
    if s.toLower = "magnitude" then
      processArray (fun i => ((Real.sqrt (‖field 0 i‖ ^ 2 + ‖field 1 i‖ ^ 2 + ‖field 2 i‖ ^ 2) : ℝ) : ℂ)) scalarOp
    else if s.toLower = "x" then processArray (field 0) scalarOp
    else if s.toLower = "y" then processArray (field 1) scalarOp
    else if s.toLower = "z" then processArray (field 2) scalarOp
    else .error .unboundLocal

/-- The loop of `get_monitors_by_type`, with its three lists. loader.py 267-275 -/
def byTypeLoop : List PlotDesc → List PlotDesc × List PlotDesc × List PlotDesc → List PlotDesc × List PlotDesc × List PlotDesc
  | [], acc => acc
  | m :: ms, (s, p, v) =>
    if m.monitorType = "scalar" then byTypeLoop ms (s ++ [m], p, v)
    else if m.monitorType = "planar" then byTypeLoop ms (s, p ++ [m], v)
    else if m.monitorType = "volume" then byTypeLoop ms (s, p, v ++ [m])
    else byTypeLoop ms (s, p, v)

/-- `get_monitors_by_type`: scalars, planars and volumes. loader.py 249-279 -/
def getMonitorsByType (ds : List PlotDesc) : List PlotDesc × List PlotDesc × List PlotDesc := byTypeLoop ds ([], [], [])

/-- The loop of `display_summary`: what was printed, and the exception that ended it. A monitor without data has the value `[]`, or the
empty array after an operation; neither has a format. loader.py 410-416 -/
noncomputable def summaryLoop (df : List (LogRow ℂ)) : List PlotDesc → List (Nat × ℂ) × Option PlotErr
  | [] => ([], none)
  | m :: ms =>
    match scalarFn m.scalarOperation with
    | .error e => ([], some e)
    | .ok f =>
      match getSingleMonitorData df m.monitorNames none none none with
      | none => ([], some .typeError)
      | some v => ((m.joinerId, f v) :: (summaryLoop df ms).1, (summaryLoop df ms).2)

/-- `display_summary`. loader.py 397-416 -/
noncomputable def displaySummary (df : List (LogRow ℂ)) (ds : List PlotDesc) : List (Nat × ℂ) × Option PlotErr :=
  summaryLoop df (getMonitorsByType ds).1

/-- `figs_list[-1].delaxes(figs_list[-1].axes[-1])`, where a figure is the list of its axes. plotter.py 223 -/
def deleteLast (figs : List (List Nat)) : List (List Nat) :=
  match figs.getLast? with
  | none => figs
  | some f => figs.dropLast ++ [f.dropLast]

/-- `_create_figs`: each figure has `rows * cols` axes, numbered by position; the ones too many are removed from the last figure.
(`math.ceil` of the float quotient is exact for the numbers of plots that occur.) plotter.py 212-225 -/
def createFigs (numPlts rows cols : Nat) : List (List Nat) :=
  let per := rows * cols
  let figs := List.replicate ((numPlts + per - 1) / per) (List.range per)
  let extras := numPlts % per
  if extras ≠ 0 then deleteLast^[per - extras] figs else figs

/-- `axes_list`: the axes of all figures, as number of the figure and position. plotter.py 57-59, 148-150 -/
def axesList (figs : List (List Nat)) : List (Nat × Nat) :=
  figs.zipIdx.flatMap fun f => f.1.map fun a => (f.2, a)

/-- What is drawn for one scalar monitor. `final` is `none` without a title, `some none` for "No iteration data found". -/
structure Curve where
  axes : Nat × Nat
  label : Nat
  xs : List Nat
  ys : List ℂ
  lines : List Nat
  final : Option (Option ℂ)

/-- The operation of a scalar plot; without one, the real part. plotter.py 67-69 -/
def plotOp (op : Option String) : Option String :=
  match op with
  | none => some "real"
  | some s => if s = "" then some "real" else some s

/-- One turn of the loop of `plot_scalar_monitors`. `plot` of matplotlib rejects coordinates of different lengths. plotter.py 71-96 -/
noncomputable def plotScalar (df : List (LogRow ℂ)) (event : Nat) (same : Bool) (axes : List (Nat × Nat)) (num : Nat) (m : PlotDesc) :
    Except PlotErr Curve :=
  match getJoinedScalarMonitors df m.monitorNames event with
  | none => .error .indexError
  | some (data, changes, iters) =>
    match processScalar data (plotOp m.scalarOperation) with
    | .error e => .error e
    | .ok ys =>
      match axes[if same then 0 else num]? with
      | none => .error .indexError
      | some a =>
        if iters.length ≠ ys.length then .error .valueError
        else .ok ⟨a, m.joinerId, iters, ys, changes, if same then none else some ys.getLast?⟩

/-- The loop of `plot_scalar_monitors`, from the given number on. plotter.py 61-96 -/
noncomputable def plotScalarsFrom (df : List (LogRow ℂ)) (event : Nat) (same : Bool) (axes : List (Nat × Nat)) :
    Nat → List PlotDesc → Except PlotErr (List Curve)
  | _, [] => .ok []
  | num, m :: ms =>
    match plotScalar df event same axes num m with
    | .error e => .error e
    | .ok c =>
      match plotScalarsFrom df event same axes (num + 1) ms with
      | .error e => .error e
      | .ok cs => .ok (c :: cs)

/-- `plot_scalar_monitors`. plotter.py 16-109 -/
noncomputable def plotScalarMonitors (df : List (LogRow ℂ)) (ds : List PlotDesc) (event : Nat) (same : Bool) :
    Except PlotErr (List Curve) :=
  let figs := if same then createFigs 1 1 1 else createFigs ds.length 3 2
  plotScalarsFrom df event same (axesList figs) 0 ds

/-- A recorded field: the three components on an array of a shape. -/
structure FieldData where
  shape : Fin 3 → Nat
  comp : Fin 3 → (Fin 3 → Nat) → ℂ

/-- `np.squeeze(field.T)`, if two axes are left: the number of rows and columns, and the entries. Transposing reverses the axes and
squeezing removes those of size one, so of the two axes left the first counts the columns. `none` if not two axes are left.
plotter.py 168-174 -/
noncomputable def image (shape : Fin 3 → Nat) (f : (Fin 3 → Nat) → ℂ) : Option (Nat × Nat × (Nat → Nat → ℂ)) :=
  if shape 0 = 1 ∧ shape 1 ≠ 1 ∧ shape 2 ≠ 1 then some (shape 2, shape 1, fun r c => f ![0, c, r])
  else if shape 0 ≠ 1 ∧ shape 1 = 1 ∧ shape 2 ≠ 1 then some (shape 2, shape 0, fun r c => f ![c, 0, r])
  else if shape 0 ≠ 1 ∧ shape 1 ≠ 1 ∧ shape 2 = 1 then some (shape 1, shape 0, fun r c => f ![c, r, 0])
  else none

/-- What is drawn for one planar monitor; without an image the title says "No field data found". -/
structure Picture where
  axes : Nat × Nat
  label : Nat
  img : Option (Nat × Nat × (Nat → Nat → ℂ))

/-- One turn of the loop of `plot_field_data`. The data of a field monitor is a list of three arrays, which is true. plotter.py 153-183 -/
noncomputable def plotField (df : List (LogRow FieldData)) (event transformation iteration : Option Nat) (axes : List (Nat × Nat))
    (num : Nat) (m : PlotDesc) : Except PlotErr Picture :=
  match axes[num]? with
  | none => .error .indexError
  | some a =>
    match getSingleMonitorData df m.monitorNames transformation iteration event with
    | none => .ok ⟨a, m.joinerId, none⟩
    | some d =>
      match processField d.comp m.vectorOperation m.scalarOperation with
      | .error e => .error e
      | .ok f =>
        match image d.shape f with
        | none => .error .valueError
        | some i => .ok ⟨a, m.joinerId, some i⟩

/-- The loop of `plot_field_data`, from the given number on. plotter.py 152-183 -/
noncomputable def plotFieldsFrom (df : List (LogRow FieldData)) (event transformation iteration : Option Nat) (axes : List (Nat × Nat)) :
    Nat → List PlotDesc → Except PlotErr (List Picture)
  | _, [] => .ok []
  | num, m :: ms =>
    match plotField df event transformation iteration axes num m with
    | .error e => .error e
    | .ok p =>
      match plotFieldsFrom df event transformation iteration axes (num + 1) ms with
      | .error e => .error e
      | .ok ps => .ok (p :: ps)

/-- `plot_field_data`. plotter.py 112-196 -/
noncomputable def plotFieldData (df : List (LogRow FieldData)) (ds : List PlotDesc) (event transformation iteration : Option Nat) :
    Except PlotErr (List Picture) :=
  plotFieldsFrom df event transformation iteration (axesList (createFigs ds.length 2 2)) 0 ds

end Verif.Work.Plots
