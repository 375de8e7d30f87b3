import Mathlib.Logic.Function.Basic
import Mathlib.Data.List.Nodup
/-
Model of the exchange of files with a simulation server: `spins/fdfd_solvers/maxwell.py`, `upload_files` (19-36),
`download_files` (39-55) and the network part of `MaxwellSolver.solve` (230-312, 360-420).

`B` is the type of bytes. The server is a map from keys to contents; a POST stores the file under its key. The
library `requests` reads a file from its current position to its end when it builds the body of a POST. A network
call answers, or raises `ConnectionError`; a POST that raises may or may not have reached the server. Any other
exception ends the call and is not modelled. Waiting times are not modelled.
-/
namespace Verif.Sim.Server
variable {B : Type}

/-- The files of the server. -/
abbrev Store (B : Type) := String → Option (List B)

/-- An open file. -/
structure Handle (B : Type) where
  content : List B
  pos : Nat

/-- `f.read()`: what is left of the file; the position moves to the end. -/
def Handle.read (h : Handle B) : List B × Handle B := (h.content.drop h.pos, ⟨h.content, h.content.length⟩)

/-- What happens to a POST: it is answered; it gets lost; it reaches the server but the answer gets lost. The last
two raise `ConnectionError`. -/
inductive Net where
  | ok
  | lost
  | unanswered
  deriving DecidableEq

open Classical in
/-- `s[key] = data`. -/
noncomputable def Store.put (s : Store B) (key : String) (data : List B) : Store B := Function.update s key (some data)

/-- The loop of `upload_files` for one open file (24-36). The states of the server after each attempt, and, if the
loop ends, the state of the server and the rest of the schedule; `none` means that it is still trying when the
schedule ends. -/
noncomputable def uploadLoop (key : String) : List Net → Handle B → Store B → List (Store B) × Option (Store B × List Net)
  | [], _, _ => ([], none)
  | .ok :: net, h, s => ([s.put key h.read.1], some (s.put key h.read.1, net))
  | .lost :: net, h, s => (s :: (uploadLoop key net h.read.2 s).1, (uploadLoop key net h.read.2 s).2)
  | .unanswered :: net, h, s =>
      (s.put key h.read.1 :: (uploadLoop key net h.read.2 (s.put key h.read.1)).1,
        (uploadLoop key net h.read.2 (s.put key h.read.1)).2)

/-- `upload_files` (19-36): each file is opened and sent. -/
noncomputable def uploadFiles : List (String × List B) → List Net → Store B → List (Store B) × Option (Store B × List Net)
  | [], net, s => ([], some (s, net))
  | (key, c) :: fs, net, s =>
    match uploadLoop key net ⟨c, 0⟩ s with
    | (tr, none) => (tr, none)
    | (tr, some (s', net')) => (tr ++ (uploadFiles fs net' s').1, (uploadFiles fs net' s').2)

/-- The endings of the names of the files of a simulation (`write_field` 64-77; 231, 258-261). -/
def endings : List String :=
  "grid" :: (["e", "J", "m", "A"].flatMap fun p => ["x", "y", "z"].flatMap fun c => ["r", "i"].map fun q => p ++ "_" ++ c ++ q)

/-- The uploads of `solve` (263-270): the files of the upload directory in the order of `os.listdir`, then the file
that starts the simulation. -/
noncomputable def submit (fs : List (String × List B)) (request : String × List B) (net : List Net) (s : Store B) :
    List (Store B) × Option (Store B × List Net) :=
  match uploadFiles fs net s with
  | (tr, none) => (tr, none)
  | (tr, some (s', net')) => (tr ++ (uploadFiles [request] net' s').1, (uploadFiles [request] net' s').2)

/-- The answer to a GET: a status code and a page, or `ConnectionError`. -/
inductive Reply (B : Type) where
  | page (code : Nat) (content : List B)
  | error

/-- `check_existence` (279-281); `none` is the exception. -/
def exists? : Reply B → Option Bool
  | .page code _ => some (code == 200)
  | .error => none

/-- The loop that waits for the solution (283-296). The answer to the GET number `t` for a file is `answer t file`.
The number of GETs made when the loop ends; `none` if `fuel` rounds are not enough. -/
def poll (answer : Nat → String → Reply B) : Nat → Nat → Option Nat
  | 0, _ => none
  | fuel + 1, t =>
    match exists? (answer t "request") with
    | none => poll answer fuel (t + 1)
    | some true => poll answer fuel (t + 1)
    | some false =>
      match exists? (answer (t + 1) "finished") with
      | none => poll answer fuel (t + 2)
      | some true => some (t + 2)
      | some false => poll answer fuel (t + 2)

/-- The loop of `download_files` for one file (44-55): the content that is written, and the number of GETs made. -/
def downloadLoop (answer : Nat → String → Reply B) (file : String) : Nat → Nat → Option (List B × Nat)
  | 0, _ => none
  | fuel + 1, t =>
    match answer t file with
    | .page _ c => some (c, t + 1)
    | .error => downloadLoop answer file fuel (t + 1)

/-- `download_files` (39-55): the files that are written. -/
def downloadFiles (answer : Nat → String → Reply B) (fuel : Nat) : List String → Nat → Option (List (String × List B) × Nat)
  | [], t => some ([], t)
  | f :: fs, t =>
    (downloadLoop answer f fuel t).bind fun r =>
      (downloadFiles answer fuel fs r.2).map fun q => ((f, r.1) :: q.1, q.2)

/-- The options that choose what is downloaded and read. -/
structure Options where
  jacobiDavidson : Bool
  nEig : Nat
  solverInfo : Bool

/-- The endings of the files that are downloaded (298-312). -/
def downloaded (o : Options) : List String :=
  if o.jacobiDavidson then
    (["x", "y", "z"].flatMap fun c => ["r", "i"].flatMap fun q => (List.range o.nEig).map fun i => "Q" ++ toString i ++ "_" ++ c ++ q)
      ++ ["r", "i"].map fun q => "q" ++ q
  else ["x", "y", "z"].flatMap fun c => ["r", "i"].map fun q => "E_" ++ c ++ q

/-- The endings of the files that are opened to make the result (360-388, 395-413). -/
def opened (o : Options) : List String :=
  (if o.jacobiDavidson then
    (List.range o.nEig).flatMap fun i => ["x", "y", "z"].flatMap fun c => ["r", "i"].map fun q => "Q" ++ toString i ++ "_" ++ c ++ q
  else ["x", "y", "z"].flatMap fun c => ["r", "i"].map fun q => "E_" ++ c ++ q)
  ++ (if o.solverInfo then ["time_info", "status"]
      else if o.jacobiDavidson then ["qr", "qi"] else [])

end Verif.Sim.Server
