import Verif.Sim.Cache
/-
Specification for C50: simulations without a result cache, on array contents alone, and the callers for which a cache
must not show.
-/
namespace Verif.Sim
variable {V : Type}

/-- Contents of the caller's arrays and of the arrays returned so far. -/
structure DState (V : Type) where
  arrs : List V
  ress : List (Option V)
  outs : List (Option V)

def DState.look (s : DState V) : Var → Option V
  | .arr i => s.arrs[i]?
  | .res i => s.ress[i]?.join

def DState.ret (s : DState V) (o : Option V) : DState V := { s with ress := s.ress ++ [o], outs := s.outs ++ [o] }

def DState.put (s : DState V) (v : V) : Var → DState V
  | .arr i => { s with arrs := s.arrs.set i v }
  | .res i => match s.ress[i]?.join with
    | none => s
    | some _ => { s with ress := s.ress.set i (some v) }

/-- A simulation that solves on every call. -/
def dstep (p : Phys V) (s : DState V) : Op V → DState V
  | .new v => { s with arrs := s.arrs ++ [v] }
  | .eval x => s.ret ((s.look x).bind fun v => p.forward [some v])
  | .grad x g => s.ret ((s.look x).bind fun v => (s.look g).bind fun vg => (p.forward [some v]).bind fun e =>
      (p.adjoint [some v, some (p.source vg)]).map fun d => p.combine (some e) (some d) (some v))
  | .write x v => s.put v x

def drun (p : Phys V) (s : DState V) (ops : List (Op V)) : DState V := ops.foldl (dstep p) s

def emptyD (V : Type) : DState V := ⟨[], [], []⟩

/-- The caller does not write into arrays after passing them to the simulation, nor into arrays it got from it. -/
def Polite : List Var → List (Op V) → Prop
  | _, [] => True
  | used, .new _ :: t => Polite used t
  | used, .eval x :: t => Polite (x :: used) t
  | used, .grad x g :: t => Polite (x :: g :: used) t
  | used, .write x _ :: t => (∃ i, x = .arr i) ∧ x ∉ used ∧ Polite used t

/-- goos: a node that solves on every call; `first` is the permittivity of the first call of `eval`. -/
structure EState (V : Type) where
  arrs : List V
  ress : List (Option V)
  first : Option V
  outs : List (Option V)

def EState.look (s : EState V) : Var → Option V
  | .arr i => s.arrs[i]?
  | .res i => s.ress[i]?.join

def EState.ret (s : EState V) (o : Option V) : EState V := { s with ress := s.ress ++ [o], outs := s.outs ++ [o] }

def estep (p : GPhys V) (s : EState V) : Op V → EState V
  | .new v => { s with arrs := s.arrs ++ [v] }
  | .eval x => match s.look x with
    | none => s.ret none
    | some v => { s with first := some (s.first.getD v) }.ret (some (p.forward (s.first.getD v) v))
  | .grad x g => s.ret ((s.look x).bind fun v => (s.look g).bind fun vg => s.first.map fun f =>
      p.combine (p.adjoint f v vg) (p.forward f v) v)
  | .write x v => match x with
    | .arr i => { s with arrs := s.arrs.set i v }
    | .res i => match s.ress[i]?.join with
      | none => s
      | some _ => { s with ress := s.ress.set i (some v) }

def erun (p : GPhys V) (s : EState V) (ops : List (Op V)) : EState V := ops.foldl (estep p) s

def emptyE (V : Type) : EState V := ⟨[], [], none, []⟩

/-- Every `grad` is for the permittivity of the latest `eval` (what the graph executor does). `n` counts the arrays
made so far and `last` is the number of the array of the latest `eval`. -/
def GradAfterEval : Nat → Option Nat → List (Op V) → Prop
  | _, _, [] => True
  | n, last, .new _ :: t => GradAfterEval (n + 1) last t
  | n, _, .eval x :: t => match x with
    | .arr i => GradAfterEval n (if i < n then some i else none) t
    | .res _ => GradAfterEval n none t
  | n, last, .grad x _ :: t => (∃ i, x = .arr i ∧ last = some i) ∧ GradAfterEval n last t
  | n, last, .write _ _ :: t => GradAfterEval n last t

end Verif.Sim
