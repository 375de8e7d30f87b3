/-
Model of the result caches of simulations:
* `spins/invdes/problem_graph/creator_em.py`: `FdfdSimulation` (255-431),
* `spins/invdes/problem/simulation.py`: `FdfdSimulation.simulate`, `AdjointFdfdSimulation.simulate` (the same cache),
* `spins/goos_sim/maxwell/simulate.py`: `SimulateNode` (441-575).

Arrays are objects on a heap, so that the caches and the caller can share them. `V` is the type of array contents;
`np.array_equal` and `NumericFlow.__eq__` are equality of contents.
-/
namespace Verif.Sim

abbrev Ref := Nat

/-- A cache item: the arrays of the key (`cache_struc`, and `cache_source` for adjoint items) and the fields. -/
structure Entry where
  key : List Ref
  fields : Ref

/-- A variable of the caller: the `i`th array it made, or what its `i`th call returned. -/
inductive Var where
  | arr (i : Nat)
  | res (i : Nat)
  deriving DecidableEq

/-- What a caller can do: make an array, run `eval`, run `grad` with a gradient array, write into an array. -/
inductive Op (V : Type) where
  | new (v : V)
  | eval (x : Var)
  | grad (x g : Var)
  | write (x : Var) (v : V)

section
variable {V : Type}

/-- The contents of the arrays of a key. -/
def values (h : List V) (k : List Ref) : List (Option V) := k.map (fun r => h[r]?)

variable [DecidableEq V]

/-- The search loop (347-357, 393-404): on a hit the fields, and the cache without the hit entry. -/
def lruLoop (h : List V) (key : List Ref) : List (Option Entry) → Option (Ref × List (Option Entry))
  | [] => none
  | none :: t => (lruLoop h key t).map fun p => (p.1, none :: p.2)
  | some e :: t =>
    if values h e.key = values h key then some (e.fields, t)
    else (lruLoop h key t).map fun p => (p.1, some e :: p.2)

/-- `_simulate` (330-376) and `_simulate_adjoint` (378-424): new heap, new cache and the returned array. `none` is an
exception, from the solver or from `del self._cache[0]` with an empty cache; then the cache is as before. -/
def simulate (solve : List (Option V) → Option V) (h : List V) (cache : List (Option Entry)) (key : List Ref) :
    Option (List V × List (Option Entry) × Ref) :=
  match lruLoop h key cache with
  | some (f, c) => some (h, c ++ [some ⟨key, f⟩], f)
  | none =>
    match solve (values h key) with
    | none => none
    | some v =>
      match cache with
      | [] => none
      | _ :: t => some (h ++ [v], t ++ [some ⟨key, h.length⟩], h.length)

/-- The pure parts of `FdfdSimulation`: forward solve, adjoint solve, the adjoint source `conj(grad_val)/(-1j omega)`
and the combination of forward fields, adjoint fields and permittivity (319-328). -/
structure Phys (V : Type) where
  forward : List (Option V) → Option V
  adjoint : List (Option V) → Option V
  source : V → V
  combine : Option V → Option V → Option V → V

/-- The heap, the caller's variables, the two caches and the contents returned by the calls so far, at the time of
their return. -/
structure CState (V : Type) where
  heap : List V
  arrs : List Ref
  ress : List (Option Ref)
  cacheF : List (Option Entry)
  cacheA : List (Option Entry)
  outs : List (Option V)

def CState.look (s : CState V) : Var → Option Ref
  | .arr i => s.arrs[i]?
  | .res i => s.ress[i]?.join

/-- A call that raises. -/
def CState.fail (s : CState V) : CState V := { s with ress := s.ress ++ [none], outs := s.outs ++ [none] }

/-- One operation of the caller on an `FdfdSimulation` (`eval` 297-307, `grad` 309-328). -/
def cstep (p : Phys V) (s : CState V) : Op V → CState V
  | .new v => { s with heap := s.heap ++ [v], arrs := s.arrs ++ [s.heap.length] }
  | .eval x =>
    match s.look x with
    | none => s.fail
    | some r =>
      match simulate p.forward s.heap s.cacheF [r] with
      | none => s.fail
      | some (h, c, f) =>
        { s with heap := h, cacheF := c, ress := s.ress ++ [some f], outs := s.outs ++ [h[f]?] }
  | .grad x g =>
    match s.look x, s.look g with
    | some r, some q =>
      match simulate p.forward s.heap s.cacheF [r] with
      | none => s.fail
      | some (h1, cF, fE) =>
        match h1[q]? with
        | none => { s with heap := h1, cacheF := cF }.fail
        | some vg =>
          let h2 := h1 ++ [p.source vg]
          match simulate p.adjoint h2 s.cacheA [r, h1.length] with
          | none => { s with heap := h2, cacheF := cF }.fail
          | some (h3, cA, fd) =>
            let v := p.combine h3[fE]? h3[fd]? h3[r]?
            { heap := h3 ++ [v], arrs := s.arrs, ress := s.ress ++ [some h3.length], cacheF := cF, cacheA := cA,
              outs := s.outs ++ [some v] }
    | _, _ => s.fail
  | .write x v =>
    match s.look x with
    | none => s
    | some r => { s with heap := s.heap.set r v }

/-- `[None] * cache_size` (293-295). -/
def freshSim (V : Type) (n : Nat) : CState V := ⟨[], [], [], List.replicate n none, List.replicate n none, []⟩

def crun (p : Phys V) (s : CState V) (ops : List (Op V)) : CState V := ops.foldl (cstep p) s

/-! ### goos -/

/-- The pure parts of `SimulateNode`. The first argument of each is the permittivity of the first simulation: waveguide
mode sources, dipole sources and overlap modes are computed then and kept (`before_sim`, 137-153, 180-194, 313-331).
Simplification: the solver does not raise. -/
structure GPhys (V : Type) where
  forward : V → V → V
  adjoint : V → V → V → V
  combine : V → V → V → V

/-- A `SimulateNode` and its caller. `eval` returns the fields (`ElectricField`, 285-300, hands out the array itself);
overlaps are functions of them. -/
structure GState (V : Type) where
  heap : List V
  arrs : List Ref
  ress : List (Option Ref)
  first : Option V
  last : Option (Ref × Ref)
  outs : List (Option V)

def GState.look (s : GState V) : Var → Option Ref
  | .arr i => s.arrs[i]?
  | .res i => s.ress[i]?.join

def GState.fail (s : GState V) : GState V := { s with ress := s.ress ++ [none], outs := s.outs ++ [none] }

/-- The test of line 503: is there a last permittivity with the contents of the new one? -/
def GState.hit (s : GState V) (v : V) : Option Ref :=
  match s.last with
  | none => none
  | some (re, rf) => if s.heap[re]? = some v then some rf else none

/-- One operation of the caller on a `SimulateNode` (`eval` 494-540, `grad` 542-575). -/
def gstep (p : GPhys V) (s : GState V) : Op V → GState V
  | .new v => { s with heap := s.heap ++ [v], arrs := s.arrs ++ [s.heap.length] }
  | .eval x =>
    match s.look x with
    | none => s.fail
    | some r =>
      match s.heap[r]? with
      | none => s.fail
      | some v =>
        match s.hit v with
        | some rf => { s with ress := s.ress ++ [some rf], outs := s.outs ++ [s.heap[rf]?] }
        | none =>
          let f := s.first.getD v
          let fields := p.forward f v
          { heap := s.heap ++ [fields], arrs := s.arrs, ress := s.ress ++ [some s.heap.length], first := some f,
            last := some (r, s.heap.length), outs := s.outs ++ [some fields] }
  | .grad x g =>
    match (s.look x).bind (fun r => s.heap[r]?), (s.look g).bind (fun r => s.heap[r]?), s.first,
        s.last.bind (fun l => s.heap[l.2]?) with
    | some v, some vg, some f, some fields =>
      let v' := p.combine (p.adjoint f v vg) fields v
      { s with heap := s.heap ++ [v'], ress := s.ress ++ [some s.heap.length], outs := s.outs ++ [some v'] }
    | _, _, _, _ => s.fail
  | .write x v =>
    match s.look x with
    | none => s
    | some r => { s with heap := s.heap.set r v }

def freshNode (V : Type) : GState V := ⟨[], [], [], none, none, []⟩

def grun (p : GPhys V) (s : GState V) (ops : List (Op V)) : GState V := ops.foldl (gstep p) s

end
end Verif.Sim
