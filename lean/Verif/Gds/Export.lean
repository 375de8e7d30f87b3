/-
Model of `gen_gds`, spins/gds/gen_gds.py: how nested contours are turned into regions with holes. A polygon or set of polygons is the
set of its points; `gdspy.inside` is membership and `gdspy.boolean(.., "not")` is set difference, both exact. (`gdspy.boolean` returns
`None` for an empty difference; this is not modelled.) The conversion from nanometers to microns and writing the file are not modelled.
-/
namespace Verif.Gds

/-- The points of a polygon. -/
abbrev Region (Pt : Type) := Pt → Bool

variable {Pt : Type}

/-- `gds_polygons` and `test_points`, two lists of the same length. 31-39 -/
abbrev Polys (Pt : Type) := List (Region Pt × Pt)

/-- Whether polygon `i` contains the test point of polygon `j`. 44-45 -/
def inside (st : Polys Pt) (i j : Nat) : Bool :=
  match st[i]?, st[j]? with
  | some p, some q => p.1 q.2
  | _, _ => false

/-- An entry of `containment_mx`, the identity subtracted. 43-49 -/
def entry (st : Polys Pt) (i j : Nat) : Int := (if inside st i j then 1 else 0) - (if i = j then 1 else 0)

/-- An entry of `overlap_list`. 51 -/
def overlap (st : Polys Pt) (i : Nat) : Int := ((List.range st.length).map (entry st i)).sum

/-- `np.where(overlap_list == overlap_num)[0]`. 69, 103 -/
def targets (st : Polys Pt) (num : Nat) : List Nat := (List.range st.length).filter fun i => overlap st i = (num : Int)

/-- `np.nonzero(containment_mx[i, :])[0]`. 75 -/
def containmentList (st : Polys Pt) (i : Nat) : List Nat := (List.range st.length).filter fun j => entry st i j ≠ 0

/-- The difference of a polygon and all polygons of a list. -/
def boolNot (p : Region Pt) (rs : List (Region Pt)) : Region Pt := fun x => p x && !(rs.any fun r => r x)

/-- One polygon of the loop: subtract the polygons it contains, and remove these. `none` if one of them was already removed
(`AttributeError`). 74-91 -/
def processOne (st : Polys Pt) (polys : List (Option (Region Pt))) (i : Nat) : Option (List (Option (Region Pt))) :=
  match (containmentList st i).mapM (fun j => polys.getD j none) with
  | none => none
  | some rs =>
    some ((polys.set i ((polys.getD i none).map fun p => boolNot p rs)).mapIdx fun j q =>
      if j ∈ containmentList st i then none else q)

/-- Deleting the removed polygons and their test points. 93-96 -/
def compact (polys : List (Option (Region Pt))) (points : List Pt) : Polys Pt :=
  (polys.zip points).filterMap fun x => x.1.map fun r => (r, x.2)

/-- One pass over all polygons of the given overlap number, the last first. 74-96 -/
def pass (st : Polys Pt) (num : Nat) : Option (Polys Pt) :=
  match (targets st num).reverse.foldlM (processOne st) (st.map fun x => some x.1) with
  | none => none
  | some polys => some (compact polys (st.map fun x => x.2))

/-- How a loop ended: still running, with an exception, or done. -/
inductive Result (α : Type) where
  | running : Result α
  | raised : Result α
  | done : α → Result α

/-- The inner loop. 70-103 -/
def inner : Nat → Polys Pt → Nat → Result (Polys Pt)
  | 0, _, _ => .running
  | fuel + 1, st, num =>
    if targets st num = [] then .done st
    else match pass st num with
      | none => .raised
      | some st' => inner fuel st' num

/-- The outer loop. 53-103 -/
def outer : Nat → Polys Pt → Nat → Result (Polys Pt)
  | 0, _, _ => .running
  | fuel + 1, st, num =>
    if ((List.range st.length).map (overlap st)).sum = 0 then .done st
    else match inner (fuel + 1) st (num + 1) with
      | .running => .running
      | .raised => .raised
      | .done st' => outer fuel st' (num + 1)

/-- `gen_gds`: the regions written, for contours given with their first points. 12-112 -/
def genGds (fuel : Nat) (contours : Polys Pt) (extra : List (Region Pt)) (deembed : Bool) : Result (List (Region Pt)) :=
  if deembed then
    match outer fuel contours 0 with
    | .running => .running
    | .raised => .raised
    | .done st => .done (st.map (fun x => x.1) ++ extra)
  else .done (contours.map (fun x => x.1) ++ extra)

end Verif.Gds
