import Verif.Far.Transform
/-
Model of `BasicScatter` of `spins/invdes/problem/ffobjective.py` 128-260: the fraction of the radiated power that goes into a region of directions.

Simplifications: the exception and the NaN are values; `DirectedPower` (23-125) is not modelled, since its constructor always fails (line 87 reads the
attribute `farfield` of the module `farfield`).
-/
namespace Verif.Far
open Matrix Verif.Fdfd

/-- What the objective returns instead of a number: a NaN, or the `NameError` of `E_background`. -/
inductive Fail
  | nan
  | nameError

/-- An entry of `points2triangles_averaging_matrix` (farfield.py 729-734): entries at the same position are added. -/
noncomputable def triWeight (t : Tri) (k : Nat) : ℝ :=
  (if t.1 = k then 1 / 3 else 0) + (if t.2.1 = k then 1 / 3 else 0) + (if t.2.2 = k then 1 / 3 else 0)

/-- `area_vector @ points2triangles @ sum_matrix` (173-187): the first block of `sum_matrix` is zero. -/
noncomputable def powerVector (m : Mesh) (area : List ℝ) : Fin 3 × Fin m.points.length → ℝ := fun q =>
  if q.1 = 0 then 0 else (List.zipWith (fun a t => a * triWeight t q.2) area m.triangles).sum

/-- The attributes of the objective. -/
structure ScatterCfg (k n : Nat) where
  proj : ToFar k n
  scattered : Fin 3 × Fin k → ℝ
  directed : Fin 3 × Fin k → ℝ

/-- The entries of `FF_cond` that say where the near field is taken. -/
inductive Near
  | box (center size : V3)
  | plane (pos width : V3)

/-- The near-to-far-field matrix (145-170). -/
noncomputable def scatterProj {sh : Shape} {k : Nat} (points : Fin k → V3) (omega : ℂ) (xyz : Fin 3 → Nat → ℝ) (d : Dxes) :
    Near → Option (ToFar k sh.size)
  | .box center size => boxToFar points omega xyz d center size 1 1 2
  | .plane pos width => nearToFar points omega xyz d ⟨pos, width, 1⟩ 1 1 2

/-- The power vectors (172-187) for a mesh; the objective uses `make_sphere_point(4)` (143). -/
noncomputable def scatterCfg {n : Nat} (m : Mesh) (proj : ToFar m.points.length n) (th ph : ℝ × ℝ) : ScatterCfg m.points.length n where
  proj := proj
  scattered := powerVector m (areaSelection m (0, Real.pi) (-Real.pi, Real.pi))
  directed := powerVector m (areaSelection m th ph)

/-- `BasicScatter._compute_objective` (141-194). -/
noncomputable def basicScatter {sh : Shape} (omega : ℂ) (xyz : Fin 3 → Nat → ℝ) (d : Dxes) (near : Near) (th ph : ℝ × ℝ) :
    Option (ScatterCfg (sphere 4).points.length sh.size) :=
  (scatterProj (sphere 4).points.get omega xyz d near).map fun t => scatterCfg (sphere 4) t th ph

/-- `vector @ np.abs(FarField)**2` (214-215, 244-245). -/
noncomputable def powerOf {k : Nat} (v : Fin 3 × Fin k → ℝ) (F : VField k) : ℝ := ∑ q, v q * ‖F q‖ ^ 2

/-- `vector @ diags(conj(FarField)) @ FF_mat` (205-206, 216-219). -/
noncomputable def powerGrad {k n : Nat} (v : Fin 3 × Fin k → ℝ) (F : VField k) (M : ToFar k n) : VField n := fun p =>
  ∑ q, (v q : ℂ) * star (F q) * M q p

/-- `BasicScatter.calculate_f` (234-255). The directed power is zero if the scattered one is, by `fraction_range`, so the quotient is then a NaN. -/
noncomputable def ScatterCfg.f {k n : Nat} (c : ScatterCfg k n) (background : Option (VField n)) (x : VField n) : Except Fail ℝ :=
  match background with
  | some _ => .error .nameError
  | none =>
    let far := c.proj *ᵥ x
    let scattered := powerOf c.scattered far
    let directed := powerOf c.directed far
    if scattered = 0 then .error .nan
    else
      let directivity := directed / scattered
      let f0 := (if directivity < 1 then 1 else 0) * (1 - directivity)
      .ok (f0 ^ 2)

/-- `BasicScatter.calculate_partial_df_dx` (196-232). -/
noncomputable def ScatterCfg.dfdx {k n : Nat} (c : ScatterCfg k n) (background : Option (VField n)) (x : VField n) : Except Fail (VField n) :=
  match background with
  | some _ => .error .nameError
  | none =>
    let far := c.proj *ᵥ x
    let scattered := powerOf c.scattered far
    let directed := powerOf c.directed far
    let dScattered := powerGrad c.scattered far c.proj
    let dDirected := powerGrad c.directed far c.proj
    if scattered = 0 then .error .nan
    else
      let directivity := directed / scattered
      let f0 := (if directivity < 1 then 1 else 0) * (1 - directivity)
      .ok fun p => 2 * (f0 : ℂ) ^ (2 - 1) * ((if directivity < 1 then 1 else 0) * (-1) *
        ((dDirected p * scattered - directed * dScattered p) / (scattered : ℂ) ^ 2))

end Verif.Far
