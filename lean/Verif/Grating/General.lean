import Verif.Grating.Fit
/-
Model of the discretisation of a multi-level grating, spins/goos/grating.py: `_get_general_edge_loc_dp` and the action
`GratingL2D`.

Numbers are elements of an ordered field `K` (no rounding). Feature sizes are not negative and are given per level (the code
expands a scalar to such a list). List indices that Python checks are total here (`getD`), except that the one out of range that
can happen for valid levels (a minimum feature of 0) is the result `none`.
-/
namespace Verif.Grating.General
variable {K : Type} [Field K] [LinearOrder K]

/-- The arguments of `_get_general_edge_loc_dp` with the feature sizes in grid units. grating.py 542-567 -/
structure Dp (K : Type) where
  x : List K
  depths : List K
  dMin : List Nat
  dMax : List Nat
  start : Nat
  stop : Nat
  divisions : Nat

/-- An entry of `A` and of `choices`; `none` is `(-1, -1)`. -/
abbrev Entry (K : Type) := K × Option (Nat × Nat)

/-- `2**30` -/
def big : K := 2 ^ 30

/-- `max_k`. 555 -/
def Dp.maxK (p : Dp K) : Nat := p.divisions * p.x.length

/-- `num_depths`. 553 -/
def Dp.num (p : Dp K) : Nat := p.depths.length

/-- `x[j]` -/
def Dp.px (p : Dp K) (j : Nat) : K := p.x.getD j 0

/-- `hx[a]` -/
def Dp.h (p : Dp K) (a : Nat) : K := p.depths.getD a 0

/-- `(k % divisions) / divisions`. 592 -/
def Dp.frac (p : Dp K) (k : Nat) : K := ((k % p.divisions : Nat) : K) / (p.divisions : K)

/-- `level_values[a][j]`. 569-575 -/
def Dp.levelValue (p : Dp K) (a j : Nat) : K := (flatValue p.x (p.h a)).getD j 0

/-- `next_pixel_val`. 598-599 -/
def Dp.nextPixel (p : Dp K) (k a b : Nat) : K := p.h a * p.frac k + p.h b * (1 - p.frac k)

/-- `last_pixel_val`. 619-620, 642-643 -/
def Dp.lastPixel (p : Dp K) (i prev a : Nat) : K := p.h a * (1 - p.frac i) + p.h prev * p.frac i

/-- `A[k][a][b]` and `choices[k][a][b]` -/
def read (tab : List (List (List (Entry K)))) (k a b : Nat) : Entry K :=
  ((tab.getD k []).getD a []).getD b (0, none)

/-- Possibility 1: the first edge is here. 601-607 -/
def Dp.firstVal (p : Dp K) (k a b : Nat) : K :=
  if a = p.start ∧ k ≤ p.dMax.getD p.start 0 then
    let v := p.levelValue a (k / p.divisions)
    if k / p.divisions < p.x.length then v + sqd (p.px (k / p.divisions)) (p.nextPixel k a b) * p.frac k else v
  else big

/-- Possibility 2: the value for the last edge `i` and the last level `c`. 613-627 -/
def Dp.nextVal (p : Dp K) (tab : List (List (List (Entry K)))) (k a b i c : Nat) : K :=
  let v := (read tab i c a).1 + sqd (p.px (i / p.divisions)) (p.lastPixel i c a) * (1 - p.frac i) +
    p.levelValue a (k / p.divisions) - p.levelValue a (i / p.divisions + 1)
  if k / p.divisions < p.x.length then v + sqd (p.px (k / p.divisions)) (p.nextPixel k a b) * p.frac k else v

/-- The last edges and levels that the loops go through. 611-618 -/
def Dp.lasts (p : Dp K) (k a : Nat) : List (Nat × Nat) :=
  (List.range' (k - p.dMax.getD a 0) (k + 1 - p.dMin.getD a 0 - (k - p.dMax.getD a 0))).flatMap fun i =>
    ((List.range p.num).filter fun c => c ≠ a).map fun c => (i, c)

/-- `if val < min_val: …`. 628-630 -/
def Dp.improve (p : Dp K) (tab : List (List (List (Entry K)))) (k a b : Nat) (cur : Entry K) (ic : Nat × Nat) : Entry K :=
  if p.nextVal tab k a b ic.1 ic.2 < cur.1 then (p.nextVal tab k a b ic.1 ic.2, some ic) else cur

/-- `A[k][a][b]` and `choices[k][a][b]` once row `k` is done. The entries with `a = b` keep their initial value. 577-587, 594-632 -/
def Dp.entry (p : Dp K) (tab : List (List (List (Entry K)))) (k a b : Nat) : Entry K :=
  if a = b then (if k = 0 ∧ a = p.start then 0 else big, none)
  else (p.lasts k a).foldl (p.improve tab k a b) (p.firstVal k a b, none)

/-- Row `k`. With minimum features of at least one grid unit no entry of the row reads the row itself, so it is computed from the
rows before. 594-632 -/
def Dp.row (p : Dp K) (tab : List (List (List (Entry K)))) (k : Nat) : List (List (Entry K)) :=
  (List.range p.num).map fun a => (List.range p.num).map fun b => p.entry tab k a b

/-- The first `m` rows. 590-632 -/
def Dp.rows (p : Dp K) : Nat → List (List (List (Entry K)))
  | 0 => []
  | m + 1 => p.rows m ++ [p.row (p.rows m) m]

/-- All rows. 590 -/
def Dp.table (p : Dp K) : List (List (List (Entry K))) := p.rows (p.maxK + 1)

/-- `A[k][a][end_depth_ind]` after the values were backfilled. 634-647 -/
def Dp.backfilled (p : Dp K) (k a : Nat) : K :=
  if k < p.maxK then
    if a = p.stop then big
    else (read p.table k a p.stop).1 + (sqd (p.px (k / p.divisions)) (p.lastPixel k a p.stop) * (1 - p.frac k) +
      p.levelValue p.stop p.x.length - p.levelValue p.stop (k / p.divisions + 1))
  else (read p.table k a p.stop).1

/-- The places where the loops look for the best structure. 655-656 -/
def Dp.ends (p : Dp K) : List (Nat × Nat) :=
  (List.range' (p.maxK - p.dMax.getD p.stop 0) (p.maxK + 1 - (p.maxK - p.dMax.getD p.stop 0))).flatMap fun k =>
    (List.range p.num).map fun a => (k, a)

/-- One turn of the search for the best structure. 657-660 -/
def Dp.better (p : Dp K) (cur : K × Nat × Nat) (ka : Nat × Nat) : K × Nat × Nat :=
  if p.backfilled ka.1 ka.2 < cur.1 then (p.backfilled ka.1 ka.2, ka) else cur

/-- `best_val`, `best_struct_ind` and `best_level_ind`. 649-660 -/
def Dp.best (p : Dp K) : K × Nat × Nat := p.ends.foldl p.better (big, 0, 0)

/-- The loop that backtracks: edges with the level before them, last one first. 662-674 -/
def backtrack (tab : List (List (List (Entry K)))) : Nat → Nat → Nat → Nat → List (Nat × Nat)
  | 0, _, _, _ => []
  | fuel + 1, k, a, b => (k, a) :: match (read tab k a b).2 with
    | none => []
    | some (i, c) => backtrack tab fuel i c a

/-- The loop that filters out extra levels. 681-686 -/
def dropExtra : Nat → List (K × Nat) → List (K × Nat)
  | _, [] => []
  | l, e :: es => if l = e.2 then dropExtra l es else e :: dropExtra e.2 es

/-- `final_edge_locs` and `final_levels`. 679-687 -/
def filterLevels (es : List (K × Nat)) : List (K × Nat) :=
  match es with
  | [] => []
  | e :: es => e :: dropExtra e.2 es

/-- The edges and levels that are returned. A level with a minimum feature of 0 reads `x[len(x)]` for `i = k = max_k`, which
raises. 662-687 -/
def Dp.run (p : Dp K) : Option (List (K × Nat)) :=
  if 2 ≤ p.num ∧ ((List.range p.num).any fun a => p.dMin.getD a 0 = 0) then none
  else
    let t := backtrack p.table (p.maxK + 1) p.best.2.1 p.best.2.2 p.stop
    let edges := (t.map fun ka => (ka.1 : K) / (p.divisions : K)).reverse
    let levels := (t.map Prod.snd).reverse.tail ++ [p.stop]
    some (filterLevels (edges.zip levels))

/-- `_get_general_edge_loc_dp`: `d_min` and `d_max` are rounded up and down; no maximum is `2**30`. 542-567 -/
def edgeLocs [FloorSemiring K] (x depths minFeatures : List K) (maxFeatures : Option (List K)) (start stop divisions : Nat) :
    Option (List (K × Nat)) :=
  Dp.run ⟨x, depths, minFeatures.map fun f => ⌈f * (divisions : K)⌉₊,
    (maxFeatures.getD (List.replicate depths.length big)).map fun f => ⌊f * (divisions : K)⌋₊, start, stop, divisions⟩

/-- `np.r_[edges[0], edges[1:] - edges[:-1]]`. 302 -/
def widthsFrom (a : K) : List K → List K
  | [] => []
  | b :: l => (b - a) :: widthsFrom b l

/-- What `GratingL2D.run` sets: the variable with widths or edges, its bounds (`none`: infinite) and the variable with levels. -/
structure Discrete (K : Type) where
  value : List K
  lower : List (Option K)
  upper : List (Option K)
  levels : List Nat

/-- `GratingL2D.__init__` (it raises for a feature smaller than a pixel) and `run`. The features of the discretisation are the ones
of the grating (`discr_min_features` and `discr_max_features` are `None`). 215-326 -/
def gratingL2D [FloorSemiring K] (target depths : List K) (pixel : K) (minFeatures : List K) (maxFeatures : Option (List K))
    (start stop divisions : Nat) (useEdgeLocs : Bool) : Option (Discrete K) :=
  if minFeatures.any fun f => pixel > f then none
  else (edgeLocs target depths (minFeatures.map (· / pixel)) (maxFeatures.map fun l => l.map (· / pixel)) start stop
      divisions).map fun r =>
    let edges := r.map fun e => e.1 * pixel
    let levels := r.map Prod.snd
    if useEdgeLocs then ⟨edges, edges.map fun _ => none, edges.map fun _ => none, levels⟩
    else ⟨widthsFrom 0 edges, levels.map fun l => minFeatures[l]?,
      levels.map fun l => maxFeatures.bind fun m => m[l]?, levels⟩

end Verif.Grating.General
