import Verif.Opt.Problems
import Mathlib.Analysis.Calculus.Deriv.Pow
import Mathlib.Analysis.Calculus.Deriv.MeanValue
import Mathlib.Analysis.Real.Sqrt
import Mathlib.Tactic.LinearCombination
import Mathlib.Tactic.Positivity
import Mathlib.Tactic.NormNum
/-
C89: the benchmark problems return their optimum.
-/
namespace Verif.Opt.Problems
open Verif.Obj

/-! ### Specification -/

/-- A point the optimizer may visit and that satisfies the constraints: as many entries as the start, all within the
bounds of the parametrization, every equality constraint zero, no inequality constraint positive. -/
def Problem.Feasible (P : Problem) (x : Val) : Prop :=
  x.length = P.start.length ∧ (∀ a ∈ x, P.lo ≤ a ∧ a ≤ P.hi) ∧
    ∃ eq ineq : List Val, P.constraints x = some (eq, ineq) ∧ (∀ v ∈ eq, v = [0]) ∧ ∀ v ∈ ineq, ∃ c ≤ 0, v = [c]

/-- The objective at `x` is the number `v`. -/
def Problem.Objective (P : Problem) (x : Val) (v : ℝ) : Prop := P.eval P.obj x = some [v]

/-- `s` is feasible and the objective is larger at every other feasible point. -/
def Problem.UniqueMinimum (P : Problem) (s : Val) : Prop :=
  P.Feasible s ∧ ∃ m, P.Objective s m ∧ ∀ x, P.Feasible x → x ≠ s → ∃ v, P.Objective x v ∧ m < v

/-! ### Evaluation -/

theorem bc_one (f : ℝ → ℝ → ℝ) (a b : ℝ) : bc f [a] [b] = some [f a b] := by simp [bc, bshape, bget]

theorem bc_two (f : ℝ → ℝ → ℝ) (a b c d : ℝ) : bc f [a, b] [c, d] = some [f a c, f b d] := by
  simp [bc, bshape, bget, List.range_succ]

theorem one_entry {x : Val} (h : x.length = 1) : ∃ a, x = [a] := List.length_eq_one_iff.1 h

theorem two_entries {x : Val} (h : x.length = 2) : ∃ a b, x = [a, b] := List.length_eq_two.1 h

theorem quadratic_value (x : ℝ) : singleVariableQuadratic.Objective [x] (x ^ 2 - 4 * x + 1) := by
  simp [Problem.Objective, Problem.eval, singleVariableQuadratic, allSome, Leaf.value, invdesEval, evalFn, evalFns, npSum,
    npProd, bc_one]
  ring

theorem quartic_value (P : Problem) (inst : Int) (h : singleVariableQuartic inst = some P) (x : ℝ) :
    P.Objective [x] ((x - 2) * (x - 3) * (x + 1) ^ 2) := by
  simp only [singleVariableQuartic] at h
  split_ifs at h <;> cases h <;>
    (simp [Problem.Objective, Problem.eval, quarticObj, allSome, Leaf.value, invdesEval, evalFn, evalFns, npSum,
      npProd, bc_one]; ring)

theorem two_variable_value (x y : ℝ) :
    twoVariableQuadratic.Objective [x, y] (x ^ 2 + 2 * y ^ 2 - 5 * y - 2 * x * y) := by
  simp [Problem.Objective, Problem.eval, twoVariableQuadratic, allSome, Leaf.value, invdesEval, evalFn, evalFns, npSum,
    npProd, bc_one]
  ring

theorem rosenbrock_value (a b x y : ℝ) :
    (rosenbrock a b).Objective [x, y] ((a - x) ^ 2 + b * (y - x ^ 2) ^ 2) := by
  simp [Problem.Objective, Problem.eval, rosenbrock, xMinusA, yMinusX2, allSome, Leaf.value, invdesEval, evalFn, evalFns,
    npSum, npProd, bc_one]
  ring

/-- A problem without constraints. -/
theorem free_feasible {P : Problem} (he : P.consEq = []) (hi : P.consIneq = []) (x : Val) :
    P.Feasible x ↔ x.length = P.start.length ∧ ∀ a ∈ x, P.lo ≤ a ∧ a ≤ P.hi := by
  constructor
  · exact fun h => ⟨h.1, h.2.1⟩
  · exact fun h => ⟨h.1, h.2, [], [], by simp [Problem.constraints, he, hi, allSome], by simp, by simp⟩

/-! ### Problems without constraints -/

/-- `x² - 4x + 1` with bounds is smallest at 2, and nowhere else. -/
theorem quadratic_optimum : singleVariableQuadratic.UniqueMinimum singleVariableQuadratic.optimum := by
  refine ⟨(free_feasible rfl rfl _).2 ⟨rfl, ?_⟩, _, quadratic_value 2, ?_⟩
  · simp [singleVariableQuadratic]
    norm_num
  · intro x hx hne
    obtain ⟨a, rfl⟩ := one_entry hx.1
    refine ⟨_, quadratic_value a, ?_⟩
    have : a - 2 ≠ 0 := fun h => hne (by rw [sub_eq_zero.1 h]; rfl)
    have := pow_pos (abs_pos.2 this) 2
    rw [sq_abs] at this
    linarith [this, sq_nonneg (a - 2), show (a - 2) ^ 2 = a ^ 2 - 4 * a + 4 by ring]

theorem root57 : 7 < √57 ∧ √57 < 8 ∧ √57 ^ 2 = 57 :=
  ⟨by rw [Real.lt_sqrt] <;> norm_num, by rw [Real.sqrt_lt'] <;> norm_num, Real.sq_sqrt (by norm_num)⟩

/-- `(x-2)(x-3)(x+1)²` is smallest at the optimum of instance 0, and nowhere else. -/
theorem quartic_global (P : Problem) (h : singleVariableQuartic 0 = some P) : P.UniqueMinimum P.optimum := by
  have hv := quartic_value P 0 h
  simp only [singleVariableQuartic, if_true, Option.some.injEq] at h
  obtain ⟨h1, h2, h3⟩ := root57
  subst h
  refine ⟨(free_feasible rfl rfl _).2 ⟨rfl, ?_⟩, _, hv _, ?_⟩
  · intro a ha
    simp only [List.mem_singleton] at ha
    subst ha
    constructor <;> simp only <;> linarith
  · intro x hx hne
    obtain ⟨a, rfl⟩ := one_entry hx.1
    refine ⟨_, hv a, ?_⟩
    have hn : a - (13 + √57) / 8 ≠ 0 := fun e => hne (by rw [sub_eq_zero.1 e])
    generalize hr : (13 + √57) / 8 = r at *
    have hq : 4 * r ^ 2 = 13 * r - 7 := by rw [← hr]; linear_combination (1 / 16) * h3
    have h5 : 5 / 2 < r := by rw [← hr]; linarith
    have key : (a - 2) * (a - 3) * (a + 1) ^ 2 - (r - 2) * (r - 3) * (r + 1) ^ 2 =
        (a - r) ^ 2 * ((a + (2 * r - 3) / 2) ^ 2 + (14 * r - 35) / 4) := by
      linear_combination ((a - r) * (1 + r) + (a - r) ^ 2 / 2) * hq
    have : 0 < (a - r) ^ 2 * ((a + (2 * r - 3) / 2) ^ 2 + (14 * r - 35) / 4) :=
      mul_pos (by positivity) (by nlinarith [sq_nonneg (a + (2 * r - 3) / 2)])
    linarith

/-- The optimum of instance 1 is smaller than all other points to the left of 2, so it is a local minimum; but it is not
the smallest value. -/
theorem quartic_local (P : Problem) (h : singleVariableQuartic 1 = some P) :
    P.Feasible P.optimum ∧ P.Objective P.optimum 0 ∧
    (∀ x, x < 2 → [x] ≠ P.optimum → ∃ v, P.Objective [x] v ∧ 0 < v) ∧ ¬ P.UniqueMinimum P.optimum := by
  have hv := quartic_value P 1 h
  simp only [singleVariableQuartic, show ¬ (1 : Int) = 0 by decide, if_false, if_true, Option.some.injEq] at h
  have h0 : P.Objective P.optimum 0 := by
    have := hv (-1)
    subst h
    simpa using this
  refine ⟨?_, h0, ?_, ?_⟩
  · subst h
    exact (free_feasible rfl rfl _).2 ⟨rfl, by simp; norm_num⟩
  · intro x hx hne
    refine ⟨_, hv x, ?_⟩
    have hn : x + 1 ≠ 0 := fun e => hne (by subst h; simp only [List.cons.injEq, and_true]; linarith)
    have : 0 < (x + 1) ^ 2 := by positivity
    nlinarith [mul_pos (mul_pos (show 0 < 2 - x by linarith) (show 0 < 3 - x by linarith)) this]
  · rintro ⟨_, m, hm, hall⟩
    rw [Problem.Objective, h0] at hm
    simp only [Option.some.injEq, List.cons.injEq, and_true] at hm
    obtain ⟨v, hv', hlt⟩ := hall [5 / 2] (by
      subst h
      exact (free_feasible rfl rfl _).2 ⟨rfl, by simp; norm_num⟩) (by subst h; simp; norm_num)
    have := hv (5 / 2)
    rw [Problem.Objective, hv'] at this
    simp only [Option.some.injEq, List.cons.injEq, and_true] at this
    rw [← hm, this] at hlt
    norm_num at hlt

theorem quartic_deriv (x : ℝ) : HasDerivAt (fun x : ℝ => (x - 2) * (x - 3) * (x + 1) ^ 2)
    ((x + 1) * (4 * x ^ 2 - 13 * x + 7)) x := by
  have := (((hasDerivAt_id x).sub_const 2).mul ((hasDerivAt_id x).sub_const 3)).mul (((hasDerivAt_id x).add_const 1).pow 2)
  refine this.congr_deriv ?_
  simp
  ring

/-- From the start of instance 0 the objective falls all the way to its optimum, and likewise for instance 1: each start
lies in the valley of its optimum. -/
theorem quartic_starts :
    (∃ P, singleVariableQuartic 0 = some P ∧ P.start = [1] ∧
      StrictAntiOn (fun x : ℝ => (x - 2) * (x - 3) * (x + 1) ^ 2) (Set.Icc 1 ((13 + √57) / 8))) ∧
    (∃ P, singleVariableQuartic 1 = some P ∧ P.start = [0] ∧
      StrictMonoOn (fun x : ℝ => (x - 2) * (x - 3) * (x + 1) ^ 2) (Set.Icc (-1) 0)) := by
  obtain ⟨h1, h2, h3⟩ := root57
  refine ⟨⟨_, rfl, rfl, ?_⟩, ⟨_, rfl, rfl, ?_⟩⟩
  · refine strictAntiOn_of_deriv_neg (convex_Icc _ _)
      (fun x _ => (quartic_deriv x).continuousAt.continuousWithinAt) ?_
    intro x hx
    rw [interior_Icc] at hx
    rw [(quartic_deriv x).deriv]
    have ha := hx.1
    have hb := hx.2
    have : 4 * x ^ 2 - 13 * x + 7 = 4 * (x - (13 + √57) / 8) * (x - (13 - √57) / 8) := by
      linear_combination (1 / 16) * h3
    rw [this]
    have p := mul_pos (mul_pos (show 0 < x + 1 by linarith) (show 0 < (13 + √57) / 8 - x by linarith))
      (show 0 < x - (13 - √57) / 8 by linarith)
    nlinarith
  · refine strictMonoOn_of_deriv_pos (convex_Icc _ _)
      (fun x _ => (quartic_deriv x).continuousAt.continuousWithinAt) ?_
    intro x hx
    rw [interior_Icc] at hx
    rw [(quartic_deriv x).deriv]
    exact mul_pos (by linarith [hx.1]) (by nlinarith [hx.1, hx.2, sq_nonneg x])

/-- `x² + 2y² - 5y - 2xy` is smallest at the optimum, and nowhere else. -/
theorem two_variable_optimum : twoVariableQuadratic.UniqueMinimum twoVariableQuadratic.optimum := by
  refine ⟨(free_feasible rfl rfl _).2 ⟨rfl, ?_⟩, _, two_variable_value _ _, ?_⟩
  · simp [twoVariableQuadratic]
    norm_num
  · intro x hx hne
    obtain ⟨a, b, rfl⟩ := two_entries hx.1
    refine ⟨_, two_variable_value a b, ?_⟩
    have : 0 < (a - b) ^ 2 + (b - 5 / 2) ^ 2 := by
      by_contra hle
      have h1 : (a - b) ^ 2 = 0 := by nlinarith [sq_nonneg (a - b), sq_nonneg (b - 5 / 2)]
      have h2 : (b - 5 / 2) ^ 2 = 0 := by nlinarith [sq_nonneg (a - b), sq_nonneg (b - 5 / 2)]
      have h1 := pow_eq_zero_iff (two_ne_zero) |>.1 h1
      have h2 := pow_eq_zero_iff (two_ne_zero) |>.1 h2
      have hb : b = 5 / 2 := by linarith
      have ha : a = 5 / 2 := by linarith
      exact hne (by rw [ha, hb]; rfl)
    nlinarith

/-- The Rosenbrock function is smallest at `(a, a²)`, and nowhere else, if `b` is positive and that point lies within the
bounds. The full claim is for every `a` and `b > 0`; it fails (`rosenbrock_optimum_false`). -/
theorem rosenbrock_optimum_partial (a b : ℝ) (hb : 0 < b) (ha : a ^ 2 ≤ 10) :
    (rosenbrock a b).UniqueMinimum (rosenbrock a b).optimum := by
  have hab : -10 ≤ a ∧ a ≤ 10 := abs_le.1 (abs_le_of_sq_le_sq (by nlinarith) (by norm_num))
  refine ⟨(free_feasible rfl rfl _).2 ⟨rfl, ?_⟩, _, rosenbrock_value a b _ _, ?_⟩
  · simp only [rosenbrock, List.mem_cons, List.not_mem_nil, or_false, forall_eq_or_imp, forall_eq]
    exact ⟨hab, by nlinarith [sq_nonneg a], ha⟩
  · intro x hx hne
    obtain ⟨c, d, rfl⟩ := two_entries hx.1
    refine ⟨_, rosenbrock_value a b c d, ?_⟩
    have h0 : (a - a) ^ 2 + b * (a ^ 2 - a ^ 2) ^ 2 = 0 := by ring
    rw [h0]
    by_cases h : a = c
    · have hd : d - c ^ 2 ≠ 0 := fun e => hne (by rw [sub_eq_zero.1 e, ← h]; rfl)
      have : 0 < b * (d - c ^ 2) ^ 2 := mul_pos hb (by positivity)
      linarith [sq_nonneg (a - c)]
    · have : a - c ≠ 0 := sub_ne_zero.2 h
      have : 0 < (a - c) ^ 2 := by positivity
      linarith [mul_nonneg hb.le (sq_nonneg (d - c ^ 2))]

/-- With `a = 4` the point returned as the optimum lies outside the bounds of the returned parametrization: no optimizer
that respects them can reach it. -/
theorem rosenbrock_optimum_false : ¬ (rosenbrock 4 100).Feasible (rosenbrock 4 100).optimum := by
  intro h
  have := (h.2.1 (4 ^ 2) (by simp [rosenbrock])).2
  simp only [rosenbrock] at this
  norm_num at this

/-! ### Problems with constraints -/

theorem sphere_value (r c d x y : ℝ) :
    Leaf.value [x, y] (.sphere r [c, d]) = some [r ^ 2 - ((x - c) ^ 2 + (y - d) ^ 2)] := by
  simp [Leaf.value, bc_two, onesDot]

theorem negated_eq (i : Nat) : negated i = some (.prod [.leaf i, .const [-1]]) := by simp [negated, iNeg, iMul]

/-- The constraint functions of the two problems with circles. -/
theorem circle_constraints (o : Leaf) (x y v : ℝ) (ho : o.value [x, y] = some [v]) (P : Problem)
    (hP : P.leaves = circleLeaves o) :
    P.eval (.leaf 0) [x, y] = some [v] ∧
    P.eval (.prod [.leaf 1, .const [-1]]) [x, y] = some [x ^ 2 + y ^ 2 - 1] ∧
    P.eval (.prod [.leaf 2, .const [-1]]) [x, y] = some [(x - 1) ^ 2 + y ^ 2 - 1] := by
  simp only [Problem.eval, hP, circleLeaves, List.map_cons, List.map_nil, ho, sphere_value, allSome, Option.bind_some,
    Option.map_some, invdesEval, evalFn, evalFns, npProd, if_true, List.foldlM_cons, List.foldlM_nil, bc_one,
    Option.bind_eq_bind, List.getD_cons_succ, List.getD_cons_zero, Option.pure_def, true_and]
  constructor <;> · congr 2; ring

theorem plane_value (x y : ℝ) : Leaf.value [x, y] .plane = some [-x - y] := by
  simp [Leaf.value]
  ring

theorem quad_value (c d x y : ℝ) : Leaf.value [x, y] (.quad [c, d]) = some [(x - c) ^ 2 + (y - d) ^ 2] := by
  simp [Leaf.value, bc_two, onesDot]

/-- Feasibility when the two constraint lists have known values. -/
theorem feasible_iff {P : Problem} {x : Val} {eq ineq : List ℝ}
    (h1 : (P.consEq.map fun f => P.eval f x) = eq.map fun c => some [c])
    (h2 : (P.consIneq.map fun f => P.eval f x) = ineq.map fun c => some [c]) :
    P.Feasible x ↔ x.length = P.start.length ∧ (∀ a ∈ x, P.lo ≤ a ∧ a ≤ P.hi) ∧ (∀ c ∈ eq, c = 0) ∧
      ∀ c ∈ ineq, c ≤ 0 := by
  have all : ∀ l : List ℝ, allSome (l.map fun c => some [c]) = some (l.map fun c => [c]) := by
    intro l
    induction l with
    | nil => rfl
    | cons a l ih => simp [allSome, ih]
  have hlen : P.consEq.length = (eq.map fun c => [c]).length := by
    have := congrArg List.length h1
    simpa using this
  have hc : P.constraints x = some (eq.map fun c => [c], ineq.map fun c => [c]) := by
    rw [Problem.constraints, List.map_append, h1, h2, ← List.map_append, all, Option.map_some, List.map_append, hlen,
      List.take_left, List.drop_left]
  unfold Problem.Feasible
  rw [hc]
  constructor
  · rintro ⟨h1, h2, e, i, h, he, hi⟩
    simp only [Option.some.injEq, Prod.mk.injEq] at h
    obtain ⟨rfl, rfl⟩ := h
    refine ⟨h1, h2, fun c hc => ?_, fun c hc => ?_⟩
    · simpa using he [c] (List.mem_map.2 ⟨c, hc, rfl⟩)
    · obtain ⟨d, hd, e⟩ := hi [c] (List.mem_map.2 ⟨c, hc, rfl⟩)
      simp only [List.cons.injEq, and_true] at e
      exact e ▸ hd
  · rintro ⟨h1, h2, he, hi⟩
    refine ⟨h1, h2, _, _, rfl, ?_, ?_⟩
    · intro v hv
      obtain ⟨c, hc, rfl⟩ := List.mem_map.1 hv
      rw [he c hc]
    · intro v hv
      obtain ⟨c, hc, rfl⟩ := List.mem_map.1 hv
      exact ⟨c, hi c hc, rfl⟩

/-- `-x - y` on the unit circle, within the unit disc around `(1, 0)`: the optimum is right and unique. -/
theorem linear_optimum0 (P : Problem) (h : constrainedLinear 0 = some P) : P.UniqueMinimum P.optimum := by
  simp only [constrainedLinear, negated_eq, Option.bind_some, if_true, Option.some.injEq] at h
  have key := fun x y : ℝ => circle_constraints .plane x y _ (plane_value x y) P (by rw [← h])
  have feas := fun x y : ℝ => feasible_iff (P := P) (x := [x, y]) (eq := [x ^ 2 + y ^ 2 - 1])
    (ineq := [(x - 1) ^ 2 + y ^ 2 - 1]) (by have := (key x y).2.1; subst h; simp only [List.map_cons, List.map_nil, this])
    (by have := (key x y).2.2; subst h; simp only [List.map_cons, List.map_nil, this])
  have obj : ∀ x y : ℝ, P.Objective [x, y] (-x - y) := fun x y => by
    have := (key x y).1
    subst h
    exact this
  have hs : (1 / √2) ^ 2 = 1 / 2 := by rw [div_pow, Real.sq_sqrt (by norm_num)]; norm_num
  have hp : 0 < 1 / √2 := by positivity
  have hlt : 1 / 2 < 1 / √2 := by
    rw [one_div_lt_one_div (by norm_num) (by positivity), Real.sqrt_lt' (by norm_num)]; norm_num
  have hopt : P.optimum = [1 / √2, 1 / √2] := by rw [← h]
  rw [hopt]
  generalize 1 / √2 = s at *
  refine ⟨(feas _ _).2 ?_, _, obj _ _, ?_⟩
  · have : s ≤ 1 := by nlinarith
    subst h
    simp only [List.length_cons, List.length_nil, List.mem_cons, List.not_mem_nil, or_false, forall_eq_or_imp, forall_eq,
      true_and]
    refine ⟨⟨⟨by linarith, this⟩, by linarith, this⟩, by linarith, by nlinarith⟩
  · intro x hx hne
    obtain ⟨a, b, rfl⟩ := two_entries (hx.1.trans (by rw [← h]; rfl))
    obtain ⟨_, _, he, hi⟩ := (feas a b).1 hx
    have he := he _ (List.mem_singleton.2 rfl)
    refine ⟨_, obj a b, ?_⟩
    by_contra hge
    have h1 : (a - b) ^ 2 = 0 := by nlinarith [sq_nonneg (a - b), sq_nonneg (a + b - 2 * s)]
    have h1 := pow_eq_zero_iff (two_ne_zero) |>.1 h1
    have hb : b = a := by linarith
    subst hb
    have : (b - s) * (b + s) = 0 := by linear_combination (1 / 2) * he - hs
    rcases mul_eq_zero.1 this with e | e
    · exact hne (by rw [sub_eq_zero.1 e])
    · linarith

/-- `-x - y` on the unit circle around `(1, 0)`, within the unit disc: the optimum is right and unique. -/
theorem linear_optimum1 (P : Problem) (h : constrainedLinear 1 = some P) : P.UniqueMinimum P.optimum := by
  simp only [constrainedLinear, negated_eq, Option.bind_some, show ¬ (1 : Int) = 0 by decide, if_false, if_true,
    Option.some.injEq] at h
  have key := fun x y : ℝ => circle_constraints .plane x y _ (plane_value x y) P (by rw [← h])
  have feas := fun x y : ℝ => feasible_iff (P := P) (x := [x, y]) (eq := [(x - 1) ^ 2 + y ^ 2 - 1])
    (ineq := [x ^ 2 + y ^ 2 - 1]) (by simp [← h]; rw [h]; exact (key x y).2.2) (by simp [← h]; rw [h]; exact (key x y).2.1)
  have obj : ∀ x y : ℝ, P.Objective [x, y] (-x - y) := fun x y => by
    have := (key x y).1
    subst h
    exact this
  have hs : √(1 - 0.5 ^ 2) ^ 2 = 3 / 4 := by rw [Real.sq_sqrt (by norm_num)]; norm_num
  have hp : 0 < √(1 - 0.5 ^ 2) := Real.sqrt_pos.2 (by norm_num)
  have hopt : P.optimum = [0.5, √(1 - 0.5 ^ 2)] := by rw [← h]
  rw [hopt]
  generalize √(1 - 0.5 ^ 2) = s at *
  norm_num at hopt ⊢
  refine ⟨(feas _ _).2 ?_, _, obj _ _, ?_⟩
  · have : s ≤ 1 := by nlinarith
    subst h
    simp only [List.length_cons, List.length_nil, List.mem_cons, List.not_mem_nil, or_false, forall_eq_or_imp, forall_eq,
      true_and]
    refine ⟨⟨⟨by norm_num, by norm_num⟩, by linarith, this⟩, by linarith, by linarith⟩
  · intro x hx hne
    obtain ⟨a, b, rfl⟩ := two_entries (hx.1.trans (by rw [← h]; rfl))
    obtain ⟨_, _, he, hi⟩ := (feas a b).1 hx
    have he := he _ (List.mem_singleton.2 rfl)
    have hi := hi _ (List.mem_singleton.2 rfl)
    refine ⟨_, obj a b, ?_⟩
    have ha : a ≤ 1 / 2 := by linarith
    have hb : b ≤ s := by
      refine (abs_le_of_sq_le_sq (a := b) (b := s) ?_ hp.le).trans' (le_abs_self b)
      nlinarith
    rcases ha.lt_or_eq with h1 | h1
    · linarith
    · rcases hb.lt_or_eq with h2 | h2
      · linarith
      · exact absurd (by rw [h1, h2]) hne

/-- `(x + 1/2)² + y²` on the unit circle around `(1, 0)`, within the unit disc. -/
theorem quadratic_circle (P : Problem) (inst : Int) (hi : inst = 0 ∨ inst = 1)
    (h : constrainedQuadratic inst = some P) : P.UniqueMinimum P.optimum := by
  have key : ∀ x y : ℝ, _ := fun x y => circle_constraints (.quad [-0.5, 0]) x y _ (quad_value _ _ x y) P (by
    rcases hi with rfl | rfl <;>
      simp [constrainedQuadratic, negated_eq] at h <;> rw [← h])
  have feas : ∀ x y : ℝ, P.Feasible [x, y] ↔ (-1 ≤ x ∧ x ≤ 1) ∧ (-1 ≤ y ∧ y ≤ 1) ∧ (x - 1) ^ 2 + y ^ 2 - 1 = 0 ∧
      (inst = 0 → x ^ 2 + y ^ 2 - 1 ≤ 0) := by
    intro x y
    rcases hi with rfl | rfl
    · simp only [constrainedQuadratic, negated_eq, Option.bind_some, if_true, Option.some.injEq] at h
      rw [feasible_iff (P := P) (x := [x, y]) (eq := [(x - 1) ^ 2 + y ^ 2 - 1]) (ineq := [x ^ 2 + y ^ 2 - 1])
        (by simp [← h]; rw [h]; exact (key x y).2.2) (by simp [← h]; rw [h]; exact (key x y).2.1)]
      subst h
      simp [and_assoc]
    · simp only [constrainedQuadratic, negated_eq, Option.bind_some, show ¬ (1 : Int) = 0 by decide, if_false, if_true,
        Option.some.injEq] at h
      rw [feasible_iff (P := P) (x := [x, y]) (eq := [(x - 1) ^ 2 + y ^ 2 - 1]) (ineq := [])
        (by simp [← h]; rw [h]; exact (key x y).2.2) (by simp [← h])]
      subst h
      simp [and_assoc]
  have hstart : P.start.length = 2 ∧ P.optimum = [0, 0] ∧ P.obj = .leaf 0 := by
    rcases hi with rfl | rfl <;> simp [constrainedQuadratic, negated_eq] at h <;> rw [← h] <;> simp
  have obj : ∀ x y : ℝ, P.Objective [x, y] ((x - -0.5) ^ 2 + (y - 0) ^ 2) := fun x y => by
    have := (key x y).1
    unfold Problem.Objective
    rw [hstart.2.2]
    exact this
  rw [hstart.2.1]
  refine ⟨(feas 0 0).2 (by norm_num), _, obj 0 0, ?_⟩
  intro x hx hne
  obtain ⟨a, b, rfl⟩ := two_entries (hx.1.trans hstart.1)
  obtain ⟨_, _, he, _⟩ := (feas a b).1 hx
  refine ⟨_, obj a b, ?_⟩
  have ha : 0 ≤ a := by nlinarith [sq_nonneg b, sq_nonneg a]
  rcases ha.lt_or_eq with h1 | h1
  · norm_num
    nlinarith
  · subst h1
    have : b ^ 2 = 0 := by linarith
    have := pow_eq_zero_iff (two_ne_zero) |>.1 this
    exact absurd (by rw [this]) hne

/-- `(x + 1/2)² + y²` within the unit disc. -/
theorem quadratic_disc (P : Problem) (h : constrainedQuadratic 2 = some P) : P.UniqueMinimum P.optimum := by
  simp only [constrainedQuadratic, negated_eq, Option.bind_some, show ¬ (2 : Int) = 0 by decide,
    show ¬ (2 : Int) = 1 by decide, if_false, if_true, Option.some.injEq] at h
  have key := fun x y : ℝ => circle_constraints (.quad [-0.5, 0]) x y _ (quad_value _ _ x y) P (by rw [← h])
  have feas := fun x y : ℝ => feasible_iff (P := P) (x := [x, y]) (eq := []) (ineq := [x ^ 2 + y ^ 2 - 1])
    (by simp [← h]) (by simp [← h]; rw [h]; exact (key x y).2.1)
  have obj : ∀ x y : ℝ, P.Objective [x, y] ((x - -0.5) ^ 2 + (y - 0) ^ 2) := fun x y => by
    have := (key x y).1
    subst h
    exact this
  have hopt : P.optimum = [-0.5, 0] := by rw [← h]
  rw [hopt]
  refine ⟨(feas _ _).2 ?_, _, obj _ _, ?_⟩
  · subst h
    simp
    norm_num
  · intro x hx hne
    obtain ⟨a, b, rfl⟩ := two_entries (hx.1.trans (by rw [← h]; rfl))
    refine ⟨_, obj a b, ?_⟩
    have h0 : ((-0.5 : ℝ) - -0.5) ^ 2 + ((0 : ℝ) - 0) ^ 2 = 0 := by ring
    rw [h0]
    by_contra hle
    have h1 : (a - -0.5) ^ 2 = 0 := by nlinarith [sq_nonneg (a - -0.5), sq_nonneg (b - 0)]
    have h2 : (b - 0) ^ 2 = 0 := by nlinarith [sq_nonneg (a - -0.5), sq_nonneg (b - 0)]
    have h1 := sub_eq_zero.1 (pow_eq_zero_iff (two_ne_zero) |>.1 h1)
    have h2 := sub_eq_zero.1 (pow_eq_zero_iff (two_ne_zero) |>.1 h2)
    exact hne (by rw [h1, h2])

theorem ellipsoid_values (P : Problem) (h : constrainedEllipsoidal = some P) (x y : ℝ) :
    P.Objective [x, y] (x ^ 2 + 2 * y ^ 2 - 5 * y - 2 * x * y) ∧
    (P.Feasible [x, y] ↔ (-10 ≤ x ∧ x ≤ 10) ∧ (-10 ≤ y ∧ y ≤ 10) ∧ 1 ≤ x - y) := by
  simp [constrainedEllipsoidal, buildFn, build, ellipsoidEx, ellipsoidConsEx, dispatch, invdesOps, iSub, iAdd, iMul, iPow,
    oNeg, iNeg] at h
  constructor
  · subst h
    simp [Problem.Objective, Problem.eval, allSome, Leaf.value, invdesEval, evalFn, evalFns, npSum, npProd, bc_one]
    ring
  · rw [feasible_iff (P := P) (x := [x, y]) (eq := []) (ineq := [y - x + 1])]
    · subst h
      simp [and_assoc]
      intros
      constructor <;> intro <;> linarith
    · subst h
      rfl
    · subst h
      simp [Problem.eval, allSome, Leaf.value, invdesEval, evalFn, evalFns, npSum, npProd, bc_one]
      ring

/-- `x² + 2y² - 5y - 2xy` with `x - y ≥ 1`: the optimum is right and unique. -/
theorem ellipsoid_optimum (P : Problem) (h : constrainedEllipsoidal = some P) : P.UniqueMinimum P.optimum := by
  have key := ellipsoid_values P h
  have hopt : P.optimum = [7 / 2, 5 / 2] ∧ P.start.length = 2 := by
    simp [constrainedEllipsoidal, buildFn, build, ellipsoidEx, ellipsoidConsEx, dispatch, invdesOps, iSub, iAdd, iMul,
      iPow, oNeg, iNeg] at h
    rw [← h]
    simp
  rw [hopt.1]
  refine ⟨(key _ _).2.2 (by norm_num), _, (key _ _).1, ?_⟩
  intro x hx hne
  obtain ⟨a, b, rfl⟩ := two_entries (hx.1.trans hopt.2)
  obtain ⟨_, _, hab⟩ := (key a b).2.1 hx
  refine ⟨_, (key a b).1, ?_⟩
  by_contra hle
  have h2 : (b - 5 / 2) ^ 2 = 0 := by nlinarith [sq_nonneg (b - 5 / 2), sq_nonneg (a - b - 1)]
  have h1 : (a - b - 1) * (a - b + 1) = 0 := by nlinarith [sq_nonneg (b - 5 / 2), sq_nonneg (a - b - 1)]
  have h2 := sub_eq_zero.1 (pow_eq_zero_iff (two_ne_zero) |>.1 h2)
  rcases mul_eq_zero.1 h1 with e | e
  · exact hne (by rw [h2, show a = 7 / 2 by linarith])
  · linarith

/-- The list of standard problems consists of six problems, each with a start within its bounds and with the right and
only optimum. -/
theorem problem_list : ∃ l, constrainedProblemList = some l ∧ l.length = 6 ∧
    ∀ P ∈ l, (∀ a ∈ P.start, P.lo ≤ a ∧ a ≤ P.hi) ∧ P.UniqueMinimum P.optimum := by
  obtain ⟨E, hE⟩ : ∃ E, constrainedEllipsoidal = some E := by
    simp [constrainedEllipsoidal, buildFn, build, ellipsoidEx, ellipsoidConsEx, dispatch, invdesOps, iSub, iAdd, iMul,
      iPow, oNeg, iNeg]
  have hEs : ∀ a ∈ E.start, E.lo ≤ a ∧ a ≤ E.hi := by
    have := hE
    simp [constrainedEllipsoidal, buildFn, build, ellipsoidEx, ellipsoidConsEx, dispatch, invdesOps, iSub, iAdd, iMul,
      iPow, oNeg, iNeg] at this
    rw [← this]
    simp
  obtain ⟨L0, h0⟩ : ∃ L, constrainedLinear 0 = some L := by simp [constrainedLinear, negated_eq]
  obtain ⟨L1, h1⟩ : ∃ L, constrainedLinear 1 = some L := by simp [constrainedLinear, negated_eq]
  obtain ⟨Q0, q0⟩ : ∃ L, constrainedQuadratic 0 = some L := by simp [constrainedQuadratic, negated_eq]
  obtain ⟨Q1, q1⟩ : ∃ L, constrainedQuadratic 1 = some L := by simp [constrainedQuadratic, negated_eq]
  obtain ⟨Q2, q2⟩ : ∃ L, constrainedQuadratic 2 = some L := by simp [constrainedQuadratic, negated_eq]
  have sL : ∀ i P, constrainedLinear i = some P → ∀ a ∈ P.start, P.lo ≤ a ∧ a ≤ P.hi := by
    intro i P h
    simp only [constrainedLinear, negated_eq, Option.bind_some] at h
    split_ifs at h <;> cases h <;> simp <;> norm_num
  have sQ : ∀ i P, constrainedQuadratic i = some P → ∀ a ∈ P.start, P.lo ≤ a ∧ a ≤ P.hi := by
    intro i P h
    simp only [constrainedQuadratic, negated_eq, Option.bind_some] at h
    split_ifs at h <;> cases h <;> simp <;> norm_num
  refine ⟨[E, L0, L1, Q0, Q1, Q2], ?_, rfl, ?_⟩
  · simp [constrainedProblemList, List.range_succ, hE, h0, h1, q0, q1, q2, allSome]
  · simp only [List.mem_cons, List.not_mem_nil, or_false, forall_eq_or_imp, forall_eq]
    exact ⟨⟨hEs, ellipsoid_optimum E hE⟩, ⟨sL _ _ h0, linear_optimum0 L0 h0⟩, ⟨sL _ _ h1, linear_optimum1 L1 h1⟩,
      ⟨sQ _ _ q0, quadratic_circle Q0 0 (.inl rfl) q0⟩, ⟨sQ _ _ q1, quadratic_circle Q1 1 (.inr rfl) q1⟩,
      ⟨sQ _ _ q2, quadratic_disc Q2 q2⟩⟩

/-! ### Gradients of the three objectives -/

/-- The point `x + t d`. -/
def line (x d : Val) (t : ℝ) : Val := List.zipWith (fun a b => a + t * b) x d

/-- The function `f` with the gradient `g` at `x`: along every direction the derivative is the product of `g` with the
direction. -/
def GradientAt (f : Val → Option Val) (g x : Val) : Prop :=
  g.length = x.length ∧ ∀ d : Val, d.length = x.length → ∃ F : ℝ → ℝ, (∀ t, f (line x d t) = some [F t]) ∧
    HasDerivAt F (List.zipWith (· * ·) g d).sum 0

theorem bc_same (f : ℝ → ℝ → ℝ) (a b : Val) (h : a.length = b.length) : bc f a b = some (List.zipWith f a b) := by
  simp only [bc, bshape, h, if_true, Option.map_some, Option.some.injEq]
  refine List.ext_getElem (by simp [h]) fun i h1 h2 => ?_
  have h3 : i < b.length := by simpa using h1
  simp only [List.getElem_map, List.getElem_range, List.getElem_zipWith, bget]
  by_cases h0 : b.length = 1
  · have : i = 0 := by omega
    subst this
    simp [h, h0, List.getD_eq_getElem?_getD]
  · simp [h, h0, List.getD_eq_getElem?_getD, h3]

theorem plane_line (x : Val) : ∀ d : Val, d.length = x.length → ∀ t : ℝ,
    (List.zipWith (fun _ y => -1 * y) (line x d t) (line x d t)).sum =
      (x.map fun a => -a).sum + t * (List.zipWith (· * ·) (x.map fun _ => (-1 : ℝ)) d).sum := by
  induction x with
  | nil => intro d hd t; simp [line]
  | cons a x ih =>
    intro d hd t
    match d, hd with
    | b :: d, hd =>
      have := ih d (by simpa using hd) t
      simp only [line, List.zipWith_cons_cons, List.sum_cons, List.map_cons] at this ⊢
      rw [this]
      ring

theorem squares_line (x : Val) : ∀ r d : Val, r.length = x.length → d.length = x.length → ∀ t : ℝ,
    onesDot (line x d t) ((List.zipWith (· - ·) (line x d t) r).map (· ^ 2)) =
      ((List.zipWith (· - ·) x r).map (· ^ 2)).sum +
        t * (List.zipWith (· * ·) ((List.zipWith (· - ·) x r).map (2 * ·)) d).sum + t ^ 2 * (d.map (· ^ 2)).sum := by
  induction x with
  | nil =>
    intro r d _ hd t
    simp at hd
    subst hd
    simp [line, onesDot]
  | cons a x ih =>
    intro r d hr hd t
    match d, hd, r, hr with
    | b :: d, hd, c :: r, hr =>
      have := ih r d (by simpa using hr) (by simpa using hd) t
      simp only [line, onesDot, List.zipWith_cons_cons, List.sum_cons, List.map_cons] at this ⊢
      rw [this]
      ring

theorem parabola_deriv (A B C : ℝ) : HasDerivAt (fun t : ℝ => A + t * B + t ^ 2 * C) B 0 := by
  have := ((hasDerivAt_const (0 : ℝ) A).add ((hasDerivAt_id (0 : ℝ)).mul_const B)).add
    (((hasDerivAt_id (0 : ℝ)).pow 2).mul_const C)
  refine this.congr_deriv ?_
  simp

/-- The three objectives return their gradient at every point of every dimension. -/
theorem objective_gradients (x r0 : Val) (radius : ℝ) (h : r0.length = x.length) :
    (∃ g, Leaf.grad x .plane = some g ∧ GradientAt (fun y => Leaf.value y .plane) g x) ∧
    (∃ g, Leaf.grad x (.quad r0) = some g ∧ GradientAt (fun y => Leaf.value y (.quad r0)) g x) ∧
    (∃ g, Leaf.grad x (.sphere radius r0) = some g ∧ GradientAt (fun y => Leaf.value y (.sphere radius r0)) g x) := by
  have hline : ∀ d : Val, d.length = x.length → ∀ t, (line x d t).length = r0.length := by
    intro d hd t
    simp [line, hd, h]
  refine ⟨⟨_, rfl, by simp, fun d hd => ⟨_, fun t => rfl, ?_⟩⟩, ⟨_, by rw [Leaf.grad, bc_same _ _ _ h.symm]; rfl,
    by simp [h], fun d hd => ⟨_, fun t => by simp only [Leaf.value]; rw [bc_same _ _ _ (hline d hd t)]; rfl, ?_⟩⟩,
    ⟨_, by rw [Leaf.grad, bc_same _ _ _ h.symm]; rfl,
    by simp [h], fun d hd => ⟨_, fun t => by simp only [Leaf.value]; rw [bc_same _ _ _ (hline d hd t)]; rfl, ?_⟩⟩⟩
  · simp only [plane_line x d hd]
    have := parabola_deriv (x.map fun a => -a).sum (List.zipWith (· * ·) (x.map fun _ => (-1 : ℝ)) d).sum 0
    simpa using this
  · simp only [squares_line x r0 d h hd]
    exact parabola_deriv _ _ _
  · simp only [squares_line x r0 d h hd]
    have := (parabola_deriv ((List.zipWith (· - ·) x r0).map (· ^ 2)).sum
      (List.zipWith (· * ·) ((List.zipWith (· - ·) x r0).map (2 * ·)) d).sum (d.map (· ^ 2)).sum).const_sub (radius ^ 2)
    refine this.congr_deriv ?_
    generalize List.zipWith (· - ·) x r0 = w
    clear this hline h hd
    induction w generalizing d with
    | nil => simp
    | cons a w ih =>
      cases d with
      | nil => simp
      | cons b d =>
        have := ih d
        simp only [List.map_cons, List.zipWith_cons_cons, List.sum_cons] at this ⊢
        rw [← this]
        ring

/-! The hypotheses are met. -/

example : ∃ P, singleVariableQuartic 0 = some P := ⟨_, rfl⟩
example : ∃ P, singleVariableQuartic 1 = some P := ⟨_, rfl⟩
example : ∃ P, constrainedLinear 0 = some P ∧ ∃ Q, constrainedLinear 1 = some Q := ⟨_, rfl, _, rfl⟩
example : (0 : ℝ) < 100 ∧ (1 : ℝ) ^ 2 ≤ 10 := by norm_num
example : ([0, 1, 2] : Val).length = ([3, 4, 5] : Val).length := rfl

end Verif.Opt.Problems
