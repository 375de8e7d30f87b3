import Verif.Obj.NodeProps
/-
Model of `spins/goos/math.py` `Slice`, its properties (C48), and two places where gradients of goos nodes are wrong.
-/
set_option linter.unusedSectionVars false
namespace Verif.Obj
open Finset

/-- One entry of the list of slices: an integer, a pair, "center", or `None`. goos/math.py 528-529 -/
inductive SliceSpec where
  | idx (i : Int)
  | range (a b : Int)
  | center
  | all

/-- How Python reads the bound `a` of a `slice` on an axis with `n` entries. -/
def pyBound (n : Nat) (a : Int) : Nat := if a < 0 then (a + n).toNat else min a.toNat n

/-- `_make_slices` for one axis, with Python's reading of the bounds: the first selected entry and the one after the last.
goos/math.py 548-562 -/
def sliceBounds (n : Nat) : SliceSpec → Nat × Nat
  | .idx i => (pyBound n i, pyBound n (i + 1))
  | .range a b => (pyBound n a, pyBound n b)
  | .center => (pyBound n (n / 2 : Nat), pyBound n ((n / 2 : Nat) + 1))
  | .all => (pyBound n 0, pyBound n n)

theorem sliceBounds_le (n : Nat) (s : SliceSpec) : (sliceBounds n s).2 ≤ n ∨ (sliceBounds n s).2 ≤ (sliceBounds n s).1 := by
  have : ∀ b : Int, b < 0 → pyBound n b ≤ n := fun b h => by unfold pyBound; rw [if_pos h]; omega
  have h2 : ∀ b : Int, pyBound n b ≤ n := fun b => by
    by_cases h : b < 0
    · exact this b h
    · unfold pyBound; rw [if_neg h]; exact Nat.min_le_right _ _
  cases s <;> (simp only [sliceBounds]; exact Or.inl (h2 _))

variable {𝕜 : Type} [RCLike 𝕜] {d : Nat} (n : Fin d → Nat) (s : Fin d → SliceSpec)

/-- Shape of the result along axis `k`. -/
abbrev sliceLen (k : Fin d) : Nat := (sliceBounds (n k) (s k)).2 - (sliceBounds (n k) (s k)).1

/-- The entry of the input that becomes entry `j` of the result. -/
def sliceIdx (j : ∀ k, Fin (sliceLen n s k)) : ∀ k, Fin (n k) := fun k =>
  ⟨(sliceBounds (n k) (s k)).1 + (j k).1, by
    have := (j k).2
    have := sliceBounds_le (n k) (s k)
    simp only [sliceLen] at *
    omega⟩

/-- `inputs[0].array[slices]`. goos/math.py 533-537 -/
def sliceEval (xs : Fin 1 → (∀ k, Fin (n k)) → 𝕜) : (∀ k, Fin (sliceLen n s k)) → 𝕜 := fun j => xs 0 (sliceIdx n s j)

/-- Zeros with `grad_val` written into the selected part. goos/math.py 539-546. The type of the zeros is taken from the
input array (`zeros_like`), so a complex gradient of a real array loses its imaginary part; this is not modelled. -/
def sliceGrad (_ : Fin 1 → (∀ k, Fin (n k)) → 𝕜) (g : (∀ k, Fin (sliceLen n s k)) → 𝕜) :
    Option (Fin 1 → (∀ k, Fin (n k)) → 𝕜) :=
  some fun _ i =>
    if h : ∀ k, (sliceBounds (n k) (s k)).1 ≤ (i k).1 ∧ (i k).1 < (sliceBounds (n k) (s k)).2 then
      g fun k => ⟨(i k).1 - (sliceBounds (n k) (s k)).1, by have := h k; simp only [sliceLen]; omega⟩
    else 0

theorem sliceIdx_injective : Function.Injective (sliceIdx n s) := by
  intro a b h
  funext k
  have := congrArg Fin.val (congrFun h k)
  simp only [sliceIdx] at this
  exact Fin.ext (by omega)

/-- C48, `Slice`: whatever the slices and the number of axes, the reported gradient is the derivative. -/
theorem slice_gradient (x : Fin 1 → (∀ k, Fin (n k)) → 𝕜) : IsGradient (sliceEval n s) (sliceGrad n s) x := by
  refine ⟨ContinuousLinearMap.pi fun j => entry 𝕜 𝕜 0 (sliceIdx n s j), ?_, fun g => ⟨_, rfl, fun v => ?_⟩⟩
  · rw [hasFDerivAt_pi]
    intro j
    exact entry_hasFDerivAt 𝕜 𝕜 (0 : Fin 1) (sliceIdx n s j) x
  · simp only [univ_unique, sum_singleton, Fin.default_eq_zero, ContinuousLinearMap.coe_pi', entry_apply]
    refine Fintype.sum_of_injective (sliceIdx n s) (sliceIdx_injective n s) _ _ (fun i hi => ?_) (fun j => ?_)
    · have : ¬ ∀ k, (sliceBounds (n k) (s k)).1 ≤ (i k).1 ∧ (i k).1 < (sliceBounds (n k) (s k)).2 := by
        intro h
        refine hi ⟨fun k => ⟨(i k).1 - (sliceBounds (n k) (s k)).1, by have := h k; simp only [sliceLen]; omega⟩, ?_⟩
        funext k
        have := h k
        exact Fin.ext (by simp only [sliceIdx]; omega)
      rw [dif_neg this, zero_mul]
    · have : ∀ k, (sliceBounds (n k) (s k)).1 ≤ (sliceIdx n s j k).1 ∧
          (sliceIdx n s j k).1 < (sliceBounds (n k) (s k)).2 := by
        intro k
        have := (j k).2
        simp only [sliceIdx, sliceLen] at *
        omega
      rw [dif_pos this]
      congr 2
      funext k
      exact Fin.ext (by simp only [sliceIdx]; omega)

/-- C48, `Slice` with integers, "center" and `None`: an index `0 ≤ i < n` selects exactly entry `i`, an index
`-n ≤ i ≤ -2` exactly entry `n + i`, "center" exactly entry `n // 2`, and `None` all entries. -/
theorem slice_selects (m : Nat) :
    (∀ i : Nat, i < m → sliceBounds m (.idx i) = (i, i + 1)) ∧
    (∀ i : Int, -m ≤ i → i ≤ -2 → sliceBounds m (.idx i) = ((i + m).toNat, (i + m).toNat + 1)) ∧
    (0 < m → sliceBounds m .center = (m / 2, m / 2 + 1)) ∧ sliceBounds m .all = (0, m) := by
  refine ⟨fun i hi => ?_, fun i h1 h2 => ?_, fun hm => ?_, ?_⟩
  · simp only [sliceBounds, pyBound, Prod.mk.injEq]
    constructor
    · rw [if_neg (by omega)]; omega
    · rw [if_neg (by omega)]; omega
  · simp only [sliceBounds, pyBound, Prod.mk.injEq]
    constructor
    · rw [if_pos (by omega)]
    · rw [if_pos (by omega)]; omega
  · simp only [sliceBounds, pyBound, Prod.mk.injEq]
    constructor
    · rw [if_neg (by omega)]; omega
    · rw [if_neg (by omega)]; omega
  · simp only [sliceBounds, pyBound, Prod.mk.injEq]
    constructor
    · rw [if_neg (by omega)]; omega
    · rw [if_neg (by omega)]; omega

/-- The index -1 selects nothing instead of the last entry: `slice(-1, 0)` is empty. -/
theorem slice_last_false (m : Nat) : (sliceBounds m (.idx (-1))).2 - (sliceBounds m (.idx (-1))).1 = 0 := by
  simp [sliceBounds, pyBound]

example : IsGradient (sliceEval (𝕜 := ℝ) (d := 2) ![3, 4] ![.center, .range 1 (-1)])
    (sliceGrad ![3, 4] ![.center, .range 1 (-1)]) (fun _ _ => 1) := slice_gradient _ _ _

/-! ### A real variable in a complex expression -/

/-- The gradient with respect to the real variable `x` that goos computes for `abs(c * x)` with a complex constant `c`:
`AbsoluteValue.grad`, then `Product.grad`. No step of it takes twice the real part. goos/math.py 363-378, 295-303 -/
noncomputable def absScaledGrad (c : ℂ) (x : ℝ) : Option ℂ :=
  let xs : Fin 2 → Unit → ℂ := fun a _ => if a = 0 then x else c
  (goosAbsGrad true (fun _ : Fin 1 => prodEval xs) (fun _ => 1)).bind fun r => (prodGrad xs (r 0)).map fun q => q 0 ()

/-- For `c = 3 + 4i` and `x = 1` the value `abs(c * x)` has derivative 5, and the gradient reported is half of that. -/
theorem real_variable_complex_false : ∃ (c : ℂ) (x : ℝ), HasDerivAt (fun t : ℝ => ‖c * (t : ℂ)‖) 5 x ∧
    absScaledGrad c x = some (5 / 2) := by
  have hn : ‖(3 + 4 * Complex.I : ℂ)‖ = 5 := by
    rw [Complex.norm_def, Complex.normSq_apply]
    simp
    rw [show (3 * 3 + 4 * 4 : ℝ) = 5 ^ 2 by norm_num]
    exact Real.sqrt_sq (by norm_num)
  refine ⟨3 + 4 * Complex.I, 1, ?_, ?_⟩
  · have h : (fun t : ℝ => ‖(3 + 4 * Complex.I) * (t : ℂ)‖) = fun t => 5 * |t| := by
      funext t
      rw [norm_mul, hn, Complex.norm_real, Real.norm_eq_abs]
    rw [h]
    have h1 : HasDerivAt (fun t : ℝ => 5 * t) 5 1 := by simpa using (hasDerivAt_id (1 : ℝ)).const_mul 5
    refine h1.congr_of_eventuallyEq ?_
    filter_upwards [lt_mem_nhds (zero_lt_one : (0 : ℝ) < 1)] with t ht
    rw [abs_of_pos ht]
  · have hp : prodEval (fun (a : Fin 2) (_ : Unit) => if a = 0 then ((1 : ℝ) : ℂ) else 3 + 4 * Complex.I) () =
        3 + 4 * Complex.I := by simp [prodEval]
    have hq : ∀ i, prodEval (fun (a : Fin 2) (_ : Unit) => if a = 0 then ((1 : ℝ) : ℂ) else 3 + 4 * Complex.I) i =
        3 + 4 * Complex.I := fun _ => hp
    unfold absScaledGrad goosAbsGrad
    simp only [hq, hn]
    rw [if_neg (by norm_num)]
    have hf1 : (univ.filter fun b : Fin 2 => b < 0) = ∅ := by decide
    have hf2 : (univ.filter fun b : Fin 2 => 0 < b) = {1} := by decide
    simp only [Option.bind_some, prodGrad, Option.map_some, Option.some.injEq, hf1, hf2, prod_empty, prod_singleton]
    simp
    have hI : Complex.I * Complex.I = -1 := Complex.I_mul_I
    field_simp
    ring_nf
    simp [Complex.I_sq]
    norm_num

/-! ### Gradients of a sum of arrays of different shapes -/

/-- `Sum.grad` when the inputs have different shapes: every input gets `grad_val`, which has the shape of the result,
whatever its own shape. goos/math.py 257-266, objective.py 534-536 -/
def bsumGrads (vs : List (List ℝ)) (g : List ℝ) : List (List ℝ) := vs.map fun _ => g

/-- For a scalar plus an array of two entries the derivative with respect to the scalar is the sum of the output
gradient; the gradient reported is an array of two entries. -/
theorem sum_broadcast_gradient_false : ∃ (s : ℝ) (v g : List ℝ), v.length = 2 ∧ g.length = 2 ∧
    HasDerivAt (fun t : ℝ => ((v.zip g).map fun p => p.2 * (t + p.1)).sum) g.sum s ∧
    (bsumGrads [[s], v] g).head? ≠ some [g.sum] := by
  refine ⟨0, [1, 2], [3, 4], rfl, rfl, ?_, by simp [bsumGrads]⟩
  have h1 : HasDerivAt (fun t : ℝ => 3 * (t + 1)) 3 0 := by
    simpa using ((hasDerivAt_id (0 : ℝ)).add_const 1).const_mul 3
  have h2 : HasDerivAt (fun t : ℝ => 4 * (t + 2)) 4 0 := by
    simpa using ((hasDerivAt_id (0 : ℝ)).add_const 2).const_mul 4
  simpa using h1.fun_add h2

end Verif.Obj
