import Mathlib.Analysis.SpecialFunctions.Pow.Real
import Mathlib.Analysis.SpecialFunctions.Log.Basic
import Mathlib.Analysis.Complex.Basic
import Mathlib.Data.Fintype.BigOperators
/-
Model of `eval` and `grad` of the mathematical nodes of goos (`spins/goos/math.py`) and invdes
(`spins/invdes/problem/objective.py`).

An array is a function from an index type `ι` (the shape) to `ℝ` or `ℂ`; a node with `k` inputs of the same shape takes
`Fin k → ι → 𝕜`. Simplifications: floating point is replaced by exact arithmetic; inputs of different shapes
(broadcasting) are modelled in `Obj/Expr.lean`; an entry `nan` (division by zero) in a gradient makes the whole result
`none`.
-/
namespace Verif.Obj
open Finset

variable {𝕜 : Type} [RCLike 𝕜] {ι κ : Type} {k : Nat}

/-! ### goos/math.py 244-266 `Sum`, objective.py 531-536 `Sum` -/

/-- `np.sum([x.array for x in inputs], axis=0)`, resp. `sum(input_vals)`. goos/math.py 251-255, objective.py 531-532 -/
def sumEval (xs : Fin k → ι → 𝕜) : ι → 𝕜 := fun i => ∑ a, xs a i

/-- Every input gets the output gradient. goos/math.py 257-266, objective.py 534-536 -/
def sumGrad (_ : Fin k → ι → 𝕜) (g : ι → 𝕜) : Option (Fin k → ι → 𝕜) := some fun _ => g

/-! ### goos/math.py 283-314 `Product`, objective.py 580-594 `Product` -/

/-- `np.prod([x.array for x in inputs], axis=0)`, resp. the loop over `total *= obj`. goos/math.py 290-293,
objective.py 580-584 -/
def prodEval (xs : Fin k → ι → 𝕜) : ι → 𝕜 := fun i => ∏ a, xs a i

/-- `prod_before * prod_after * grad_val`. goos/math.py 295-303, objective.py 586-594 -/
def prodGrad (xs : Fin k → ι → 𝕜) (g : ι → 𝕜) : Option (Fin k → ι → 𝕜) :=
  some fun a i => (∏ b ∈ univ.filter (· < a), xs b i) * (∏ b ∈ univ.filter (a < ·), xs b i) * g i

/-! ### goos/math.py 330-349 `Power`, objective.py 617-645 `Power`: real arrays -/

/-- `value.array**self._pow`. goos/math.py 337-341, objective.py 636-637. Numpy gives `nan` for a negative base and
a fractional exponent; the theorems are about the other cases. -/
noncomputable def powEval (p : ℝ) (xs : Fin 1 → ι → ℝ) : ι → ℝ := fun i => xs 0 i ^ p

/-- `grad_val * power * x**(power - 1)`. goos/math.py 343-349, objective.py 639-641 -/
noncomputable def powGrad (p : ℝ) (xs : Fin 1 → ι → ℝ) (g : ι → ℝ) : Option (Fin 1 → ι → ℝ) :=
  some fun _ i => g i * (p * xs 0 i ^ (p - 1))

/-- `value.array**self._pow` for a complex array and an integer exponent. goos/math.py 337-341 -/
noncomputable def zpowEval (p : ℤ) (xs : Fin 1 → ι → ℂ) : ι → ℂ := fun i => xs 0 i ^ p

/-- goos/math.py 343-349 for complex arrays and integer exponents -/
noncomputable def zpowGrad (p : ℤ) (xs : Fin 1 → ι → ℂ) (g : ι → ℂ) : Option (Fin 1 → ι → ℂ) :=
  some fun _ i => g i * (p * xs 0 i ^ (p - 1))

/-! ### goos/math.py 352-378 `AbsoluteValue`, objective.py 653-673 `AbsoluteValue` -/

/-- `np.abs(val.array)`. goos/math.py 358-361, objective.py 664-665 -/
noncomputable def absEval (xs : Fin 1 → ι → 𝕜) : ι → ℝ := fun i => ‖xs 0 i‖

/-- `np.conj(x) / np.abs(x) * grad_val`, halved if `np.iscomplexobj(x)`. goos/math.py 363-378. `cplx` is
`np.iscomplexobj` of the input. -/
noncomputable def goosAbsGrad [Fintype ι] (cplx : Bool) (xs : Fin 1 → ι → 𝕜) (g : ι → ℝ) : Option (Fin 1 → ι → 𝕜) :=
  open Classical in
  if ∃ i, ‖xs 0 i‖ = 0 then none
  else some fun _ i => star (xs 0 i) / (‖xs 0 i‖ : ℝ) * (g i : ℝ) / (if cplx then 2 else 1)

/-- `grad_val * np.conj(x) / abs(x)`. objective.py 667-670 -/
noncomputable def invdesAbsGrad [Fintype ι] (xs : Fin 1 → ι → 𝕜) (g : ι → ℝ) : Option (Fin 1 → ι → 𝕜) :=
  open Classical in
  if ∃ i, ‖xs 0 i‖ = 0 then none
  else some fun _ i => (g i : ℝ) * (star (xs 0 i) / (‖xs 0 i‖ : ℝ))

/-! ### goos/math.py 385-407 `DotProduct` -/

/-- `np.sum(input_vals[0].array * input_vals[1].array)`. goos/math.py 396-398 -/
def dotEval [Fintype ι] (xs : Fin 2 → ι → 𝕜) : Unit → 𝕜 := fun _ => ∑ i, xs 0 i * xs 1 i

/-- goos/math.py 400-407 -/
def dotGrad (xs : Fin 2 → ι → 𝕜) (g : Unit → 𝕜) : Option (Fin 2 → ι → 𝕜) :=
  some fun a i => if a = 0 then g () * xs 1 i else g () * xs 0 i

/-! ### goos/math.py 418-462 `Norm` -/

/-- `np.linalg.norm(x.flatten(), ord=self._ord)` for a finite order other than 0. goos/math.py 438-440 -/
noncomputable def normEval [Fintype ι] (p : ℝ) (xs : Fin 1 → ι → 𝕜) : Unit → ℝ := fun _ => (∑ i, ‖xs 0 i‖ ^ p) ^ (1 / p)

/-- goos/math.py 442-462: `conj(x) * (|x| / norm)**(ord - 1)`, divided by `|x|` where that is positive, halved for
complex arrays, times the output gradient. The division by the norm is `nan` when the norm is zero. -/
noncomputable def normGrad [Fintype ι] (cplx : Bool) (p : ℝ) (xs : Fin 1 → ι → 𝕜) (g : Unit → ℝ) :
    Option (Fin 1 → ι → 𝕜) :=
  open Classical in
  if normEval p xs () = 0 then none
  else some fun _ i =>
    let y := star (xs 0 i) * (((‖xs 0 i‖ / normEval p xs ()) ^ (p - 1) : ℝ) : 𝕜)
    let y := if 0 < ‖xs 0 i‖ then y / (‖xs 0 i‖ : ℝ) else y
    let y := y / (if cplx then 2 else 1)
    (g () : ℝ) * y

/-! ### goos/math.py 469-498 `Max` (real arrays) -/

/-- The elementwise maximum, for at least one input. goos/math.py 479-488 -/
noncomputable def maxEval (xs : Fin (k + 1) → ι → ℝ) : ι → ℝ := fun i => univ.sup' ⟨0, mem_univ _⟩ fun a => xs a i

/-- `np.argmax(arr, axis=0)[i]`: the first input with the maximal value. goos/math.py 492 -/
noncomputable def argmax (xs : Fin (k + 1) → ι → ℝ) (i : ι) : Fin (k + 1) :=
  open Classical in
  ((univ.filter fun a => xs a i = maxEval xs i).min' (by
    obtain ⟨a, _, ha⟩ := exists_mem_eq_sup' (s := (univ : Finset (Fin (k + 1)))) ⟨0, mem_univ _⟩ fun a => xs a i
    exact ⟨a, mem_filter.2 ⟨mem_univ _, ha.symm⟩⟩))

/-- goos/math.py 490-498 -/
noncomputable def maxGrad (xs : Fin (k + 1) → ι → ℝ) (g : ι → ℝ) : Option (Fin (k + 1) → ι → ℝ) :=
  some fun a i => if argmax xs i ≠ a then 0 else g i

/-! ### goos/math.py 505-522 `Sigmoid` (real arrays) -/

/-- goos/math.py 511-516 -/
noncomputable def sigEval (xs : Fin 1 → ι → ℝ) : ι → ℝ := fun i => 1 / (1 + Real.exp (-xs 0 i))

/-- goos/math.py 518-522; `sig` is `self._sig`, the result of the latest `eval`. -/
def sigGrad (sig : ι → ℝ) (g : ι → ℝ) : Option (Fin 1 → ι → ℝ) := some fun _ i => g i * (sig i * (1 - sig i))

/-! ### goos/math.py 565-577 `Conjugate` -/

/-- goos/math.py 571-572 -/
def conjEval (xs : Fin 1 → ι → 𝕜) : ι → 𝕜 := fun i => star (xs 0 i)

/-- goos/math.py 574-578 -/
def conjGrad (_ : Fin 1 → ι → 𝕜) (g : ι → 𝕜) : Option (Fin 1 → ι → 𝕜) := some fun _ i => star (g i)

/-! ### objective.py 470-498 `ValueSlice` -/

/-- `input_vals[0][self._index]`, for an index in range. objective.py 492-493 -/
def valueSliceEval {n : Nat} (j : Fin n) (xs : Fin 1 → Fin n → 𝕜) : Unit → 𝕜 := fun _ => xs 0 j

/-- zeros with the output gradient at the index. objective.py 495-499 -/
def valueSliceGrad {n : Nat} (j : Fin n) (_ : Fin 1 → Fin n → 𝕜) (g : Unit → 𝕜) : Option (Fin 1 → Fin n → 𝕜) :=
  some fun _ i => if i = j then g () else 0

/-! ### objective.py 676-796 `IndicatorPlus`, `IndicatorMin`, `PowerComparison` (real arrays) -/

/-- `(x > alpha) * abs(x - alpha)**power`. objective.py 698-700 -/
noncomputable def plusEval (alpha p : ℝ) (xs : Fin 1 → ι → ℝ) : ι → ℝ :=
  fun i => (if xs 0 i > alpha then 1 else 0) * |xs 0 i - alpha| ^ p

/-- `(x > alpha) * power * abs(x - alpha)**(power - 1) * np.sign(x - alpha)`. objective.py 702-708 -/
noncomputable def plusGrad (alpha p : ℝ) (xs : Fin 1 → ι → ℝ) (g : ι → ℝ) : Option (Fin 1 → ι → ℝ) :=
  some fun _ i => g i * ((if xs 0 i > alpha then 1 else 0) * p * |xs 0 i - alpha| ^ (p - 1) *
    ((SignType.sign (xs 0 i - alpha) : SignType) : ℝ))

/-- `(x < beta) * abs(beta - x)**power`. objective.py 737-739 -/
noncomputable def minEval (beta p : ℝ) (xs : Fin 1 → ι → ℝ) : ι → ℝ :=
  fun i => (if xs 0 i < beta then 1 else 0) * |beta - xs 0 i| ^ p

/-- objective.py 741-747 -/
noncomputable def minGrad (beta p : ℝ) (xs : Fin 1 → ι → ℝ) (g : ι → ℝ) : Option (Fin 1 → ι → ℝ) :=
  some fun _ i => g i * ((if xs 0 i < beta then 1 else 0) * p * |beta - xs 0 i| ^ (p - 1) *
    ((SignType.sign (beta - xs 0 i) : SignType) : ℝ) * (-1))

/-- `alpha_term + beta_term` with `value_range = [beta, alpha]`. objective.py 774-780 -/
noncomputable def cmpEval (beta alpha p : ℝ) (xs : Fin 1 → ι → ℝ) : ι → ℝ :=
  fun i => (if xs 0 i > alpha then 1 else 0) * |xs 0 i - alpha| ^ p + (if xs 0 i < beta then 1 else 0) *
    |beta - xs 0 i| ^ p

/-- objective.py 782-791 -/
noncomputable def cmpGrad (beta alpha p : ℝ) (xs : Fin 1 → ι → ℝ) (g : ι → ℝ) : Option (Fin 1 → ι → ℝ) :=
  some fun _ i => g i *
    ((if xs 0 i < beta then 1 else 0) * p * |beta - xs 0 i| ^ (p - 1) *
        ((SignType.sign (beta - xs 0 i) : SignType) : ℝ) * (-1) +
      (if xs 0 i > alpha then 1 else 0) * p * |xs 0 i - alpha| ^ (p - 1) *
        ((SignType.sign (xs 0 i - alpha) : SignType) : ℝ))

/-! ### objective.py 799-873 `LogSumExp`, `SoftmaxAverage` (scalar inputs, at least one) -/

/-- `np.max(input_vals)`. objective.py 817, 853 -/
noncomputable def maxVal (xs : Fin (k + 1) → Unit → ℝ) : ℝ := univ.sup' ⟨0, mem_univ _⟩ fun a => xs a ()

/-- `max_val + log(sum(exp(x - max_val)))`. objective.py 816-818 -/
noncomputable def lseEval (xs : Fin (k + 1) → Unit → ℝ) : Unit → ℝ :=
  fun _ => maxVal xs + Real.log (∑ a, Real.exp (xs a () - maxVal xs))

/-- `1 / denom * exp(x_i - max_val)`. objective.py 820-828 -/
noncomputable def lseGrad (xs : Fin (k + 1) → Unit → ℝ) (g : Unit → ℝ) : Option (Fin (k + 1) → Unit → ℝ) :=
  some fun a _ => g () * (1 / (∑ b, Real.exp (xs b () - maxVal xs)) * Real.exp (xs a () - maxVal xs))

/-- `dot(x, weights) / sum(weights)` with `weights = exp(x - max_val)`. objective.py 852-856 -/
noncomputable def softEval (xs : Fin (k + 1) → Unit → ℝ) : Unit → ℝ :=
  fun _ => (∑ a, xs a () * Real.exp (xs a () - maxVal xs)) / ∑ a, Real.exp (xs a () - maxVal xs)

/-- objective.py 858-869 -/
noncomputable def softGrad (xs : Fin (k + 1) → Unit → ℝ) (g : Unit → ℝ) : Option (Fin (k + 1) → Unit → ℝ) :=
  let w := fun a => Real.exp (xs a () - maxVal xs)
  let num := ∑ a, xs a () * w a
  let denom := ∑ a, w a
  some fun a _ => g () * (((w a + xs a () * w a) * denom - num * w a) / denom ^ 2)

/-! ### objective.py 876-891 `RealPart` -/

/-- `np.real(input_vals[0])`. objective.py 887-888 -/
def realEval (xs : Fin 1 → ι → 𝕜) : ι → ℝ := fun i => RCLike.re (xs 0 i)

/-- `grad_val` unchanged. objective.py 890-891 -/
def realGrad (_ : Fin 1 → ι → 𝕜) (g : ι → ℝ) : Option (Fin 1 → ι → 𝕜) := some fun _ i => (g i : 𝕜)

end Verif.Obj
