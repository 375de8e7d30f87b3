import Mathlib.Analysis.Calculus.FDeriv.Basic
import Mathlib.Analysis.Calculus.FDeriv.Pi
import Mathlib.Analysis.RCLike.Basic
/-
Specification for C48: what it means that the gradient a node reports is the derivative of its value.
-/
namespace Verif.Obj
variable {𝕜 : Type} [RCLike 𝕜] {ι κ : Type} [Fintype ι] [Fintype κ] {k : Nat}

/-- `gr` reports the derivative of `f` at the inputs `x`: `f` has a derivative `D` there (over the reals for real
arrays, a complex derivative for complex ones), and for every gradient `g` of a final objective with respect to the
output, `gr` returns arrays, one per input, whose pairing with any change `d` of the inputs is the pairing of `g` with
the change `D d` of the output. -/
def IsGradient (f : (Fin k → ι → 𝕜) → κ → 𝕜) (gr : (Fin k → ι → 𝕜) → (κ → 𝕜) → Option (Fin k → ι → 𝕜))
    (x : Fin k → ι → 𝕜) : Prop :=
  ∃ D : (Fin k → ι → 𝕜) →L[𝕜] (κ → 𝕜), HasFDerivAt f D x ∧
    ∀ g, ∃ r, gr x g = some r ∧ ∀ d, ∑ j, g j * D d j = ∑ a, ∑ i, r a i * d a i

/-- The same for real-valued functions of complex arrays, which have no complex derivative: the change of the output
paired with `g` is `c` times the real part of the pairing of the reported arrays with the change of the inputs. For
`c = 2` the reported array is the Wirtinger derivative `∂/∂z`, the convention of goos for complex arrays; invdes uses
`c = 1`; for real arrays `c = 1` is the ordinary gradient. -/
def IsRealGradient (c : ℝ) (f : (Fin k → ι → 𝕜) → κ → ℝ)
    (gr : (Fin k → ι → 𝕜) → (κ → ℝ) → Option (Fin k → ι → 𝕜)) (x : Fin k → ι → 𝕜) : Prop :=
  ∃ D : (Fin k → ι → 𝕜) →L[ℝ] (κ → ℝ), HasFDerivAt f D x ∧
    ∀ g, ∃ r, gr x g = some r ∧ ∀ d, ∑ j, g j * D d j = c * RCLike.re (∑ a, ∑ i, r a i * d a i)

end Verif.Obj
