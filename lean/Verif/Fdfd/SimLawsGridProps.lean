import Verif.Fdfd.SimLawsProps
import Verif.Render.DualWidthsProps
/-
Property C124: the grids of simulations satisfy the hypothesis of the laws with Bloch vectors.
-/
namespace Verif.Fdfd.Laws
open Matrix
variable {sh : Shape}

/-- The spacings are those of the edges `e`: `dxes = [grid.dxyz, grid.autoshifted_dxyz()]` of a grid made without the argument
`periodic` (simulate.py 467-474, simspace.py 73-74). -/
def SpacingsOf (c : SimCfg sh) (e : Fin 3 → List ℝ) : Prop := ∀ a, 2 ≤ (e a).length ∧
  c.hp.read c.dx.e a = (Render.widths (e a)).map ((↑) : ℝ → ℂ) ∧
  c.hp.read c.dx.h a = (Render.dualWidths (.scalar false) e a).map ((↑) : ℝ → ℂ)

theorem range_sum (l : List ℂ) : ∀ n, n = l.length → ((List.range n).map fun i => l.getD i 0).sum = l.sum := by
  rintro n rfl
  congr 1
  apply List.ext_getElem
  · simp
  · intro i h1 h2
    rw [List.getElem_map, List.getElem_range, List.getD_eq_getElem?_getD, List.getElem?_eq_getElem h2, Option.getD_some]

/-- The hypothesis `SamePeriod` of reciprocity and of the power balance is met by every grid of a simulation, if there are no
absorbing layers along the axes with a Bloch phase. -/
theorem samePeriod_of_spacings {c : SimCfg sh} (h : GoodSim c) (e : Fin 3 → List ℝ) (he : SpacingsOf c e)
    (hl : ∀ a, c.bloch.getD 0 a ≠ 0 → ∀ front, thickness c.pml a front ≤ 0) : SamePeriod c := by
  intro a hk
  obtain ⟨hn, hre, hrh⟩ := he a
  have hlen := h.shape a
  have hmesh : ∀ i, i ∈ List.range (sh a) → (mesh c).e a i = (c.hp.read c.dx.e a).getD i 0 ∧
      (mesh c).h a i = (c.hp.read c.dx.h a).getD i 0 := by
    intro i hi
    have h1 := hl a hk true
    have h2 := hl a hk false
    have := List.mem_range.1 hi
    exact mesh_outside h a i (by omega) (by omega)
  rw [List.map_congr_left fun i hi => (hmesh i hi).1, List.map_congr_left fun i hi => (hmesh i hi).2,
    range_sum _ _ hlen, range_sum _ _ (by rw [h.grid.len]; exact hlen), hre, hrh]
  have hs : ∀ l : List ℝ, (l.map ((↑) : ℝ → ℂ)).sum = ((l.sum : ℝ) : ℂ) := by
    intro l
    induction l with
    | nil => simp
    | cons x l ih => rw [List.map_cons, List.sum_cons, ih, List.sum_cons, Complex.ofReal_add]
  rw [hs, hs]
  exact congrArg _ (Render.dual_widths_partial (e a) hn).2.symm

/-- Two unequal cells along every axis with a Bloch vector along x. -/
example : ∃ (c : SimCfg ![2, 2, 2]) (e : Fin 3 → List ℝ), GoodSim c ∧ SpacingsOf c e ∧ c.bloch.getD 0 0 ≠ 0 ∧ SamePeriod c := by
  classical
  let c : SimCfg ![2, 2, 2] := ⟨⟨[[1, 2], [3 / 2, 3 / 2]], [fun _ => 0, fun _ => 1]⟩, ⟨0, 1⟩, 1, .absent, some fun _ => 1, fun _ => 1,
    fun A b => if h : ∃ x, A *ᵥ x = b then h.choose else 0⟩
  have hre : ∀ a, c.hp.read c.dx.e a = [1, 2] := fun _ => rfl
  have hrh : ∀ a, c.hp.read c.dx.h a = [3 / 2, 3 / 2] := fun _ => rfl
  have hg : GoodSim c := by
    refine ⟨?_, ⟨by decide, by decide, ?_⟩, ⟨fun _ => rfl, ?_, ?_⟩, fun a => ?_, one_pos, fun A b h => ?_⟩
    · intro a
      match a with
      | 0 => rfl
      | 1 => rfl
      | 2 => rfl
    · intro r hr a
      have : r = (fun _ => 0) ∨ r = fun _ => 1 := by simpa [c] using hr
      rcases this with rfl | rfl
      · exact Nat.zero_lt_two
      · exact Nat.one_lt_two
    · intro a x hx
      rw [hre] at hx
      have : x = 1 ∨ x = 2 := by simpa using hx
      rcases this with rfl | rfl <;> simp
    · intro a x hx
      rw [hrh] at hx
      have : x = 3 / 2 := by simpa using hx
      subst this
      rw [show (3 / 2 : ℂ) = ((3 / 2 : ℝ) : ℂ) by push_cast; rfl, Complex.ofReal_im, Complex.ofReal_re]
      exact ⟨rfl, by norm_num⟩
    · show max 0 (0 : Int) + max 0 0 ≤ ((c.hp.read c.dx.e a).length : Int)
      rw [hre]; decide
    · show A *ᵥ (if h : ∃ x, A *ᵥ x = b then h.choose else 0) = b
      rw [dif_pos h]
      exact h.choose_spec
  have hs : SpacingsOf c fun _ => [0, 1, 3] := by
    intro a
    have hw : Render.widths ([0, 1, 3] : List ℝ) = [1, 2] := by norm_num [Render.widths]
    refine ⟨by show 2 ≤ 3; decide, ?_, ?_⟩
    · rw [hre, hw]
      simp
    · rw [hrh, Render.dualWidths, Render.periodicFlags, Render.autoshifted_cons false _ 1 [2] hw two_ne_zero]
      norm_num
  exact ⟨c, _, hg, hs, one_ne_zero, samePeriod_of_spacings hg _ hs fun a _ front => le_refl _⟩

end Verif.Fdfd.Laws
