import Verif.Cubic.InterpProps
import Mathlib.Analysis.Calculus.Deriv.Add
import Mathlib.Analysis.Calculus.Deriv.Mul
import Mathlib.Analysis.Calculus.Deriv.Pow
import Mathlib.Topology.Algebra.Ring.Real

/-!
# C83: the interpolated surface is continuously differentiable
-/

set_option linter.unusedVariables false
set_option linter.unusedSectionVars false
set_option linter.unusedSimpArgs false

namespace Verif.Cubic

open Finset Set

/-! ## One variable -/

theorem hermite_hasDerivAt {h : ℝ} (hh : h ≠ 0) (q f0 f1 d0 d1 x : ℝ) :
    HasDerivAt (fun s => hermite h (s - q) f0 f1 d0 d1) (hermiteD h (x - q) f0 f1 d0 d1) x := by
  have hu : HasDerivAt (fun s : ℝ => (s - q) / h) (1 / h) x :=
    ((hasDerivAt_id x).sub_const q).div_const h
  have hu2 := hu.pow 2
  have hu3 := hu.pow 3
  have A := (((hasDerivAt_const x (1 : ℝ)).sub (hu2.const_mul 3)).add (hu3.const_mul 2)).const_mul f0
  have B := ((hu2.const_mul 3).sub (hu3.const_mul 2)).const_mul f1
  have C := (((hu.sub (hu2.const_mul 2)).add hu3).const_mul h).const_mul d0
  have D := ((hu2.neg.add hu3).const_mul h).const_mul d1
  have E := ((A.add B).add C).add D
  unfold hermite hermiteD
  refine E.congr_deriv ?_
  simp only [Nat.cast_ofNat, Nat.add_one_sub_one, pow_one, Nat.reduceSub]
  field_simp
  ring

theorem onCell_hasDerivAt (per : Bool) {xs : List ℝ} (hx : Increasing xs) (f : Nat → ℝ) {k : Nat}
    (hk : k + 1 < xs.length) (x : ℝ) :
    HasDerivAt (onCell per xs f k) (onCellD per xs f k x) x :=
  hermite_hasDerivAt (sub_ne_zero.2 (hx.ne (Nat.lt_succ_self k) hk).symm) _ _ _ _ _ _

theorem onCellD_continuous (per : Bool) (xs : List ℝ) (f : Nat → ℝ) (k : Nat) :
    Continuous (onCellD per xs f k) := by
  unfold onCellD hermiteD
  fun_prop

theorem interp_hasDerivWithinAt_aux (per : Bool) {xs : List ℝ} (hx : Increasing xs) (f : Nat → ℝ) :
    ∀ m, m < xs.length → ∀ x ∈ Icc (xs.getD 0 0) (xs.getD m 0), 0 < m →
      HasDerivWithinAt (interp per xs f) (interpD per xs f x) (Icc (xs.getD 0 0) (xs.getD m 0)) x := by
  intro m
  induction m with
  | zero => intro _ _ _ h; omega
  | succ m ih =>
    intro hm x hxm _
    have h0m : xs.getD 0 0 ≤ xs.getD m 0 := hx.le (by omega) (by omega)
    have hmm : xs.getD m 0 ≤ xs.getD (m + 1) 0 := hx.le (by omega) hm
    have hcell : x ∈ Icc (xs.getD m 0) (xs.getD (m + 1) 0) →
        HasDerivWithinAt (interp per xs f) (interpD per xs f x)
          (Icc (xs.getD m 0) (xs.getD (m + 1) 0)) x := by
      intro hxc
      rw [(interp_closed per hx f hm hxc.1 hxc.2).2]
      exact (onCell_hasDerivAt per hx f hm x).hasDerivWithinAt.congr
        (fun s hs => (interp_closed per hx f hm hs.1 hs.2).1)
        (interp_closed per hx f hm hxc.1 hxc.2).1
    have hout : ∀ {a b : ℝ}, x ∉ Icc a b →
        HasDerivWithinAt (interp per xs f) (interpD per xs f x) (Icc a b) x := by
      intro a b hn
      have hcl : x ∉ closure (Set.Icc a b) := by rwa [isClosed_Icc.closure_eq]
      exact HasFDerivWithinAt.of_notMem_closure hcl
    rw [← Icc_union_Icc_eq_Icc h0m hmm]
    refine HasDerivWithinAt.union ?_ ?_
    · rcases Nat.eq_zero_or_pos m with rfl | hpos
      · by_cases hxe : x = xs.getD 0 0
        · rw [Set.Icc_self, hxe]
          exact HasFDerivWithinAt.singleton (x := xs.getD 0 0)
        · exact hout (by rw [Set.Icc_self]; exact hxe)
      · by_cases hmem : x ∈ Icc (xs.getD 0 0) (xs.getD m 0)
        · exact ih (by omega) x hmem hpos
        · exact hout hmem
    · by_cases hmem : x ∈ Icc (xs.getD m 0) (xs.getD (m + 1) 0)
      · exact hcell hmem
      · exact hout hmem

theorem interp_hasDerivWithinAt (per : Bool) {xs : List ℝ} (hx : Increasing xs) (h2 : 2 ≤ xs.length)
    (f : Nat → ℝ) {x : ℝ} (hin : Inside xs x) :
    HasDerivWithinAt (interp per xs f) (interpD per xs f x) {s | Inside xs s} x :=
  interp_hasDerivWithinAt_aux per hx f (xs.length - 1) (by omega) x hin (by omega)

theorem interpD_continuousOn_aux (per : Bool) {xs : List ℝ} (hx : Increasing xs) (f : Nat → ℝ) :
    ∀ m, m < xs.length → ContinuousOn (interpD per xs f) (Icc (xs.getD 0 0) (xs.getD m 0)) := by
  intro m
  induction m with
  | zero => intro _; rw [Set.Icc_self]; exact continuousOn_singleton _ _
  | succ m ih =>
    intro hm
    have h0m : xs.getD 0 0 ≤ xs.getD m 0 := hx.le (by omega) (by omega)
    have hmm : xs.getD m 0 ≤ xs.getD (m + 1) 0 := hx.le (by omega) hm
    rw [← Icc_union_Icc_eq_Icc h0m hmm]
    refine (ih (by omega)).union_of_isClosed ?_ isClosed_Icc isClosed_Icc
    exact (onCellD_continuous per xs f m).continuousOn.congr
      (fun s hs => (interp_closed per hx f hm hs.1 hs.2).2)

theorem interpD_continuousOn (per : Bool) {xs : List ℝ} (hx : Increasing xs) (h2 : 2 ≤ xs.length)
    (f : Nat → ℝ) : ContinuousOn (interpD per xs f) {s | Inside xs s} :=
  interpD_continuousOn_aux per hx f (xs.length - 1) (by omega)

theorem interp_continuousOn (per : Bool) {xs : List ℝ} (hx : Increasing xs) (h2 : 2 ≤ xs.length)
    (f : Nat → ℝ) : ContinuousOn (interp per xs f) {s | Inside xs s} :=
  fun x hin => (interp_hasDerivWithinAt per hx h2 f hin).continuousWithinAt

/-! ## Linearity -/

theorem slope_add_smul (per : Bool) (xs : List ℝ) (f g : Nat → ℝ) (c : ℝ) (i : Nat) :
    slope per xs (fun m => f m + c * g m) i = slope per xs f i + c * slope per xs g i := by
  unfold slope threePoint
  simp only []
  split
  · split <;> split <;> ring
  · split
    · ring
    · split <;> ring

theorem interp_add_smul (per : Bool) (xs : List ℝ) (f g : Nat → ℝ) (c x : ℝ) :
    interp per xs (fun m => f m + c * g m) x = interp per xs f x + c * interp per xs g x ∧
    interpD per xs (fun m => f m + c * g m) x = interpD per xs f x + c * interpD per xs g x := by
  unfold interp interpD onCell onCellD
  rw [slope_add_smul, slope_add_smul]
  unfold hermite hermiteD
  constructor <;> ring

theorem interp_zero (per : Bool) (xs : List ℝ) (x : ℝ) :
    interp per xs (fun _ => 0) x = 0 ∧ interpD per xs (fun _ => 0) x = 0 := by
  have := interp_add_smul per xs (fun _ => 0) (fun _ => 0) 1 x
  simp only [mul_zero, add_zero, one_mul] at this
  exact ⟨by linarith [this.1], by linarith [this.2]⟩

theorem interp_sum (per : Bool) (xs : List ℝ) (c : Nat → ℝ) (g : Nat → Nat → ℝ) (n : Nat) (x : ℝ) :
    interp per xs (fun m => ∑ s ∈ range n, c s * g s m) x = ∑ s ∈ range n, c s * interp per xs (g s) x ∧
    interpD per xs (fun m => ∑ s ∈ range n, c s * g s m) x =
      ∑ s ∈ range n, c s * interpD per xs (g s) x := by
  induction n with
  | zero => simpa using interp_zero per xs x
  | succ n ih =>
    simp only [Finset.sum_range_succ]
    rw [(interp_add_smul per xs _ _ _ x).1, (interp_add_smul per xs _ _ _ x).2, ih.1, ih.2]
    exact ⟨rfl, rfl⟩

/-- The basis function of one coarse value. -/
def unit (s m : Nat) : ℝ := if m = s then 1 else 0

theorem interp_basis {per : Bool} {xs : List ℝ} (hn : Enough per xs.length) (f : Nat → ℝ) (x : ℝ) :
    interp per xs f x = ∑ s ∈ range (freeLen per xs.length), f s * interp per xs (unit s) x ∧
    interpD per xs f x = ∑ s ∈ range (freeLen per xs.length), f s * interpD per xs (unit s) x := by
  rw [← (interp_sum per xs f unit _ x).1, ← (interp_sum per xs f unit _ x).2]
  refine interp_congr hn (fun m hm => ?_) x
  unfold unit
  simp only [mul_ite, mul_one, mul_zero]
  rw [Finset.sum_ite_eq (range (freeLen per xs.length)) m f, if_pos (mem_range.2 hm)]

/-! ## Two variables -/

section
variable {xs ys : List ℝ} {per : Bool × Bool}

/-- The region of the coarse grid. -/
def region (xs ys : List ℝ) : Set (ℝ × ℝ) := {s | Inside xs s} ×ˢ {s | Inside ys s}

theorem surface_basis (hx : Increasing xs) (hy : Increasing ys)
    (hnx : Enough per.1 xs.length) (hny : Enough per.2 ys.length) (v : Nat → ℝ) {x y : ℝ}
    (hix : Inside xs x) (hiy : Inside ys y) :
    surface xs ys per v x y =
      (∑ i ∈ range (freeLen per.1 xs.length), (∑ j ∈ range (freeLen per.2 ys.length),
          v (i + freeLen per.1 xs.length * j) * interp per.2 ys (unit j) y) * interp per.1 xs (unit i) x,
       ∑ i ∈ range (freeLen per.1 xs.length), (∑ j ∈ range (freeLen per.2 ys.length),
          v (i + freeLen per.1 xs.length * j) * interp per.2 ys (unit j) y) * interpD per.1 xs (unit i) x,
       ∑ i ∈ range (freeLen per.1 xs.length), (∑ j ∈ range (freeLen per.2 ys.length),
          v (i + freeLen per.1 xs.length * j) * interpD per.2 ys (unit j) y) * interp per.1 xs (unit i) x) := by
  rw [surface_eq hx hy hnx hny v hix hiy, (interp_basis hnx _ x).1, (interp_basis hnx _ x).2,
    (interp_basis hnx _ x).1]
  simp only [fun i : Nat => (interp_basis hny (fun j => v (i + freeLen per.1 xs.length * j)) y).1,
    fun i : Nat => (interp_basis hny (fun j => v (i + freeLen per.1 xs.length * j)) y).2]

/-- C83: the derivative matrices give the derivatives of the interpolated surface: at every point of
the coarse grid's region, including cell borders, the surface is differentiable along x and along y
(one-sidedly at the border of the region), with the derivatives that the code computes. -/
theorem surface_derivative (hx : Increasing xs) (hy : Increasing ys)
    (hnx : Enough per.1 xs.length) (hny : Enough per.2 ys.length) (v : Nat → ℝ) {x y : ℝ}
    (hix : Inside xs x) (hiy : Inside ys y) :
    HasDerivWithinAt (fun s => (surface xs ys per v s y).1) (surface xs ys per v x y).2.1
      {s | Inside xs s} x ∧
    HasDerivWithinAt (fun s => (surface xs ys per v x s).1) (surface xs ys per v x y).2.2
      {s | Inside ys s} y := by
  rw [surface_eq hx hy hnx hny v hix hiy]
  constructor
  · refine (interp_hasDerivWithinAt per.1 hx hnx.two
      (fun i => interp per.2 ys (fun j => v (i + freeLen per.1 xs.length * j)) y) hix).congr ?_ ?_
    · intro s hs
      rw [surface_eq hx hy hnx hny v hs hiy]
    · rw [surface_eq hx hy hnx hny v hix hiy]
  · have hsum : HasDerivWithinAt
        (fun s => ∑ i ∈ range (freeLen per.1 xs.length),
          interp per.2 ys (fun j => v (i + freeLen per.1 xs.length * j)) s * interp per.1 xs (unit i) x)
        (∑ i ∈ range (freeLen per.1 xs.length),
          interpD per.2 ys (fun j => v (i + freeLen per.1 xs.length * j)) y * interp per.1 xs (unit i) x)
        {s | Inside ys s} y := by
      refine HasDerivWithinAt.fun_sum (fun i _ => ?_)
      exact (interp_hasDerivWithinAt per.2 hy hny.two _ hiy).mul_const _
    rw [← (interp_basis hnx (fun i => interpD per.2 ys
      (fun j => v (i + freeLen per.1 xs.length * j)) y) x).1] at hsum
    refine hsum.congr ?_ ?_
    · intro s hs
      rw [surface_eq hx hy hnx hny v hix hs]
      exact (interp_basis hnx (fun i => interp per.2 ys (fun j => v (i + freeLen per.1 xs.length * j)) _) x).1
    · rw [surface_eq hx hy hnx hny v hix hiy]
      exact (interp_basis hnx (fun i => interp per.2 ys (fun j => v (i + freeLen per.1 xs.length * j)) _) x).1

/-- C83: the surface and both derivatives are continuous on the whole region of the coarse grid:
the surface is continuously differentiable across the borders of the cells. -/
theorem surface_continuous (hx : Increasing xs) (hy : Increasing ys)
    (hnx : Enough per.1 xs.length) (hny : Enough per.2 ys.length) (v : Nat → ℝ) :
    ContinuousOn (fun p : ℝ × ℝ => surface xs ys per v p.1 p.2) (region xs ys) := by
  have hX : ∀ i, ContinuousOn (fun p : ℝ × ℝ => interp per.1 xs (unit i) p.1) (region xs ys) := fun i =>
    (interp_continuousOn per.1 hx hnx.two (unit i)).comp continuousOn_fst (fun p hp => hp.1)
  have hXD : ∀ i, ContinuousOn (fun p : ℝ × ℝ => interpD per.1 xs (unit i) p.1) (region xs ys) := fun i =>
    (interpD_continuousOn per.1 hx hnx.two (unit i)).comp continuousOn_fst (fun p hp => hp.1)
  have hY : ∀ i, ContinuousOn (fun p : ℝ × ℝ => interp per.2 ys (unit i) p.2) (region xs ys) := fun i =>
    (interp_continuousOn per.2 hy hny.two (unit i)).comp continuousOn_snd (fun p hp => hp.2)
  have hYD : ∀ i, ContinuousOn (fun p : ℝ × ℝ => interpD per.2 ys (unit i) p.2) (region xs ys) := fun i =>
    (interpD_continuousOn per.2 hy hny.two (unit i)).comp continuousOn_snd (fun p hp => hp.2)
  have hall := ContinuousOn.prodMk
    (continuousOn_finsetSum (range (freeLen per.1 xs.length)) (fun i _ =>
      (continuousOn_finsetSum (range (freeLen per.2 ys.length)) (fun j _ =>
        (continuousOn_const (c := v (i + freeLen per.1 xs.length * j))).mul (hY j))).mul (hX i)))
    (ContinuousOn.prodMk
      (continuousOn_finsetSum (range (freeLen per.1 xs.length)) (fun i _ =>
        (continuousOn_finsetSum (range (freeLen per.2 ys.length)) (fun j _ =>
          (continuousOn_const (c := v (i + freeLen per.1 xs.length * j))).mul (hY j))).mul (hXD i)))
      (continuousOn_finsetSum (range (freeLen per.1 xs.length)) (fun i _ =>
        (continuousOn_finsetSum (range (freeLen per.2 ys.length)) (fun j _ =>
          (continuousOn_const (c := v (i + freeLen per.1 xs.length * j))).mul (hYD j))).mul (hX i))))
  refine hall.congr ?_
  intro p hp
  exact surface_basis hx hy hnx hny v hp.1 hp.2

theorem interp_seam {zs : List ℝ} (hz : Increasing zs) (h2 : 2 ≤ zs.length) (f : Nat → ℝ) :
    interp true zs f (zs.getD 0 0) = interp true zs f (zs.getD (zs.length - 1) 0) ∧
    interpD true zs f (zs.getD 0 0) = interpD true zs f (zs.getD (zs.length - 1) 0) := by
  obtain ⟨a1, a2⟩ := interp_node true hz h2 f (show 0 < zs.length by omega)
  obtain ⟨b1, b2⟩ := interp_node true hz h2 f (show zs.length - 1 < zs.length by omega)
  have e1 : wrap true zs.length 0 = 0 := by unfold wrap; split <;> rfl
  have e2 : wrap true zs.length (zs.length - 1) = 0 := by
    unfold wrap
    rw [if_pos ⟨rfl, by omega⟩]
  rw [a1, a2, b1, b2, e1, e2]
  exact ⟨rfl, rfl⟩

/-- C83: on a periodic axis the surface and both derivatives agree at the two ends of the period, so
the periodic continuation is continuously differentiable too. -/
theorem surface_seam (hx : Increasing xs) (hy : Increasing ys)
    (hnx : Enough per.1 xs.length) (hny : Enough per.2 ys.length) (v : Nat → ℝ) :
    (per.1 = true → ∀ y, Inside ys y →
      surface xs ys per v (xs.getD 0 0) y = surface xs ys per v (xs.getD (xs.length - 1) 0) y) ∧
    (per.2 = true → ∀ x, Inside xs x →
      surface xs ys per v x (ys.getD 0 0) = surface xs ys per v x (ys.getD (ys.length - 1) 0)) := by
  have h2 := hnx.two
  have h2' := hny.two
  have inl : ∀ {zs : List ℝ}, Increasing zs → 2 ≤ zs.length → Inside zs (zs.getD 0 0) :=
    fun h h2 => ⟨le_refl _, h.le (by omega) (by omega)⟩
  have inr : ∀ {zs : List ℝ}, Increasing zs → 2 ≤ zs.length → Inside zs (zs.getD (zs.length - 1) 0) :=
    fun h h2 => ⟨h.le (by omega) (by omega), le_refl _⟩
  constructor
  · intro hp y hiy
    rw [surface_eq hx hy hnx hny v (inl hx h2) hiy, surface_eq hx hy hnx hny v (inr hx h2) hiy, hp,
      (interp_seam hx h2 _).1, (interp_seam hx h2 _).2, (interp_seam hx h2 _).1]
  · intro hp x hix
    rw [surface_eq hx hy hnx hny v hix (inl hy h2'), surface_eq hx hy hnx hny v hix (inr hy h2'), hp]
    simp only [fun i : Nat => (interp_seam hy h2' (fun j => v (i + freeLen per.1 xs.length * j))).1,
      fun i : Nat => (interp_seam hy h2' (fun j => v (i + freeLen per.1 xs.length * j))).2]

/-- Non-vacuity: an irregular grid, periodic along y. -/
example : Increasing ([0, 1, 3, 4] : List ℝ) ∧ Increasing ([0, 2, 3] : List ℝ) ∧
    Enough (false, true).1 ([0, 1, 3, 4] : List ℝ).length ∧
    Enough (false, true).2 ([0, 2, 3] : List ℝ).length ∧ Inside ([0, 1, 3, 4] : List ℝ) 1 := by
  refine ⟨?_, ?_, ?_, ?_, ?_⟩
  · intro i j hij hj
    have : j < 4 := hj
    interval_cases j <;> interval_cases i <;> norm_num
  · intro i j hij hj
    have : j < 3 := hj
    interval_cases j <;> interval_cases i <;> norm_num
  · simp [Enough]
  · simp [Enough]
  · norm_num [Inside]

end

end Verif.Cubic
