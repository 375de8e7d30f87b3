import Verif.Render.Pixel
import Verif.Render.GridProps
import Mathlib.Algebra.Order.Floor.Semiring
import Mathlib.Algebra.BigOperators.Ring.List
/-
C61 (pixels of a pixelated shape), C47 (gradient of its rendering) and a consequence of C26.
-/
set_option linter.unusedVariables false
set_option linter.unusedSectionVars false
namespace Verif.Render

section
variable {K : Type} [Field K] [LinearOrder K] [IsStrictOrderedRing K] [FloorSemiring K]

theorem numPixels_spec (e p : K) (he : 0 < e) (hp : 0 < p) :
    1 ≤ numPixels e p ∧ ((numPixels e p : K) - 1) * p < e ∧ e ≤ (numPixels e p : K) * p := by
  have hq : 0 < e / p := div_pos he hp
  have h1 : e / p ≤ (⌈e / p⌉₊ : K) := Nat.le_ceil _
  have h2 : (⌈e / p⌉₊ : K) < e / p + 1 := Nat.ceil_lt_add_one hq.le
  have h3 : e ≤ (⌈e / p⌉₊ : K) * p := (div_le_iff₀ hp).1 h1
  have hn : numPixels e p = ⌈e / p⌉₊ := by
    simp only [numPixels]
    rw [if_neg (not_lt.2 h3)]
  rw [hn]
  refine ⟨Nat.one_le_iff_ne_zero.2 (Nat.ceil_pos.2 hq).ne', ?_, h3⟩
  have : (⌈e / p⌉₊ : K) - 1 < e / p := by linarith
  exact (lt_div_iff₀ hp).1 this

theorem relEdges_length (e p : K) : (relEdges e p).length = numPixels e p + 1 := by
  simp [relEdges]

theorem at'_relEdges (e p : K) (hn : 1 ≤ numPixels e p) (i : Nat) (hi : i ≤ numPixels e p) :
    at' (relEdges e p) i = if i = 0 then -e / 2 else if i = numPixels e p then e / 2
      else p * (i : K) - p * (numPixels e p : K) / 2 := by
  rw [at'_eq _ _ (by rw [relEdges_length]; omega)]
  simp only [relEdges, List.getElem_set]
  by_cases hin : i = numPixels e p
  · subst hin
    simp only [if_true]
    rw [if_neg (by omega)]
  · rw [if_neg (Ne.symm hin), if_neg hin]
    by_cases h0 : i = 0
    · simp [h0]
    · rw [if_neg (Ne.symm h0), if_neg h0]
      simp [at']

/-- **C61**. For every extent and pixel size, the pixel grid has the number of pixels that `get_shape` announces, its edges
are in order and go from one end of the shape to the other, the inner pixels have exactly the pixel size, and the two
pixels at the ends are equal and at most that large (and more than half as large). -/
theorem pixel_edges (e p : K) (he : 0 < e) (hp : 0 < p) :
    (relEdges e p).length = getShape e p + 1 ∧ (relEdges e p).Pairwise (· < ·) ∧
    at' (relEdges e p) 0 = -e / 2 ∧ at' (relEdges e p) (getShape e p) = e / 2 ∧
    (∀ i, 1 ≤ i → i + 2 ≤ getShape e p → at' (relEdges e p) (i + 1) - at' (relEdges e p) i = p) ∧
    (2 ≤ getShape e p →
      at' (relEdges e p) 1 - at' (relEdges e p) 0 =
        at' (relEdges e p) (getShape e p) - at' (relEdges e p) (getShape e p - 1) ∧
      p / 2 < at' (relEdges e p) 1 - at' (relEdges e p) 0 ∧ at' (relEdges e p) 1 - at' (relEdges e p) 0 ≤ p) := by
  obtain ⟨n1, n2, n3⟩ := numPixels_spec e p he hp
  have hshape : getShape e p = numPixels e p := by
    have hq : 0 < e / p := div_pos he hp
    have f1 : (⌊e / p⌋₊ : K) ≤ e / p := Nat.floor_le hq.le
    have f2 : e / p < (⌊e / p⌋₊ : K) + 1 := Nat.lt_floor_add_one _
    have f1' : (⌊e / p⌋₊ : K) * p ≤ e := (le_div_iff₀ hp).1 f1
    have f2' : e < ((⌊e / p⌋₊ : K) + 1) * p := (div_lt_iff₀ hp).1 f2
    simp only [getShape, Nat.add_sub_cancel]
    have key : ∀ m : Nat, ((m : K) - 1) * p < e → e ≤ (m : K) * p → m = numPixels e p := by
      intro m h1 h2
      have a : (m : K) - 1 < (numPixels e p : K) := lt_of_mul_lt_mul_right (h1.trans_le n3) hp.le
      have b : (numPixels e p : K) - 1 < (m : K) := lt_of_mul_lt_mul_right (n2.trans_le h2) hp.le
      have a' : (m : K) < ((numPixels e p + 1 : Nat) : K) := by push_cast; linarith
      have b' : (numPixels e p : K) < ((m + 1 : Nat) : K) := by push_cast; linarith
      have a'' := Nat.cast_lt.1 a'
      have b'' := Nat.cast_lt.1 b'
      omega
    split
    · rename_i h
      refine key _ ?_ (by linarith)
      linarith
    · rename_i h
      have h' := not_le.1 h
      refine key _ ?_ ?_
      · push_cast
        linarith
      · push_cast
        exact f2'.le
  rw [hshape]
  have hat := at'_relEdges e p n1
  generalize hnn : numPixels e p = n at *
  have hN : (1 : K) ≤ (n : K) := by exact_mod_cast n1
  refine ⟨by rw [relEdges_length, hnn], ?_, ?_, ?_, ?_, ?_⟩
  · refine pairwise_of_at' fun i hi => ?_
    rw [relEdges_length, hnn] at hi
    rw [hat i (by omega), hat (i + 1) (by omega)]
    by_cases h0 : i = 0
    · subst h0
      simp only [if_true, Nat.zero_add, Nat.one_ne_zero, if_false]
      by_cases h1 : 1 = n
      · rw [if_pos h1]
        linarith
      · rw [if_neg h1]
        push_cast
        nlinarith
    · rw [if_neg h0, if_neg (by omega : ¬ i = n), if_neg (by omega : ¬ i + 1 = 0)]
      by_cases h1 : i + 1 = n
      · rw [if_pos h1]
        have : (n : K) = (i : K) + 1 := by rw [← h1]; push_cast; ring
        rw [this] at n2 ⊢
        have hi1 : (1 : K) ≤ (i : K) := by
          have : 1 ≤ i := by omega
          exact_mod_cast this
        nlinarith
      · rw [if_neg h1]
        push_cast
        nlinarith
  · rw [hat 0 (by omega), if_pos rfl]
  · rw [hat n (le_refl _), if_neg (by omega), if_pos rfl]
  · intro i h1 h2
    rw [hat i (by omega), hat (i + 1) (by omega), if_neg (by omega : ¬ i + 1 = 0), if_neg (by omega : ¬ i + 1 = n),
      if_neg (by omega : ¬ i = 0), if_neg (by omega : ¬ i = n)]
    push_cast
    ring
  · intro h2
    have e1 : at' (relEdges e p) 1 - at' (relEdges e p) 0 = p - p * (n : K) / 2 + e / 2 := by
      rw [hat 0 (by omega), hat 1 (by omega), if_pos rfl, if_neg (by omega), if_neg (by omega)]
      push_cast
      ring
    have e2 : at' (relEdges e p) n - at' (relEdges e p) (n - 1) = p - p * (n : K) / 2 + e / 2 := by
      rw [hat n (le_refl _), hat (n - 1) (by omega), if_neg (by omega), if_pos rfl, if_neg (by omega), if_neg (by omega)]
      have : ((n - 1 : Nat) : K) = (n : K) - 1 := by
        rw [Nat.cast_sub n1, Nat.cast_one]
      rw [this]
      ring
    rw [e1, e2]
    refine ⟨rfl, ?_, ?_⟩ <;> nlinarith

/-- The centres are inside the pixels, one for each. -/
theorem pixel_centres (e p : K) (he : 0 < e) (hp : 0 < p) :
    (relCells e p).length = getShape e p ∧ ∀ i, i < getShape e p →
      at' (relEdges e p) i < at' (relCells e p) i ∧ at' (relCells e p) i < at' (relEdges e p) (i + 1) ∧
      at' (relCells e p) i - at' (relEdges e p) i = at' (relEdges e p) (i + 1) - at' (relCells e p) i := by
  obtain ⟨h1, h2, _⟩ := pixel_edges e p he hp
  refine ⟨by simp [relCells, h1], fun i hi => ?_⟩
  have hlt := at'_lt h2 (Nat.lt_succ_self i) (by omega)
  simp only [Nat.succ_eq_add_one] at hlt
  have : at' (relCells e p) i = (at' (relEdges e p) i + at' (relEdges e p) (i + 1)) / 2 := by
    rw [relCells, at'_zipWith _ _ _ _ (by simp; omega) (by simp; omega), at'_dropLast _ _ (by omega), at'_tail]
  rw [this]
  refine ⟨by linarith, by linarith, by ring⟩

/-- Edges of an extent of 5 in pixels of size 2: 3 pixels. -/
example : (0 : ℚ) < 5 ∧ (0 : ℚ) < 2 := by norm_num

/-! ### A uniform pixelated shape is a cuboid -/

theorem sum_kron (f h : Nat → K) (n m : Nat) :
    ((List.range (n * m)).map fun c => f (c / m) * h (c % m)).sum =
      ((List.range n).map f).sum * ((List.range m).map h).sum := by
  rcases Nat.eq_zero_or_pos m with hm | hm
  · subst hm
    simp
  · induction n with
    | zero => simp
    | succ n ih =>
      have hr : List.range ((n + 1) * m) = List.range (n * m) ++ (List.range m).map (n * m + ·) := by
        rw [Nat.succ_mul, List.range_add]
      rw [hr, List.map_append, List.sum_append, ih, List.map_map, List.range_succ, List.map_append, List.sum_append,
        add_mul]
      congr 1
      simp only [List.map_cons, List.map_nil, List.sum_cons, List.sum_nil, add_zero]
      rw [← List.sum_map_mul_left]
      congr 1
      refine List.map_congr_left fun c hc => ?_
      have hc' := List.mem_range.1 hc
      simp only [Function.comp_apply]
      have e1 : (n * m + c) / m = n := by
        rw [Nat.add_comm, Nat.add_mul_div_right _ _ hm, Nat.div_eq_of_lt hc', Nat.zero_add]
      have e2 : (n * m + c) % m = c := by
        rw [Nat.add_comm, Nat.add_mul_mod_self_right, Nat.mod_eq_of_lt hc']
      rw [e1, e2]

/-- The weights of a grid cell add up to the part of its volume that the shape covers. -/
theorem render_matrix_3d_total (shape grid : Fin 3 → List K) (hs : ∀ a, (shape a).Pairwise (· ≤ ·))
    (hsn : ∀ a, 1 ≤ (shape a).length)
    (hg : ∀ a, (grid a).Pairwise (· < ·)) (k : Fin 3 → Nat) (hk : ∀ a, k a + 1 < (grid a).length) :
    ((List.range (((shape 0).length - 1) * ((shape 1).length - 1) * ((shape 2).length - 1))).map fun c =>
      renderMatrix shape grid ((k 0 * ((grid 1).length - 1) + k 1) * ((grid 2).length - 1) + k 2) c).sum =
      covered (at' (shape 0) 0) (at' (shape 0) ((shape 0).length - 1)) (at' (grid 0) (k 0)) (at' (grid 0) (k 0 + 1)) *
      covered (at' (shape 1) 0) (at' (shape 1) ((shape 1).length - 1)) (at' (grid 1) (k 1)) (at' (grid 1) (k 1 + 1)) *
      covered (at' (shape 2) 0) (at' (shape 2) ((shape 2).length - 1)) (at' (grid 2) (k 2)) (at' (grid 2) (k 2 + 1)) := by
  have div : ∀ q n r : Nat, r < n → (q * n + r) / n = q := fun q n r h => by
    rw [Nat.add_comm, Nat.add_mul_div_right _ _ (by omega), Nat.div_eq_of_lt h, Nat.zero_add]
  have mod : ∀ q n r : Nat, r < n → (q * n + r) % n = r := fun q n r h => by
    rw [Nat.add_comm, Nat.add_mul_mod_self_right, Nat.mod_eq_of_lt h]
  have b : ∀ a, k a < (grid a).length - 1 := fun a => by have := hk a; omega
  unfold renderMatrix kron
  rw [div _ _ _ (b 2), mod _ _ _ (b 2), div _ _ _ (b 1), mod _ _ _ (b 1)]
  rw [sum_kron (fun c => renderMatrix1d (shape 0) (grid 0) (k 0) (c / ((shape 1).length - 1)) *
    renderMatrix1d (shape 1) (grid 1) (k 1) (c % ((shape 1).length - 1))), sum_kron]
  rw [render_matrix_total _ _ (hs 0) (hg 0) _ (hsn 0) (hk 0), render_matrix_total _ _ (hs 1) (hg 1) _ (hsn 1) (hk 1),
    render_matrix_total _ _ (hs 2) (hg 2) _ (hsn 2) (hk 2)]

theorem at'_absEdges (pos e p : K) (i : Nat) (hi : i < (relEdges e p).length) :
    at' (absEdges pos e p) i = at' (relEdges e p) i + pos := by
  rw [absEdges, at'_eq _ _ (by simpa using hi), at'_eq _ _ hi, List.getElem_map]

/-- **C26** for pixelated shapes. A pixelated shape whose values are all 1 renders like a cuboid of the second material: in
each cell, the cuboid of the first material that is drawn and the extra grid together give the second permittivity times
the part of the cell that the extents cover. -/
theorem pixelated_ones_is_cuboid (pos e p : Fin 3 → K) (he : ∀ a, 0 < e a) (hp : ∀ a, 0 < p a) (grid : Fin 3 → List K)
    (hg : ∀ a, (grid a).Pairwise (· < ·)) (k : Fin 3 → Nat) (hk : ∀ a, k a + 1 < (grid a).length) (eps1 eps2 : K) :
    let shape := fun a => absEdges (pos a) (e a) (p a)
    let cov := fun a => covered (pos a - e a / 2) (pos a + e a / 2) (at' (grid a) (k a)) (at' (grid a) (k a + 1))
    eps1 * (cov 0 * cov 1 * cov 2) +
      ((List.range (((shape 0).length - 1) * ((shape 1).length - 1) * ((shape 2).length - 1))).map fun c =>
        (eps2 - eps1) * renderMatrix shape grid ((k 0 * ((grid 1).length - 1) + k 1) * ((grid 2).length - 1) + k 2) c * 1).sum =
      eps2 * (cov 0 * cov 1 * cov 2) := by
  intro shape cov
  have hpe := fun a => pixel_edges (e a) (p a) (he a) (hp a)
  have hlen : ∀ a, (shape a).length = getShape (e a) (p a) + 1 := fun a => by
    simp only [shape, absEdges, List.length_map]
    exact (hpe a).1
  have hs : ∀ a, (shape a).Pairwise (· ≤ ·) := fun a => by
    simp only [shape, absEdges]
    rw [List.pairwise_map]
    exact (hpe a).2.1.imp fun {x y} h => by linarith
  have h0 : ∀ a, at' (shape a) 0 = pos a - e a / 2 := fun a => by
    simp only [shape]
    rw [at'_absEdges _ _ _ _ (by rw [(hpe a).1]; omega), (hpe a).2.2.1]
    ring
  have h1 : ∀ a, at' (shape a) ((shape a).length - 1) = pos a + e a / 2 := fun a => by
    rw [hlen a, Nat.add_sub_cancel]
    simp only [shape]
    rw [at'_absEdges _ _ _ _ (by rw [(hpe a).1]; omega), (hpe a).2.2.2.1]
    ring
  have htot := render_matrix_3d_total shape grid hs (fun a => by rw [hlen a]; omega) hg k hk
  simp only [h0, h1] at htot
  simp only [mul_one]
  rw [List.sum_map_mul_left, htot]
  simp only [cov]
  ring
end

/-! ### C47 -/

theorem re_sum (l : List ℂ) : l.sum.re = (l.map Complex.re).sum := by
  induction l with
  | nil => rfl
  | cons a l ih => simp [ih]

/-- What is added to the gradient for one axis. -/
noncomputable def axisPart (rows : Nat) (contrast : ℂ) (axis : (Nat → Nat → ℝ) × (Nat → ℂ)) (c : Nat) : ℝ :=
  (((List.range rows).map fun r => contrast * (axis.1 r c : ℂ) * axis.2 r).sum).re

theorem sum_swap (n m : Nat) (f : Nat → Nat → ℝ) :
    ((List.range n).map fun i => ((List.range m).map fun j => f i j).sum).sum =
      ((List.range m).map fun j => ((List.range n).map fun i => f i j).sum).sum := by
  induction n with
  | zero => simp
  | succ n ih =>
    simp only [List.range_succ, List.map_append, List.sum_append, List.map_cons, List.map_nil, List.sum_cons, List.sum_nil,
      add_zero, ih]
    rw [← List.sum_map_add]

theorem axisPart_pairing (rows cols : Nat) (contrast : ℂ) (axis : (Nat → Nat → ℝ) × (Nat → ℂ)) (v : Nat → ℝ) :
    ((List.range cols).map fun c => axisPart rows contrast axis c * v c).sum =
      ((List.range rows).map fun r => (axis.2 r * pixEval axis.1 cols contrast v r).re).sum := by
  have e1 : ∀ c, axisPart rows contrast axis c * v c =
      ((List.range rows).map fun r => (axis.2 r * (contrast * (axis.1 r c : ℂ) * (v c : ℂ))).re).sum := by
    intro c
    rw [axisPart, re_sum, List.map_map, ← List.sum_map_mul_right]
    congr 1
    refine List.map_congr_left fun r _ => ?_
    simp only [Function.comp_apply, Complex.mul_re, Complex.mul_im, Complex.ofReal_re, Complex.ofReal_im]
    ring
  have e2 : ∀ r, (axis.2 r * pixEval axis.1 cols contrast v r).re =
      ((List.range cols).map fun c => (axis.2 r * (contrast * (axis.1 r c : ℂ) * (v c : ℂ))).re).sum := by
    intro r
    rw [pixEval, ← List.sum_map_mul_left, re_sum, List.map_map]
    rfl
  simp only [e1, e2]
  exact sum_swap _ _ _

theorem pixGrad_real (rows : Nat) (contrast : ℂ) (axes : List ((Nat → Nat → ℝ) × (Nat → ℂ))) (g0 : Nat → ℝ) (c : Nat) :
    axes.foldl (pixGradStep rows contrast false) g0 c = g0 c + (axes.map fun a => axisPart rows contrast a c).sum := by
  induction axes generalizing g0 with
  | nil => simp
  | cons a axes ih =>
    rw [List.foldl_cons, ih, List.map_cons, List.sum_cons, ← add_assoc]
    congr 1

/-- **C47**, pixelated shapes, real permittivities. For every incoming gradient and every change `v` of the values, the
gradient returned for the values, applied to the change, is the incoming gradient applied to the change of the rendered
grids (rendering is linear, so that this is its derivative). Missing: complex gradients, see `pixel_grad_complex_false`. -/
theorem pixel_grad_adjoint_partial (rows cols : Nat) (contrast : ℂ) (axes : List ((Nat → Nat → ℝ) × (Nat → ℂ)))
    (v : Nat → ℝ) :
    ((List.range cols).map fun c => pixGrad rows contrast false axes c * v c).sum =
      (axes.map fun a => ((List.range rows).map fun r => (a.2 r * pixEval a.1 cols contrast v r).re).sum).sum := by
  have : ∀ c, pixGrad rows contrast false axes c = (axes.map fun a => axisPart rows contrast a c).sum := fun c => by
    rw [pixGrad, pixGrad_real, zero_add]
  simp only [this]
  induction axes with
  | nil => simp
  | cons a axes ih =>
    simp only [List.map_cons, List.sum_cons, add_mul]
    rw [← axisPart_pairing rows cols contrast a v, ← ih fun c => by rw [pixGrad, pixGrad_real, zero_add],
      ← List.sum_map_add]

/-- Rendering is linear in the values, so `pixEval … v` is the change of the grids when the values change by `v`. -/
theorem pixEval_add (mat : Nat → Nat → ℝ) (cols : Nat) (contrast : ℂ) (a v : Nat → ℝ) (r : Nat) :
    pixEval mat cols contrast (fun c => a c + v c) r = pixEval mat cols contrast a r + pixEval mat cols contrast v r := by
  simp only [pixEval, ← List.sum_map_add]
  congr 1
  refine List.map_congr_left fun c _ => ?_
  push_cast
  ring

/-- With complex values, the three axes are weighted by 8, 4 and 2. -/
theorem pixel_grad_complex (rows : Nat) (contrast : ℂ) (x y z : (Nat → Nat → ℝ) × (Nat → ℂ)) (c : Nat) :
    pixGrad rows contrast true [x, y, z] c =
      8 * axisPart rows contrast x c + 4 * axisPart rows contrast y c + 2 * axisPart rows contrast z c := by
  simp only [pixGrad, List.foldl_cons, List.foldl_nil, pixGradStep, if_true, axisPart]
  ring

/-- **C47** is false for complex gradients: there is no factor (1 or 2, depending on the convention for complex gradients)
with which the result is the gradient. -/
theorem pixel_grad_complex_false (κ : ℝ) :
    ∃ (x y z : (Nat → Nat → ℝ) × (Nat → ℂ)) (v : Nat → ℝ),
      ((List.range 1).map fun c => pixGrad 1 1 true [x, y, z] c * v c).sum ≠
      κ * ([x, y, z].map fun a => ((List.range 1).map fun r => (a.2 r * pixEval a.1 1 1 v r).re).sum).sum := by
  by_cases h : κ = 2
  · refine ⟨(fun _ _ => 1, fun _ => 1), (fun _ _ => 0, fun _ => 0), (fun _ _ => 0, fun _ => 0), fun _ => 1, ?_⟩
    simp only [pixel_grad_complex]
    norm_num [axisPart, pixEval, h]
  · refine ⟨(fun _ _ => 0, fun _ => 0), (fun _ _ => 0, fun _ => 0), (fun _ _ => 1, fun _ => 1), fun _ => 1, ?_⟩
    simp only [pixel_grad_complex]
    norm_num [axisPart, pixEval]
    exact fun h2 => h h2.symm

end Verif.Render
