import Verif.Render.PolygonEdges
import Verif.Render.PolygonSpec
import Mathlib.Analysis.SpecialFunctions.Integrals.Basic
import Mathlib.MeasureTheory.Integral.IntervalIntegral.Basic
/-
Lemmas for C86: the area to the right of a segment inside of a pixel as an integral, and the integral of the winding number.
-/
set_option linter.unusedVariables false
set_option linter.unusedSectionVars false
namespace Verif.Render.Polygon

open Verif.Render MeasureTheory Set

/-- How much of the row `[a, b]` of a pixel is to the right of the line through `p` and `q`, at the height `y`. -/
noncomputable def rightOf (a b : ℝ) (p q : ℝ × ℝ) (y : ℝ) : ℝ := b - clip (xAt p q y) a b

theorem continuous_rightOf (a b : ℝ) (p q : ℝ × ℝ) : Continuous (rightOf a b p q) := by
  unfold rightOf clip xAt
  fun_prop

/-- The area to the right of a segment inside a pixel. -/
noncomputable def edgeArea (a b c d : ℝ) (p q : ℝ × ℝ) : ℝ := ∫ y in clip p.2 c d..clip q.2 c d, rightOf a b p q y

/-! ### Pieces of a segment -/

theorem one_side {x y c : ℝ} (h : ¬ (x < c ∧ c < y) ∧ ¬ (y < c ∧ c < x)) : (x ≤ c ∧ y ≤ c) ∨ (c ≤ x ∧ c ≤ y) := by
  rcases lt_trichotomy x c with hx | hx | hx
  · exact Or.inl ⟨hx.le, by by_contra hy; exact h.1 ⟨hx, not_le.1 hy⟩⟩
  · rcases le_total y c with hy | hy
    · exact Or.inl ⟨hx.le, hy⟩
    · exact Or.inr ⟨hx.ge, hy⟩
  · exact Or.inr ⟨hx.le, by by_contra hy; exact h.2 ⟨not_le.1 hy, hx⟩⟩

theorem affine_le {α β s t y M : ℝ} (hy : y ∈ uIcc s t) (hs : α + β * s ≤ M) (ht : α + β * t ≤ M) : α + β * y ≤ M := by
  rcases mem_uIcc.1 hy with ⟨h1, h2⟩ | ⟨h1, h2⟩ <;> rcases le_total 0 β with hb | hb <;> nlinarith

theorem le_affine {α β s t y M : ℝ} (hy : y ∈ uIcc s t) (hs : M ≤ α + β * s) (ht : M ≤ α + β * t) : M ≤ α + β * y := by
  rcases mem_uIcc.1 hy with ⟨h1, h2⟩ | ⟨h1, h2⟩ <;> rcases le_total 0 β with hb | hb <;> nlinarith

/-- The area to the right of a piece which does not cross the lines of the sides. -/
theorem piece_area {a b c d α β : ℝ} (hab : a ≤ b) (hcd : c ≤ d) {u v : ℝ × ℝ} (hx : NotBetween [a, b] u.1 v.1)
    (hy : NotBetween [c, d] u.2 v.2) (hu : u.2 ≠ v.2 → α + β * u.2 = u.1) (hv : u.2 ≠ v.2 → α + β * v.2 = v.1) :
    cellArea a b c d u v = ∫ y in clip u.2 c d..clip v.2 c d, (b - clip (α + β * y) a b) := by
  by_cases he : u.2 = v.2
  · rw [cellArea, he]
    simp
  · have hu := hu he
    have hv := hv he
    have hrow : clip u.2 c d = clip v.2 c d ∨ (clip u.2 c d = u.2 ∧ clip v.2 c d = v.2) := by
      rcases one_side (hy c (by simp)) with ⟨h1, h2⟩ | ⟨h1, h2⟩
      · exact Or.inl (by rw [clip_le hcd h1, clip_le hcd h2])
      · rcases one_side (hy d (by simp)) with ⟨h3, h4⟩ | ⟨h3, h4⟩
        · exact Or.inr ⟨clip_mid h1 h3, clip_mid h2 h4⟩
        · exact Or.inl (by rw [clip_ge h3, clip_ge h4])
    rcases hrow with hrow | ⟨r1, r2⟩
    · rw [cellArea, hrow]
      simp
    · rw [cellArea, r1, r2]
      rcases one_side (hx a (by simp)) with ⟨h1, h2⟩ | ⟨h1, h2⟩
      · rw [intervalIntegral.integral_congr (g := fun _ => b - a)]
        · rw [clip_le hab h1, clip_le hab h2]
          simp
          ring
        · intro y hy
          simp only
          rw [clip_le hab (affine_le hy (by rw [hu]; exact h1) (by rw [hv]; exact h2))]
      · rcases one_side (hx b (by simp)) with ⟨h3, h4⟩ | ⟨h3, h4⟩
        · rw [intervalIntegral.integral_congr (g := fun y => (b - α) - β * y)]
          · rw [clip_mid h1 h3, clip_mid h2 h4, intervalIntegral.integral_sub (by simp) (by
              apply Continuous.intervalIntegrable; fun_prop), intervalIntegral.integral_const,
              intervalIntegral.integral_const_mul, integral_id]
            simp only [smul_eq_mul]
            rw [← hu, ← hv]
            ring
          · intro y hy
            simp only
            rw [clip_mid (le_affine hy (by rw [hu]; exact h1) (by rw [hv]; exact h2))
              (affine_le hy (by rw [hu]; exact h3) (by rw [hv]; exact h4))]
            ring
        · rw [intervalIntegral.integral_congr (g := fun _ => 0)]
          · rw [clip_ge h3, clip_ge h4]
            simp
          · intro y hy
            simp only
            rw [clip_ge (le_affine hy (by rw [hu]; exact h3) (by rw [hv]; exact h4)), sub_self]

theorem xAt_between {p q : ℝ × ℝ} (h : p.2 ≠ q.2) (t : ℝ) : xAt p q (between p q t).2 = (between p q t).1 := by
  have : q.2 - p.2 ≠ 0 := sub_ne_zero.2 h.symm
  simp only [xAt, between]
  field_simp
  ring

/-- The area to the right of the piece between two points of a segment. -/
theorem between_area {a b c d : ℝ} (hab : a ≤ b) (hcd : c ≤ d) (p q : ℝ × ℝ) (s t : ℝ)
    (hx : NotBetween [a, b] (between p q s).1 (between p q t).1)
    (hy : NotBetween [c, d] (between p q s).2 (between p q t).2) :
    cellArea a b c d (between p q s) (between p q t) =
      ∫ y in clip (between p q s).2 c d..clip (between p q t).2 c d, rightOf a b p q y := by
  have hxa : ∀ y, xAt p q y = (p.1 - p.2 / (q.2 - p.2) * (q.1 - p.1)) + ((q.1 - p.1) / (q.2 - p.2)) * y := by
    intro y
    simp only [xAt]
    ring
  have hne : (between p q s).2 ≠ (between p q t).2 → p.2 ≠ q.2 := by
    intro h he
    apply h
    simp [between, he]
  rw [piece_area hab hcd hx hy (α := p.1 - p.2 / (q.2 - p.2) * (q.1 - p.1)) (β := (q.1 - p.1) / (q.2 - p.2))]
  · simp only [rightOf, hxa]
  · intro h
    rw [← hxa, xAt_between (hne h)]
  · intro h
    rw [← hxa, xAt_between (hne h)]

theorem notBetween_sub {cs l : List ℝ} {x y : ℝ} (h : NotBetween l x y) (hs : ∀ c ∈ cs, c ∈ l) : NotBetween cs x y :=
  fun c hc => h c (hs c hc)

/-- The pieces of a segment add up. -/
theorem fractions_area {gx gy : List ℝ} {i j : Nat} (h : Sides gx gy i j) (p q : ℝ × ℝ) (ts : List (ℝ × (ℝ × ℝ)))
    (hts : ∀ c ∈ ts, c.2 = between p q c.1) (s : Step ℝ) (t : ℝ) (hs : s.1 = between p q t)
    (hl : Along (fun a b => Near gx gy a.1 b.1) s (ts.map (fun c => (c.2, false)) ++ [(q, true)])) :
    pathSum (stepArea gx gy i j) s (ts.map (fun c => (c.2, false)) ++ [(q, true)]) =
      ∫ y in clip (between p q t).2 (at' gy j) (at' gy (j + 1))..clip q.2 (at' gy j) (at' gy (j + 1)),
        rightOf (at' gx i) (at' gx (i + 1)) p q y := by
  have hgi : at' gx i < at' gx (i + 1) := at'_lt h.hx (Nat.lt_succ_self i) h.hi
  have hgj : at' gy j < at' gy (j + 1) := at'_lt h.hy (Nat.lt_succ_self j) h.hj
  have hmx : ∀ c ∈ [at' gx i, at' gx (i + 1)], c ∈ gx := by
    intro c hc
    have hi := h.hi
    simp only [List.mem_cons, List.not_mem_nil, or_false] at hc
    rcases hc with rfl | rfl <;> exact at'_mem gx (by omega)
  have hmy : ∀ c ∈ [at' gy j, at' gy (j + 1)], c ∈ gy := by
    intro c hc
    have hj := h.hj
    simp only [List.mem_cons, List.not_mem_nil, or_false] at hc
    rcases hc with rfl | rfl <;> exact at'_mem gy (by omega)
  have one : ∀ (s t : ℝ) (u v : Step ℝ), u.1 = between p q s → v.1 = between p q t → Near gx gy u.1 v.1 →
      stepArea gx gy i j u v =
        ∫ y in clip (between p q s).2 (at' gy j) (at' gy (j + 1))..clip (between p q t).2 (at' gy j) (at' gy (j + 1)),
          rightOf (at' gx i) (at' gx (i + 1)) p q y := by
    intro s t u v hu hv hn
    rw [hu, hv] at hn
    rw [stepArea, hu, hv]
    exact between_area hgi.le hgj.le p q s t (notBetween_sub hn.1 hmx) (notBetween_sub hn.2 hmy)
  induction ts generalizing s t with
  | nil =>
    simp only [List.map_nil, List.nil_append, pathSum, add_zero]
    rw [one t 1 s (q, true) hs (between_one p q).symm hl.1, between_one]
  | cons c ts ih =>
    have hc := hts c List.mem_cons_self
    simp only [List.map_cons, List.cons_append, pathSum]
    rw [ih (fun d hd => hts d (List.mem_cons_of_mem _ hd)) (c.2, false) c.1 hc hl.2,
      one t c.1 s (c.2, false) hs hc hl.1]
    apply intervalIntegral.integral_add_adjacent_intervals
    · exact (continuous_rightOf _ _ p q).intervalIntegrable _ _
    · exact (continuous_rightOf _ _ p q).intervalIntegrable _ _

/-- The pieces of a segment of the polygon add up. -/
theorem edge_area {gx gy : List ℝ} {i j : Nat} (h : Sides gx gy i j) {xlo xhi ylo yhi : ℝ} (hx : xlo < xhi) (hy : ylo < yhi)
    {p q : ℝ × ℝ} (hp : Box xlo xhi ylo yhi p) (hq : Box xlo xhi ylo yhi q) :
    pathSum (stepArea gx gy i j) (p, true) (edgeSteps (gridLines xlo xhi ylo yhi gx gy) p q ++ [(q, true)]) =
      edgeArea (at' gx i) (at' gx (i + 1)) (at' gy j) (at' gy (j + 1)) p q := by
  have hl := along_mono (fun a b (hab : Linked gx gy a b) => hab.1) _ _ (along_edge (gx := gx) (gy := gy) hx hy hp hq)
  have := fractions_area h p q (crossings (gridLines xlo xhi ylo yhi gx gy) p q)
    (fun c hc => (crossings_sound hc).2.2) (p, true) 0 (between_zero p q).symm hl
  rw [between_zero] at this
  exact this

/-! ### The integral of the winding number -/

theorem integral_right {a b : ℝ} (hab : a ≤ b) (k : ℝ) :
    ∫ x in a..b, (Ioi k).indicator (fun _ => (1 : ℝ)) x = b - clip k a b := by
  rw [intervalIntegral.integral_of_le hab, setIntegral_indicator measurableSet_Ioi, Ioc_inter_Ioi]
  simp only [integral_const, smul_eq_mul, mul_one]
  rw [Measure.real, Measure.restrict_apply_univ, Real.volume_Ioc, ENNReal.toReal_ofReal']
  rcases le_total k a with h1 | h1
  · rw [clip_le hab h1]
    simp [h1, hab]
  · rcases le_total k b with h2 | h2
    · rw [clip_mid h1 h2]
      simp [h1, h2]
    · rw [clip_ge h2]
      simp [h1, h2]

theorem integrable_right (a b k : ℝ) : IntervalIntegrable ((Ioi k).indicator fun _ => (1 : ℝ)) volume a b := by
  rw [intervalIntegrable_iff]
  exact (integrableOn_const (by simp)).indicator measurableSet_Ioi

/-- The direction in which a segment passes the height `y`. -/
noncomputable def passes (p q : ℝ × ℝ) (y : ℝ) : ℝ := if p.2 < y ∧ y ≤ q.2 then 1 else if q.2 < y ∧ y ≤ p.2 then -1 else 0

theorem crossing_eq (p q : ℝ × ℝ) (x y : ℝ) :
    (crossing p q (x, y) : ℝ) = passes p q y * (Ioi (xAt p q y)).indicator (fun _ => 1) x := by
  by_cases hx : xAt p q y < x
  · rw [indicator_of_mem (mem_Ioi.2 hx), mul_one]
    simp only [crossing, passes, hx, and_true]
    split_ifs <;> simp
  · rw [indicator_of_notMem (by simpa using hx), mul_zero]
    simp only [crossing, hx, and_false, if_false, Int.cast_zero]

theorem integral_list {B : Type} (l : List B) (f : B → ℝ → ℝ) (s t : ℝ)
    (hf : ∀ b ∈ l, IntervalIntegrable (f b) volume s t) :
    IntervalIntegrable (fun y => (l.map fun b => f b y).sum) volume s t ∧
      ∫ y in s..t, (l.map fun b => f b y).sum = (l.map fun b => ∫ y in s..t, f b y).sum := by
  induction l with
  | nil => simp
  | cons b l ih =>
    obtain ⟨h1, h2⟩ := ih fun d hd => hf d (List.mem_cons_of_mem _ hd)
    have hb := hf b List.mem_cons_self
    simp only [List.map_cons, List.sum_cons]
    refine ⟨hb.add h1, ?_⟩
    rw [intervalIntegral.integral_add hb h1, h2]

theorem winding_eq (poly : List (ℝ × ℝ)) (z : ℝ × ℝ) :
    (winding poly z : ℝ) = ((edges poly).map fun e => (crossing e.1 e.2 z : ℝ)).sum := by
  have hr : poly.rotate 1 = poly.tail ++ poly.head?.toList := by
    cases poly with
    | nil => rfl
    | cons p l => simp
  rw [winding, hr, edges, Int.cast_list_sum, ← List.map_uncurry_zip_eq_zipWith, List.map_map]
  rfl

theorem integral_row {a b : ℝ} (hab : a ≤ b) (poly : List (ℝ × ℝ)) (y : ℝ) :
    ∫ x in a..b, (winding poly (x, y) : ℝ) = ((edges poly).map fun e => passes e.1 e.2 y * rightOf a b e.1 e.2 y).sum := by
  simp only [winding_eq, crossing_eq]
  have := (integral_list (edges poly)
    (fun e x => passes e.1 e.2 y * (Ioi (xAt e.1 e.2 y)).indicator (fun _ => (1 : ℝ)) x) a b
    (fun e _ => (integrable_right a b _).const_mul _)).2
  rw [this]
  congr 1
  apply List.map_congr_left
  intro e _
  rw [intervalIntegral.integral_const_mul, integral_right hab]
  rfl

theorem passes_eq (p q : ℝ × ℝ) (f : ℝ → ℝ) :
    (fun y => passes p q y * f y) = fun y => (Ioc p.2 q.2).indicator f y - (Ioc q.2 p.2).indicator f y := by
  funext y
  by_cases h1 : p.2 < y ∧ y ≤ q.2
  · have h2 : ¬ (q.2 < y ∧ y ≤ p.2) := fun h => by linarith [h.1, h1.2]
    rw [passes, if_pos h1, indicator_of_mem (mem_Ioc.2 h1), indicator_of_notMem (by simpa [mem_Ioc] using h2)]
    ring
  · rw [passes, if_neg h1, indicator_of_notMem (by simpa [mem_Ioc] using h1)]
    by_cases h2 : q.2 < y ∧ y ≤ p.2
    · rw [if_pos h2, indicator_of_mem (mem_Ioc.2 h2)]
      ring
    · rw [if_neg h2, indicator_of_notMem (by simpa [mem_Ioc] using h2)]
      ring

theorem integrable_Ioc {f : ℝ → ℝ} (hf : Continuous f) (c d s t : ℝ) :
    IntervalIntegrable ((Ioc s t).indicator f) volume c d := by
  have := hf.intervalIntegrable (μ := volume) c d
  rw [intervalIntegrable_iff] at this ⊢
  exact this.indicator measurableSet_Ioc

theorem integral_Ioc {f : ℝ → ℝ} {c d s t : ℝ} (hcd : c ≤ d) (hst : s ≤ t) :
    ∫ y in c..d, (Ioc s t).indicator f y = ∫ y in clip s c d..clip t c d, f y := by
  rw [intervalIntegral.integral_of_le hcd, setIntegral_indicator measurableSet_Ioc, Ioc_inter_Ioc]
  rcases le_total t c with h1 | h1
  · rw [clip_le hcd h1, clip_le hcd (le_trans hst h1), Ioc_eq_empty]
    · simp
    · simp [h1]
  · rcases le_total d s with h2 | h2
    · rw [clip_ge h2, clip_ge (le_trans h2 hst), Ioc_eq_empty]
      · simp
      · simp [h2]
    · have e1 : clip s c d = c ⊔ s := by
        rw [clip, min_eq_left (max_le h2 hcd), max_comm]
      have e2 : clip t c d = d ⊓ t := by
        rw [clip, max_eq_left h1, min_comm]
      rw [e1, e2, intervalIntegral.integral_of_le]
      exact max_le (le_min hcd h1) (le_min h2 hst)

theorem integral_edge {a b c d : ℝ} (hcd : c ≤ d) (p q : ℝ × ℝ) :
    ∫ y in c..d, passes p q y * rightOf a b p q y = edgeArea a b c d p q := by
  have hc := continuous_rightOf a b p q
  rw [passes_eq, intervalIntegral.integral_sub (integrable_Ioc hc c d _ _) (integrable_Ioc hc c d _ _), edgeArea]
  rcases le_total p.2 q.2 with h | h
  · rw [integral_Ioc hcd h]
    have : ∫ y in c..d, (Ioc q.2 p.2).indicator (rightOf a b p q) y = 0 := by
      rw [Ioc_eq_empty (not_lt.2 h)]
      simp
    rw [this, sub_zero]
  · rw [integral_Ioc hcd h]
    have : ∫ y in c..d, (Ioc p.2 q.2).indicator (rightOf a b p q) y = 0 := by
      rw [Ioc_eq_empty (not_lt.2 h)]
      simp
    rw [this, zero_sub, intervalIntegral.integral_symm]
    simp

/-- The integral of the winding number over a pixel is the sum of the areas to the right of the segments. -/
theorem integral_winding {a b c d : ℝ} (hab : a ≤ b) (hcd : c ≤ d) (poly : List (ℝ × ℝ)) :
    ∫ y in c..d, ∫ x in a..b, (winding poly (x, y) : ℝ) = ((edges poly).map fun e => edgeArea a b c d e.1 e.2).sum := by
  simp only [integral_row hab]
  rw [(integral_list (edges poly) (fun e y => passes e.1 e.2 y * rightOf a b e.1 e.2 y) c d ?_).2]
  · simp only [integral_edge hcd]
  · intro e _
    have hc := continuous_rightOf a b e.1 e.2
    rw [passes_eq]
    exact (integrable_Ioc hc c d _ _).sub (integrable_Ioc hc c d _ _)

end Verif.Render.Polygon
