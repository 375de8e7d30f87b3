import Verif.Grating.MultiEtchGrad
/-
C65, C47 for `PixelatedGrating`: what is drawn, stated with the heights of the segments, and the cases where the code draws something
else.
-/
set_option linter.unusedVariables false
namespace Verif.Grating
open MeasureTheory

/-! ### Specification -/

/-- The height of the grating at level `m`, as a fraction: levels beyond the list are the full height. -/
noncomputable def PixGrating.height (g : PixGrating ℝ) (m : Nat) : ℝ := g.heightFracs.getD m 1

/-- The surface at position `t` (in pixels): full height outside the edges, between edge `i` and edge `i + 1` the height with index
`heightIndex[i]`; after the last edge, that of the last index up to the end of the grating. -/
noncomputable def PixGrating.heightAt (g : PixGrating ℝ) (input : List ℝ) (heightIndex : List Nat) (t : ℝ) : ℝ :=
  if t < g.stop then g.height (levelAt g.heightFracs.length ((g.pos input).zip heightIndex) t) else 1

/-- The part of pixel `q`, `z` where there is material; `u` is the distance to the top surface in pixels. -/
noncomputable def PixGrating.material (g : PixGrating ℝ) (input : List ℝ) (heightIndex : List Nat) (q z : Nat) : ℝ :=
  volume.real {p : ℝ × ℝ | ((q : ℝ) ≤ p.1 ∧ p.1 < q + 1) ∧ ((z : ℝ) ≤ p.2 ∧ p.2 < z + 1) ∧
    (g.D : ℝ) - p.2 ≤ g.D * g.heightAt input heightIndex p.1}

/-- What can be drawn: sorted edges on the grating, an index for each edge, heights at least a pixel apart or on pixel boundaries. -/
structure Valid (g : PixGrating ℝ) (input : List ℝ) (heightIndex : List Nat) : Prop where
  len : heightIndex.length = input.length
  known : ∀ c ∈ heightIndex, c < g.heightFracs.length
  good : GoodDepths g.D 0 (g.heightFracs.reverse.map fun h => (g.D : ℝ) * (1 - h))
  stop : 0 ≤ g.stop
  sorted : (g.pos input).Pairwise (· ≤ ·)
  range : ∀ e ∈ g.pos input, 0 ≤ e ∧ e ≤ g.stop

theorem top_height (g : PixGrating ℝ) (m : Nat) (hm : m ≤ g.heightFracs.length) :
    topOf (g.heightFracs.reverse.map fun h => (g.D : ℝ) * (1 - h)) m = g.D * (1 - g.height m) := by
  unfold topOf PixGrating.height
  rw [List.length_map, List.length_reverse]
  rcases Nat.eq_or_lt_of_le hm with rfl | hlt
  · simp
  · obtain ⟨k, hk⟩ : ∃ k, g.heightFracs.length - m = k + 1 := ⟨g.heightFracs.length - m - 1, by omega⟩
    rw [hk, List.getD_cons_succ]
    simp only [List.getD_eq_getElem?_getD, List.getElem?_map]
    rw [List.getElem?_reverse (by omega), show g.heightFracs.length - 1 - k = m by omega, List.getElem?_eq_getElem hlt]
    simp

theorem levelAt_append (l : List (ℝ × Nat)) (b : ℝ) (c : Nat) (t : ℝ) : ∀ last, (l.map Prod.fst).Pairwise (· ≤ ·) →
    (∀ x ∈ l, x.1 ≤ b) → levelAt last (l ++ [(b, c)]) t = if t < b then levelAt last l t else c := by
  induction l with
  | nil =>
    intro last _ _
    simp only [List.nil_append, levelAt]
    by_cases h : t < b
    · rw [if_pos h, if_neg (not_le.2 h)]
    · rw [if_neg h, if_pos (not_lt.1 h)]
  | cons x l ih =>
    intro last hs hb
    obtain ⟨e, d⟩ := x
    rw [List.map_cons, List.pairwise_cons] at hs
    simp only [List.cons_append, levelAt]
    by_cases h : e ≤ t
    · rw [if_pos h, if_pos h, ih d hs.2 fun x hx => hb x (by simp [hx])]
    · rw [if_neg h, if_neg h, if_pos (lt_of_lt_of_le (not_le.1 h) (hb (e, d) (by simp)))]

/-- **C65**. For heights that can be drawn, the value of each pixel is the part of it that lies below the surface with the given heights
between the given edges; with the other polarity the order of the pixels along the etch direction is reversed. -/
theorem pixelated_grating_profile_partial (g : PixGrating ℝ) (input : List ℝ) (heightIndex : List Nat) (h : Valid g input heightIndex) :
    ∃ s, g.eval input heightIndex = some s ∧ s.length = g.n ∧ (∀ q, q < g.n → (s.getD q []).length = g.D) ∧
      ∀ q z, q < g.n → z < g.D → entryAt s q (if g.polarity then g.D - 1 - z else z) = g.material input heightIndex q z := by
  have hn := stop_le g
  have hp := param_eq g input heightIndex h.stop h.range
  have hposlen : (g.pos input).length = input.length := by simp [PixGrating.pos, edges_length]
  have hdraw : Drawable (g.param input heightIndex) := by
    rw [hp]
    refine ⟨by simp [hposlen, h.len], ?_, ?_, ?_, ?_, h.good⟩
    · simp only [List.cons_append, List.nil_append, List.pairwise_cons, List.pairwise_append]
      refine ⟨?_, h.sorted, by simp, fun e he b hb => ?_⟩
      · intro e he
        rcases List.mem_append.1 he with he | he
        · exact (h.range e he).1
        · rw [List.mem_singleton.1 he]; exact h.stop
      · rw [List.mem_singleton.1 hb]; exact (h.range e he).2
    · intro e he
      have hlt : g.stop < g.n := by linarith
      simp only [List.mem_append, List.mem_cons, List.not_mem_nil, or_false] at he
      rcases he with (rfl | he) | rfl
      · exact ⟨le_rfl, lt_of_le_of_lt h.stop hlt⟩
      · exact ⟨(h.range e he).1, lt_of_le_of_lt (h.range e he).2 hlt⟩
      · exact ⟨h.stop, hlt⟩
    · intro c hc
      simp only [List.mem_append, List.mem_singleton] at hc
      simp only [List.length_map, List.length_reverse]
      rcases hc with (rfl | hc) | rfl
      · exact le_rfl
      · exact (h.known c hc).le
      · exact le_rfl
    · simp only [List.getLastD_eq_getLast?, List.getLast?_append, List.length_map, List.length_reverse]
      simp
  obtain ⟨s, s1, s2, s3, s4⟩ := multi_etch_profile_partial _ hdraw
  have hmat : ∀ q z, q < g.n → z < g.D → entryAt s q z = g.material input heightIndex q z := by
    intro q z hq hz
    rw [s4 q z hq hz, solidArea, PixGrating.material]
    congr 1
    ext ⟨t, u⟩
    simp only [Set.mem_ofPred_eq]
    have hlev : q ≤ t → levelAt (g.param input heightIndex).depths.length ((g.param input heightIndex).vector.zip (g.param input heightIndex).levels) t =
        if t < g.stop then levelAt g.heightFracs.length ((g.pos input).zip heightIndex) t else g.heightFracs.length := by
      intro hqt
      have ht : 0 ≤ t := le_trans (Nat.cast_nonneg q) hqt
      rw [hp]
      simp only [List.length_map, List.length_reverse, List.cons_append, List.nil_append, List.zip_cons_cons]
      rw [List.zip_append (by rw [hposlen, h.len]), levelAt, if_pos ht]
      simp only [List.zip_cons_cons, List.zip_nil_right]
      rw [levelAt_append _ _ _ _ _ (by rw [zip_fst _ _ (by rw [hposlen, h.len])]; exact h.sorted)
        fun x hx => (h.range x.1 (List.of_mem_zip hx).1).2]
    have hdepths : (g.param input heightIndex).depths = g.heightFracs.reverse.map fun h => (g.D : ℝ) * (1 - h) := rfl
    have hle : levelAt g.heightFracs.length ((g.pos input).zip heightIndex) t ≤ g.heightFracs.length :=
      levelAt_le _ _ _ _ le_rfl fun x hx => (h.known x.2 (List.of_mem_zip hx).2).le
    have hfull : g.height g.heightFracs.length = 1 := by simp [PixGrating.height]
    refine and_congr_right fun h1 => and_congr_right fun h2 => ?_
    rw [hlev h1.1, hdepths, PixGrating.heightAt]
    by_cases ht : t < g.stop
    · rw [if_pos ht, if_pos ht, top_height g _ hle]
      constructor <;> intro h <;> linarith
    · rw [if_neg ht, if_neg ht, top_height g _ le_rfl, hfull]
      constructor <;> intro h <;> linarith
  refine ⟨if g.polarity then s.map List.reverse else s, ?_, ?_, ?_, ?_⟩
  · unfold PixGrating.eval
    rw [s1]
    rfl
  · split
    · rw [List.length_map]; exact s2
    · exact s2
  · intro q hq
    split
    · have := s3 q hq
      rw [List.getD_eq_getElem?_getD] at this ⊢
      rw [List.getElem?_map]
      have hql : q < s.length := by rw [s2]; exact hq
      rw [List.getElem?_eq_getElem hql] at this ⊢
      simp only [Option.getD_some, Option.map_some, List.length_reverse] at this ⊢
      exact this
    · exact s3 q hq
  · intro q z hq hz
    by_cases hpol : g.polarity = true
    · rw [if_pos hpol, if_pos hpol, entry_reverse s g.D q _ (by rw [s2]; exact hq) (s3 q hq) (by omega),
        show g.D - 1 - (g.D - 1 - z) = z by omega]
      exact hmat q z hq hz
    · rw [if_neg hpol, if_neg hpol]
      exact hmat q z hq hz

/-! ### Concrete cases -/

/-- Three heights on two pixels, four pixels along the grating. -/
noncomputable def example₁ : PixGrating ℝ := ⟨4, 2, [0, 1 / 4, 1], 1, 4, false, true⟩

theorem example₁_good : GoodDepths example₁.D 0 (example₁.heightFracs.reverse.map fun h => (example₁.D : ℝ) * (1 - h)) := by
  simp only [example₁, List.reverse_cons, List.reverse_nil, List.nil_append, List.cons_append, List.map_cons, List.map_nil, GoodDepths,
    GoodFrac]
  norm_num

theorem example₁_stop : example₁.stop = 4 - 1 / 100000 := by
  simp [PixGrating.stop, example₁]

example : Valid example₁ [1 / 2, 5 / 2, 3] [1, 0, 2] where
  len := rfl
  known := by simp [example₁]
  good := example₁_good
  stop := by rw [example₁_stop]; norm_num
  sorted := by simp [PixGrating.pos, PixGrating.edges, example₁]; norm_num
  range := by rw [example₁_stop]; simp [PixGrating.pos, PixGrating.edges, example₁]; norm_num

example : Smooth example₁ [1 / 2, 5 / 2, 7 / 2] [1, 0, 2] where
  size := by norm_num [example₁]
  len := rfl
  known := by simp [example₁]
  good := example₁_good
  gaps := by rw [example₁_stop]; simp [PixGrating.pos, PixGrating.edges, example₁, fdEps]; norm_num
  cells := by
    simp only [PixGrating.pos, PixGrating.edges, example₁, if_true, List.map_cons, List.map_nil, List.mem_cons, List.not_mem_nil, or_false]
    rintro e (rfl | rfl | rfl)
    · exact ⟨0, by norm_num [fdEps], by norm_num [fdEps]⟩
    · exact ⟨2, by norm_num [fdEps], by norm_num [fdEps]⟩
    · exact ⟨3, by norm_num [fdEps], by norm_num [fdEps]⟩

/-! ### What the code gets wrong -/

/-- Heights in `[0, 1]` in increasing order and sorted edges on the grating, with an index for each. -/
def Proper (g : PixGrating ℚ) (edges : List ℚ) (heightIndex : List Nat) : Prop :=
  g.accepts = true ∧ (∀ h ∈ g.heightFracs, 0 ≤ h ∧ h ≤ 1) ∧ heightIndex.length = edges.length ∧
  (∀ c ∈ heightIndex, c < g.heightFracs.length) ∧ edges.Pairwise (· < ·) ∧ (∀ e ∈ edges, 0 < e ∧ e < g.extent) ∧
  0 < g.pixelSize ∧ g.extent = g.n * g.pixelSize

/-- Two heights within one pixel of the etch direction: the evaluation raises. -/
theorem pixelated_grating_raises_false : ¬ ∀ (g : PixGrating ℚ) (edges : List ℚ) (heightIndex : List Nat),
    g.useEdgeLocs = true → Proper g edges heightIndex → (g.eval edges heightIndex).isSome = true := by
  intro h
  have := h ⟨4, 1, [0, 3 / 10, 6 / 10, 1], 1, 4, false, true⟩ [1, 2, 3] [1, 2, 0] rfl (by unfold Proper; decide +kernel)
  revert this
  decide +kernel

/-- ... or draws values that are no fraction of a pixel. -/
theorem pixelated_grating_profile_false : ¬ ∀ (g : PixGrating ℚ) (edges : List ℚ) (heightIndex : List Nat),
    g.useEdgeLocs = true → Proper g edges heightIndex → (g.eval edges heightIndex).isSome = true →
    ∀ q z, entryAt ((g.eval edges heightIndex).getD []) q z ≤ 1 := by
  intro h
  have := h ⟨3, 10, [94 / 100, 97 / 100, 1], 1, 3, false, true⟩ [1, 2] [0, 2] rfl (by unfold Proper; decide +kernel)
    (by decide +kernel) 1 1
  revert this
  decide +kernel

/-- With widths, the height of segment `i` is not that of `heightIndex[i]`: two segments, one pixel each, heights `0` and `1`. -/
theorem pixelated_grating_widths_false : ¬ ∀ (g : PixGrating ℚ) (h0 h1 : Nat),
    g.useEdgeLocs = false → g.accepts = true → (∀ h ∈ g.heightFracs, 0 ≤ h ∧ h ≤ 1) → h0 < g.heightFracs.length → h1 < g.heightFracs.length →
    g.n = 2 → g.D = 1 → g.pixelSize = 1 → g.extent = 2 → (g.eval [1, 1] [h0, h1]).isSome = true →
    entryAt ((g.eval [1, 1] [h0, h1]).getD []) 0 0 = g.heightFracs.getD h0 1 := by
  intro h
  have := h ⟨2, 1, [0, 1], 1, 2, false, false⟩ 0 1 rfl (by decide +kernel) (by decide +kernel) (by decide) (by decide) rfl rfl rfl rfl
    (by decide +kernel)
  revert this
  decide +kernel

/-- Close to a pixel boundary the gradient is wrong: the first pixel does not change when an edge in the second one moves a little, but
its gradient is `9/20`. -/
theorem pixelated_grating_gradient_false : ∃ (g : PixGrating ℚ) (e : ℚ), Proper g [e, 5 / 2] [0, 1] ∧ g.useEdgeLocs = true ∧
    (∀ d ∈ ([-1 / 10000000, 0, 1 / 10000000] : List ℚ), entryAt ((g.eval [e + d, 5 / 2] [0, 1]).getD []) 0 0 = 1) ∧
    g.grad [e, 5 / 2] [0, 1] (fun q _ => if q = 0 then 1 else 0) = some [9 / 20, 0] :=
  ⟨⟨3, 1, [0, 1], 1, 3, false, true⟩, 1 + 1 / 1000000, by unfold Proper; decide +kernel, rfl, by decide +kernel, by decide +kernel⟩

end Verif.Grating
