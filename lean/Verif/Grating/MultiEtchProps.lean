import Verif.Grating.MultiEtchLemmas
import Mathlib.MeasureTheory.Measure.Prod
import Mathlib.Data.Rat.Floor
/-
C65: the multi-level grating draws the etched profile given by its edges and levels. C47: its gradient.
-/
set_option linter.unusedVariables false
namespace Verif.Grating
open MeasureTheory

/-! ### Specification -/

/-- The level at position `t`: that of the last edge on the left of `t`; `last` if there is none. -/
noncomputable def levelAt : Nat → List (ℝ × Nat) → ℝ → Nat
  | last, [], _ => last
  | last, (e, c) :: l, t => if e ≤ t then levelAt c l t else last

/-- The depth at which the material starts, for a level: level `depths.length` is the full height, level `m` the depth
`depths[depths.length - 1 - m]`. -/
noncomputable def topOf (depths : List ℝ) (m : Nat) : ℝ := (0 :: depths).getD (depths.length - m) 0

/-- The area of the part of the pixel `(q, z)` where there is material: below the surface. -/
noncomputable def solidArea (depths : List ℝ) (edges : List (ℝ × Nat)) (q z : Nat) : ℝ :=
  volume.real {p : ℝ × ℝ | ((q : ℝ) ≤ p.1 ∧ p.1 < q + 1) ∧ ((z : ℝ) ≤ p.2 ∧ p.2 < z + 1) ∧
    topOf depths (levelAt depths.length edges p.1) ≤ p.2}

/-! ### The rasters are the parts of the pixels above each level -/

theorem pixelPart_not (q : Nat) (edges : List ℝ) (he : Even edges.length) (hs : edges.Pairwise (· ≤ ·)) :
    pixelPart q (fun t => ¬ Inside edges t) = 1 - signed q edges := by
  obtain ⟨l, h1, h2, h3⟩ := structure_signed ⟨edges, q + 1, true⟩ (by simp) he hs
  obtain ⟨l', h1', h2', h3'⟩ := grating_structure ⟨edges, q + 1, true⟩ (by simp) he hs
  rw [h1] at h1'
  cases h1'
  have h4 := h3 q (by simp)
  rw [h3' q (by simp)] at h4
  simpa using h4

theorem crossings_inside (k : Nat) : ∀ (l : List (ℝ × Nat)) (last : Nat) (t : ℝ), (l.map Prod.fst).Pairwise (· ≤ ·) →
    (Inside (crossings k last l) t ↔ ¬ (k < last ↔ k < levelAt last l t)) := by
  intro l
  induction l with
  | nil => intro last t _; simp [crossings, levelAt, Inside]
  | cons x l ih =>
    intro last t hs
    obtain ⟨e, c⟩ := x
    rw [List.map_cons, List.pairwise_cons] at hs
    by_cases het : e ≤ t
    · have := ih c t hs.2
      have hcr : (min c last ≤ k ∧ k < max c last) ↔ ¬ (k < last ↔ k < c) := by
        by_cases h1 : k < last <;> by_cases h2 : k < c <;> simp only [h1, h2] <;> simp <;> omega
      have hin : Inside ((if min c last ≤ k ∧ k < max c last then [e] else []) ++ crossings k c l) t ↔
          if (k < last ↔ k < c) then Inside (crossings k c l) t else ¬ Inside (crossings k c l) t := by
        unfold Inside
        rw [List.countP_append]
        simp only [hcr]
        by_cases h : (k < last ↔ k < c)
        · simp [h]
        · simp only [h, not_false_iff, if_true, if_false]
          simp only [List.countP_cons, List.countP_nil, het, decide_true, if_true]
          rw [Nat.zero_add, Nat.add_comm, Nat.odd_add_one]
      simp only [crossings, levelAt, het, if_true]
      rw [hin]
      by_cases h1 : k < last <;> by_cases h2 : k < c <;> by_cases h3 : k < levelAt c l t <;>
        simp only [h1, h2, h3, iff_true, iff_false, not_true, not_false_iff, if_true, if_false] at this ⊢ <;> simp [this]
    · have hz : ∀ e' ∈ crossings k last ((e, c) :: l), ¬ e' ≤ t := by
        intro e' he'
        have := (crossings_sublist k ((e, c) :: l) last).subset he'
        rw [List.map_cons, List.mem_cons] at this
        rcases this with rfl | h
        · exact het
        · have := hs.1 e' h
          intro hc
          exact het (this.trans hc)
      have : (crossings k last ((e, c) :: l)).countP (fun e => decide (e ≤ t)) = 0 := by
        rw [List.countP_eq_zero]
        intro e' he'
        simpa using hz e' he'
      unfold Inside
      rw [this]
      simp [levelAt, het]

/-! ### The structure as a sum of layers -/

theorem mapM_of {α β : Type} (f : α → Option β) (g : α → β) : ∀ l : List α, (∀ a ∈ l, f a = some (g a)) →
    l.mapM f = some (l.map g) := by
  intro l
  induction l with
  | nil => intro _; rfl
  | cons a l ih =>
    intro h
    rw [List.mapM_cons, h a (by simp), ih fun b hb => h b (by simp [hb])]
    rfl

/-- What the structure needs: as many levels as edges, edges sorted and on the grating, known levels, the highest level at the end, and
depths that can be drawn. -/
structure Drawable (p : MultiEtch ℝ) : Prop where
  len : p.vector.length = p.levels.length
  sorted : p.vector.Pairwise (· ≤ ·)
  range : ∀ e ∈ p.vector, 0 ≤ e ∧ e < p.n
  known : ∀ c ∈ p.levels, c ≤ p.depths.length
  last : p.levels.getLastD p.depths.length = p.depths.length
  good : GoodDepths p.D 0 p.depths

theorem lastLevel_eq : ∀ (v : List ℝ) (l : List Nat) (last : Nat), v.length = l.length → lastLevel last (v.zip l) = l.getLastD last := by
  intro v
  induction v with
  | nil => intro l last h; obtain rfl : l = [] := List.length_eq_zero_iff.1 (by simpa using h.symm); rfl
  | cons a v ih =>
    intro l last h
    cases l with
    | nil => simp at h
    | cons c l => rw [List.zip_cons_cons, lastLevel, ih l c (by simpa using h), List.getLastD_cons]

/-- The value of the raster of level `k` at pixel `q`. -/
noncomputable def rasterAt (p : MultiEtch ℝ) (q k : Nat) : ℝ := 1 + crossSum q k p.depths.length (p.vector.zip p.levels)

/-- The levels in the order of the layers. -/
def layerLevels (L : Nat) : List Nat := (List.range L).reverse

theorem zip_fst (v : List ℝ) (l : List Nat) (h : v.length = l.length) : (v.zip l).map Prod.fst = v := List.map_fst_zip h.le

theorem structure_sum (p : MultiEtch ℝ) (h : Drawable p) : ∃ s, p.getStructure = some s ∧ s.length = p.n ∧
    (∀ q, q < p.n → (s.getD q []).length = p.D) ∧
    ∀ q z, q < p.n → z < p.D → entryAt s q z =
      layerSum z 0 p.depths ((layerLevels p.depths.length).map (rasterAt p q)) + (1 - ramp z (p.depths.getLastD 0)) := by
  set L := p.depths.length with hL
  set E := p.vector.zip p.levels with hE
  have hfst : E.map Prod.fst = p.vector := zip_fst _ _ h.len
  -- the levels
  obtain ⟨r, r1, r2, r3⟩ := levelFold_spec E (List.replicate L [], L) (by simp) (by
    intro x hx
    rw [List.length_replicate]
    exact h.known x.2 (List.of_mem_zip hx).2)
  have hr : r.1 = (List.range L).map fun k => crossings k L E := by
    apply List.ext_getElem?
    intro k
    rw [List.length_replicate] at r2
    by_cases hk : k < L
    · rw [r3 k [] (by simp [hk])]
      simp [hk]
    · rw [List.getElem?_eq_none (by omega), List.getElem?_eq_none (by simpa using hk)]
  have hlev : levelVecs L p.vector p.levels = some ((layerLevels L).map fun k => crossings k L E) := by
    rw [levelVecs, if_pos h.len.le, r1]
    simp only [Option.map_some, hr, layerLevels, List.map_reverse]
  -- the rasters
  have hras : ∀ k ∈ layerLevels L, ∃ v, buildRaster p.n (crossings k L E) = some v ∧ v.length = p.n ∧
      ∀ q, q < p.n → v.getD q 0 = rasterAt p q k := by
    intro k hk
    have hkL : k < L := by simpa [layerLevels] using hk
    have hsub := crossings_sublist k E L
    rw [hfst] at hsub
    obtain ⟨v, v1, v2, v3⟩ := buildRaster_spec p.n (crossings k L E) (by
      rw [Nat.even_iff, crossings_parity, lastLevel_eq _ _ _ h.len, h.last])
      (h.sorted.sublist hsub) (fun e he => h.range e (hsub.subset he))
    refine ⟨v, v1, v2, fun q hq => ?_⟩
    rw [v3 q hq, signed_crossings, if_pos hkL, rasterAt]
    ring
  have hmap : ((layerLevels L).map fun k => crossings k L E).mapM (buildRaster p.n) =
      some ((layerLevels L).map fun k => (buildRaster p.n (crossings k L E)).getD []) := by
    rw [mapM_of (buildRaster p.n) (fun v => (buildRaster p.n v).getD [])]
    · rw [List.map_map]
      rfl
    · intro v hv
      rw [List.mem_map] at hv
      obtain ⟨k, hk, rfl⟩ := hv
      obtain ⟨v, v1, _⟩ := hras k hk
      rw [v1]
      rfl
  have hcol : ∀ q, q < p.n → ((layerLevels L).map fun k => (buildRaster p.n (crossings k L E)).getD []).map (fun r => r.getD q 0) =
      (layerLevels L).map (rasterAt p q) := by
    intro q hq
    rw [List.map_map]
    apply List.map_congr_left
    intro k hk
    obtain ⟨v, v1, _, v3⟩ := hras k hk
    simp only [Function.comp, v1, Option.getD_some]
    exact v3 q hq
  have hcs : ∀ q, q < p.n → ∃ c, column p.D p.depths ((layerLevels L).map (rasterAt p q)) = some c ∧ c.length = p.D ∧
      ∀ j, j < p.D → c.getD j 0 = layerSum j 0 p.depths ((layerLevels L).map (rasterAt p q)) +
        (1 - ramp j (p.depths.getLastD 0)) := fun q hq =>
    column_spec p.D p.depths _ (by simp [layerLevels, hL]) h.good
  refine ⟨(List.range p.n).map fun q => (column p.D p.depths ((layerLevels L).map (rasterAt p q))).getD [], ?_, by simp, ?_, ?_⟩
  · unfold MultiEtch.getStructure
    rw [hlev]
    simp only [Option.bind_some]
    rw [hmap]
    simp only [Option.bind_some]
    apply mapM_of
    intro q hq
    have hq := List.mem_range.1 hq
    rw [hcol q hq]
    obtain ⟨c, c1, _⟩ := hcs q hq
    rw [c1]
    rfl
  · intro q hq
    obtain ⟨c, c1, c2, _⟩ := hcs q hq
    simp [List.getD_eq_getElem?_getD, hq, c1, c2]
  · intro q z hq hz
    obtain ⟨c, c1, _, c3⟩ := hcs q hq
    rw [entryAt, List.getD_eq_getElem?_getD (l := List.map _ _)]
    simp only [List.getElem?_map, List.getElem?_range hq, Option.map_some, Option.getD_some, c1]
    exact c3 z hz

/-! ### The structure is the etched profile -/

theorem rasterAt_part (p : MultiEtch ℝ) (h : Drawable p) (q k : Nat) (hk : k < p.depths.length) :
    rasterAt p q k = pixelPart q fun t => k < levelAt p.depths.length (p.vector.zip p.levels) t := by
  have hsub := crossings_sublist k (p.vector.zip p.levels) p.depths.length
  rw [zip_fst _ _ h.len] at hsub
  have hfst : ((p.vector.zip p.levels).map Prod.fst).Pairwise (· ≤ ·) := by rw [zip_fst _ _ h.len]; exact h.sorted
  have heq : (fun t => k < levelAt p.depths.length (p.vector.zip p.levels) t) =
      fun t => ¬ Inside (crossings k p.depths.length (p.vector.zip p.levels)) t := by
    funext t
    apply propext
    rw [crossings_inside k _ _ t hfst, not_not]
    simp [hk]
  rw [heq, pixelPart_not q _ (by rw [Nat.even_iff, crossings_parity, lastLevel_eq _ _ _ h.len, h.last]) (h.sorted.sublist hsub),
    signed_crossings, if_pos hk, rasterAt]
  ring

theorem part_measurable (p : MultiEtch ℝ) (h : Drawable p) (q k : Nat) (hk : k < p.depths.length) :
    MeasurableSet {t : ℝ | (q : ℝ) ≤ t ∧ t < q + 1 ∧ k < levelAt p.depths.length (p.vector.zip p.levels) t} := by
  have hsub := crossings_sublist k (p.vector.zip p.levels) p.depths.length
  rw [zip_fst _ _ h.len] at hsub
  have hfst : ((p.vector.zip p.levels).map Prod.fst).Pairwise (· ≤ ·) := by rw [zip_fst _ _ h.len]; exact h.sorted
  have hev : Even (crossings k p.depths.length (p.vector.zip p.levels)).length := by
    rw [Nat.even_iff, crossings_parity, lastLevel_eq _ _ _ h.len, h.last]
  obtain ⟨m, hm⟩ := hev
  have := (inside_measure q m _ (by omega) (h.sorted.sublist hsub)).1
  have heq : {t : ℝ | (q : ℝ) ≤ t ∧ t < q + 1 ∧ k < levelAt p.depths.length (p.vector.zip p.levels) t} =
      Set.Ico (q : ℝ) (q + 1) \ {t : ℝ | (q : ℝ) ≤ t ∧ t < q + 1 ∧ Inside (crossings k p.depths.length (p.vector.zip p.levels)) t} := by
    ext t
    simp only [Set.mem_ofPred_eq, Set.mem_sdiff, Set.mem_Ico]
    rw [crossings_inside k _ _ t hfst]
    simp only [hk, true_iff, not_and, not_not]
    tauto
  rw [heq]
  exact measurableSet_Ico.diff this

/-- The profile described layer by layer. -/
noncomputable def solidFrom (lev : ℝ → Nat) (t u : ℝ) : List ℝ → List Nat → Prop
  | b' :: l, k :: ks => if u < b' then k < lev t else solidFrom lev t u l ks
  | _, _ => True

theorem area_layers (lev : ℝ → Nat) (q z : Nat) : ∀ (depths : List ℝ) (ks : List Nat) (b : ℝ), depths.length = ks.length →
    (∀ k ∈ ks, MeasurableSet {t : ℝ | (q : ℝ) ≤ t ∧ t < q + 1 ∧ k < lev t}) → (b :: depths).Pairwise (· ≤ ·) →
    MeasurableSet {p : ℝ × ℝ | ((q : ℝ) ≤ p.1 ∧ p.1 < q + 1) ∧ ((z : ℝ) ≤ p.2 ∧ p.2 < z + 1) ∧ b ≤ p.2 ∧ solidFrom lev p.1 p.2 depths ks} ∧
    volume.real {p : ℝ × ℝ | ((q : ℝ) ≤ p.1 ∧ p.1 < q + 1) ∧ ((z : ℝ) ≤ p.2 ∧ p.2 < z + 1) ∧ b ≤ p.2 ∧ solidFrom lev p.1 p.2 depths ks} =
      layerSum z b depths (ks.map fun k => pixelPart q fun t => k < lev t) + (1 - ramp z (depths.getLastD b)) := by
  have hvol : ∀ a c : ℝ, a ≤ c → volume.real (Set.Ico (max a z) (min c (z + 1))) = ramp z c - ramp z a := by
    intro a c hac
    have hc := covered_ramp a c z hac
    simp only [Verif.Render.covered, add_sub_cancel_left, div_one] at hc
    rw [Measure.real, Real.volume_Ico, ENNReal.toReal_ofReal', max_comm _ (0 : ℝ), hc]
  intro depths
  induction depths with
  | nil =>
    intro ks b hl _ _
    have hset : {p : ℝ × ℝ | ((q : ℝ) ≤ p.1 ∧ p.1 < q + 1) ∧ ((z : ℝ) ≤ p.2 ∧ p.2 < z + 1) ∧ b ≤ p.2 ∧ solidFrom lev p.1 p.2 [] ks} =
        Set.Ico (q : ℝ) (q + 1) ×ˢ Set.Ico (max b z) (min (max b z + (z + 1)) (z + 1)) := by
      ext ⟨t, u⟩
      have hz : (0 : ℝ) ≤ max b z := le_trans (Nat.cast_nonneg z) (le_max_right _ _)
      simp only [Set.mem_ofPred_eq, Set.mem_prod, Set.mem_Ico, solidFrom, and_true, min_eq_right (by linarith : (z : ℝ) + 1 ≤ max b z + (z + 1)),
        max_le_iff]
      tauto
    rw [hset]
    refine ⟨measurableSet_Ico.prod measurableSet_Ico, ?_⟩
    rw [Measure.volume_eq_prod, measureReal_prod_prod]
    have h1 : volume.real (Set.Ico (q : ℝ) (q + 1)) = 1 := by simp [Measure.real]
    have hz : (0 : ℝ) ≤ max b z := le_trans (Nat.cast_nonneg z) (le_max_right _ _)
    rw [h1, one_mul, hvol b _ (by linarith [le_max_left b (z : ℝ), (Nat.cast_nonneg z : (0 : ℝ) ≤ z)]),
      ramp_one _ _ (by linarith)]
    simp [layerSum]
  | cons b' l ih =>
    intro ks b hl hmeas hs
    cases ks with
    | nil => simp at hl
    | cons k ks =>
      obtain ⟨s1, s2⟩ := List.pairwise_cons.1 hs
      have hbb : b ≤ b' := s1 b' (by simp)
      obtain ⟨i1, i2⟩ := ih ks b' (by simpa using hl) (fun k' hk' => hmeas k' (by simp [hk'])) s2
      have hset : {p : ℝ × ℝ | ((q : ℝ) ≤ p.1 ∧ p.1 < q + 1) ∧ ((z : ℝ) ≤ p.2 ∧ p.2 < z + 1) ∧ b ≤ p.2 ∧
            solidFrom lev p.1 p.2 (b' :: l) (k :: ks)} =
          ({t : ℝ | (q : ℝ) ≤ t ∧ t < q + 1 ∧ k < lev t} ×ˢ Set.Ico (max b z) (min b' (z + 1))) ∪
          {p : ℝ × ℝ | ((q : ℝ) ≤ p.1 ∧ p.1 < q + 1) ∧ ((z : ℝ) ≤ p.2 ∧ p.2 < z + 1) ∧ b' ≤ p.2 ∧ solidFrom lev p.1 p.2 l ks} := by
        ext ⟨t, u⟩
        simp only [Set.mem_ofPred_eq, Set.mem_union, Set.mem_prod, Set.mem_Ico, solidFrom, max_le_iff, lt_min_iff]
        by_cases hu : u < b'
        · simp only [hu, if_true, not_le.2 hu, false_and, and_false, or_false]
          tauto
        · have hu' : b' ≤ u := not_lt.1 hu
          have hbu : b ≤ u := hbb.trans hu'
          simp only [hu, if_false, hu', hbu, false_and, and_false, false_or, true_and]
      have hdisj : Disjoint ({t : ℝ | (q : ℝ) ≤ t ∧ t < q + 1 ∧ k < lev t} ×ˢ Set.Ico (max b z) (min b' ((z : ℝ) + 1)))
          {p : ℝ × ℝ | ((q : ℝ) ≤ p.1 ∧ p.1 < q + 1) ∧ ((z : ℝ) ≤ p.2 ∧ p.2 < z + 1) ∧ b' ≤ p.2 ∧ solidFrom lev p.1 p.2 l ks} := by
        rw [Set.disjoint_left]
        rintro ⟨t, u⟩ h1 h2
        have h3 : u < b' := lt_of_lt_of_le h1.2.2 (min_le_left _ _)
        exact absurd h2.2.2.1 (not_le.2 h3)
      have hfin : ∀ A : Set (ℝ × ℝ), A ⊆ Set.Ico (q : ℝ) (q + 1) ×ˢ Set.Ico (z : ℝ) (z + 1) → volume A ≠ ⊤ := by
        intro A hA
        refine ne_of_lt (lt_of_le_of_lt (measure_mono hA) ?_)
        rw [Measure.volume_eq_prod, Measure.prod_prod]
        simp
      rw [hset]
      refine ⟨((hmeas k (by simp)).prod measurableSet_Ico).union i1, ?_⟩
      rw [measureReal_union hdisj i1 (hfin _ ?_) (hfin _ ?_), i2, Measure.volume_eq_prod, measureReal_prod_prod, hvol b b' hbb]
      · rw [List.map_cons, layerSum, List.getLastD_cons, pixelPart]
        ring
      · rintro ⟨t, u⟩ h1
        exact ⟨⟨h1.1.1, h1.1.2.1⟩, ⟨(le_max_right _ _).trans h1.2.1, lt_of_lt_of_le h1.2.2 (min_le_right _ _)⟩⟩
      · rintro ⟨t, u⟩ h1
        exact ⟨h1.1, h1.2.1⟩

theorem goodDepths_sorted (D : Nat) : ∀ (depths : List ℝ) (b : ℝ), GoodDepths D b depths → (b :: depths).Pairwise (· ≤ ·) := by
  intro depths
  induction depths with
  | nil => intro b _; simp
  | cons b' l ih =>
    intro b hg
    have h := ih b' hg.2.2.2.2
    rw [List.pairwise_cons]
    refine ⟨?_, h⟩
    intro e he
    rcases List.mem_cons.1 he with rfl | he
    · exact hg.1
    · exact hg.1.trans ((List.pairwise_cons.1 h).1 e he)

theorem solidFrom_top (lev : ℝ → Nat) (t u : ℝ) : ∀ (depths : List ℝ) (b : ℝ), (b :: depths).Pairwise (· ≤ ·) → b ≤ u →
    lev t ≤ depths.length →
    (solidFrom lev t u depths (layerLevels depths.length) ↔ (b :: depths).getD (depths.length - lev t) 0 ≤ u) := by
  intro depths
  induction depths with
  | nil =>
    intro b _ hb _
    simpa [solidFrom] using hb
  | cons b' l ih =>
    intro b hs hb hlev
    obtain ⟨s1, s2⟩ := List.pairwise_cons.1 hs
    have hll : layerLevels (b' :: l).length = l.length :: layerLevels l.length := by
      simp [layerLevels, List.range_succ]
    rw [hll, solidFrom]
    rw [List.length_cons] at hlev ⊢
    by_cases hu : u < b'
    · rw [if_pos hu]
      constructor
      · intro h
        rw [show l.length + 1 - lev t = 0 by omega]
        exact hb
      · intro h
        by_contra hlt
        obtain ⟨m, hm⟩ : ∃ m, l.length + 1 - lev t = m + 1 := ⟨l.length - lev t, by omega⟩
        rw [hm, List.getD_cons_succ] at h
        have hmem : (b' :: l).getD m 0 ∈ b' :: l := by
          rw [List.getD_eq_getElem?_getD, List.getElem?_eq_getElem (by rw [List.length_cons]; omega)]
          exact List.getElem_mem _
        have : b' ≤ (b' :: l).getD m 0 := by
          rcases List.mem_cons.1 hmem with h' | h'
          · rw [h']
          · exact (List.pairwise_cons.1 s2).1 _ h'
        linarith
    · rw [if_neg hu]
      have hu' := not_lt.1 hu
      rcases Nat.eq_or_lt_of_le hlev with he | hlt
      · rw [he, Nat.sub_self]
        constructor
        · intro _; exact hb
        · intro _
          -- all the levels below are smaller
          clear hll ih hlev s1 s2 hs
          have key : ∀ (d : List ℝ) (ks : List Nat), (∀ k ∈ ks, k < lev t) → solidFrom lev t u d ks := by
            intro d
            induction d with
            | nil => intro ks _; cases ks <;> simp [solidFrom]
            | cons c d ihd =>
              intro ks hks
              cases ks with
              | nil => simp [solidFrom]
              | cons k ks =>
                rw [solidFrom]
                split
                · exact hks k (by simp)
                · exact ihd ks fun k' hk' => hks k' (by simp [hk'])
          apply key
          intro k hk
          have : k < l.length := by simpa [layerLevels] using hk
          omega
      · rw [ih b' s2 hu' (by omega), show l.length + 1 - lev t = (l.length - lev t) + 1 by omega, List.getD_cons_succ]

theorem levelAt_le (L : Nat) : ∀ (l : List (ℝ × Nat)) (last : Nat) (t : ℝ), last ≤ L → (∀ x ∈ l, x.2 ≤ L) → levelAt last l t ≤ L := by
  intro l
  induction l with
  | nil => intro last t h _; exact h
  | cons x l ih =>
    intro last t h hx
    obtain ⟨e, c⟩ := x
    rw [levelAt]
    split
    · exact ih c t (hx (e, c) (by simp)) fun y hy => hx y (by simp [hy])
    · exact h

/-- **C65**. Each value of the structure is the area of the part of the pixel below the surface of the grating: the full height on the
left of the first edge, and from each edge to the next the height of its level. -/
theorem multi_etch_profile_partial (p : MultiEtch ℝ) (h : Drawable p) : ∃ s, p.getStructure = some s ∧ s.length = p.n ∧
    (∀ q, q < p.n → (s.getD q []).length = p.D) ∧
    ∀ q z, q < p.n → z < p.D → entryAt s q z = solidArea p.depths (p.vector.zip p.levels) q z := by
  obtain ⟨s, s1, s2, s3, s4⟩ := structure_sum p h
  refine ⟨s, s1, s2, s3, fun q z hq hz => ?_⟩
  rw [s4 q z hq hz]
  have hsort := goodDepths_sorted p.D p.depths 0 h.good
  have hks : ∀ k ∈ layerLevels p.depths.length, k < p.depths.length := fun k hk => by simpa [layerLevels] using hk
  have harea := (area_layers (levelAt p.depths.length (p.vector.zip p.levels)) q z p.depths (layerLevels p.depths.length) 0
    (by simp [layerLevels]) (fun k hk => part_measurable p h q k (hks k hk)) hsort).2
  have hmap : (layerLevels p.depths.length).map (rasterAt p q) = (layerLevels p.depths.length).map fun k =>
      pixelPart q fun t => k < levelAt p.depths.length (p.vector.zip p.levels) t :=
    List.map_congr_left fun k hk => rasterAt_part p h q k (hks k hk)
  rw [hmap, ← harea, solidArea]
  congr 1
  ext ⟨t, u⟩
  simp only [Set.mem_ofPred_eq]
  have hlev : levelAt p.depths.length (p.vector.zip p.levels) t ≤ p.depths.length :=
    levelAt_le _ _ _ _ le_rfl fun x hx => h.known x.2 (List.of_mem_zip hx).2
  constructor
  · rintro ⟨h1, h2, h3, h4⟩
    exact ⟨h1, h2, (solidFrom_top _ t u p.depths 0 hsort h3 hlev).1 h4⟩
  · rintro ⟨h1, h2, h4⟩
    have h3 : (0 : ℝ) ≤ u := le_trans (Nat.cast_nonneg z) h2.1
    exact ⟨h1, h2, h3, (solidFrom_top _ t u p.depths 0 hsort h3 hlev).2 h4⟩

end Verif.Grating
