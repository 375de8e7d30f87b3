import Verif.Grating.EndToEnd
import Verif.Grating.GeneralProps
import Verif.Grating.PixelatedProps
import Mathlib.MeasureTheory.Measure.Lebesgue.Basic
/-
C122: a discretised grating is drawn as it was discretised, and is the closest one to the continuous grating.
-/
set_option linter.unusedVariables false
namespace Verif.Grating
open MeasureTheory

/-! ### Specification -/

/-- The mean value of the pixels above position `q` along the grating. -/
noncomputable def meanHeight (D : Nat) (s : List (List ℝ)) (q : Nat) : ℝ := (∑ z ∈ Finset.range D, entryAt s q z) / D

/-- The squared distance of the drawn grating to the continuous one. -/
noncomputable def drawnError (D : Nat) (x : List ℝ) (s : List (List ℝ)) : ℝ :=
  ∑ q ∈ Finset.range x.length, (meanHeight D s q - x.getD q 0) ^ 2

/-! ### Areas -/

theorem sum_above (c : ℝ) (hc : 0 ≤ c) : ∀ D : Nat,
    ∑ z ∈ Finset.range D, max ((z : ℝ) + 1 - max (z : ℝ) c) 0 = max ((D : ℝ) - c) 0 := by
  intro D
  induction D with
  | zero => simp [hc]
  | succ D ih =>
    rw [Finset.sum_range_succ, ih]
    push_cast
    rcases le_total c (D : ℝ) with h | h
    · rw [max_eq_left (by linarith : (0 : ℝ) ≤ (D : ℝ) - c), max_eq_left h,
        max_eq_left (by linarith : (0 : ℝ) ≤ (D : ℝ) + 1 - D), max_eq_left (by linarith : (0 : ℝ) ≤ (D : ℝ) + 1 - c)]
      ring
    · rw [max_eq_right (by linarith : (D : ℝ) - c ≤ 0), max_eq_right h, zero_add]

/-- The region of pixel `q`, `z` below a surface. -/
def region (D : Nat) (H : ℝ → ℝ) (q z : Nat) : Set (ℝ × ℝ) :=
  {p | ((q : ℝ) ≤ p.1 ∧ p.1 < q + 1) ∧ ((z : ℝ) ≤ p.2 ∧ p.2 < z + 1) ∧ (D : ℝ) - p.2 ≤ D * H p.1}

theorem region_cells (D : Nat) (hc : Nat → ℝ) (d : Nat) (hd : 0 < d) (q z : Nat) :
    region D (fun t => hc ⌊t * d⌋₊) q z = ⋃ r ∈ Finset.range d,
      Set.Ico ((q : ℝ) + r / d) (q + (r + 1) / d) ×ˢ Set.Ico (max (z : ℝ) (D * (1 - hc (d * q + r)))) (z + 1) := by
  have hd' : (0 : ℝ) < d := by exact_mod_cast hd
  ext ⟨t, u⟩
  simp only [region, Set.mem_ofPred_eq, Set.mem_iUnion, Set.mem_prod, Set.mem_Ico, Finset.mem_range, exists_prop]
  constructor
  · rintro ⟨⟨h1, h2⟩, ⟨h3, h4⟩, h5⟩
    have h0 : 0 ≤ t * d := mul_nonneg ((Nat.cast_nonneg q).trans h1) hd'.le
    have f1 := Nat.floor_le h0
    have f2 := Nat.lt_floor_add_one (t * d)
    have g1 : d * q ≤ ⌊t * d⌋₊ := Nat.le_floor (by push_cast; nlinarith)
    have g2 : ⌊t * d⌋₊ < d * q + d := by
      rw [Nat.floor_lt h0]
      push_cast
      nlinarith
    obtain ⟨r, hr⟩ : ∃ r, ⌊t * d⌋₊ = d * q + r := ⟨⌊t * d⌋₊ - d * q, by omega⟩
    rw [hr] at f1 f2 h5
    push_cast at f1 f2
    refine ⟨r, by omega, ⟨?_, ?_⟩, ?_, h4⟩
    · rw [← sub_nonneg]
      have : t - (q + r / d) = (t * d - (d * q + r)) / d := by field_simp
      rw [this]
      exact div_nonneg (by linarith) hd'.le
    · rw [← sub_pos]
      have : q + (r + 1) / d - t = (d * q + r + 1 - t * d) / d := by field_simp; ring
      rw [this]
      exact div_pos (by linarith) hd'
    · exact max_le h3 (by linarith)
  · rintro ⟨r, hr, ⟨h1, h2⟩, h3, h4⟩
    have hr' : (r : ℝ) + 1 ≤ d := by exact_mod_cast hr
    have e1 : (q : ℝ) * d + r ≤ t * d := by
      have := mul_le_mul_of_nonneg_right h1 hd'.le
      rwa [add_mul, div_mul_cancel₀ _ hd'.ne'] at this
    have e2 : t * d < (q : ℝ) * d + (r + 1) := by
      have := mul_lt_mul_of_pos_right h2 hd'
      rwa [add_mul, div_mul_cancel₀ _ hd'.ne'] at this
    have hfl : ⌊t * d⌋₊ = d * q + r := by
      rw [Nat.floor_eq_iff (by have := Nat.cast_nonneg (α := ℝ) q; have := Nat.cast_nonneg (α := ℝ) r; nlinarith)]
      push_cast
      constructor <;> linarith
    rw [hfl]
    have hr0 : (0 : ℝ) ≤ r / d := div_nonneg (Nat.cast_nonneg r) hd'.le
    have hr1 : ((r : ℝ) + 1) / d ≤ 1 := by rw [div_le_one hd']; exact hr'
    refine ⟨⟨by linarith, by linarith⟩, ⟨(le_max_left _ _).trans h3, h4⟩, ?_⟩
    have := (le_max_right _ _).trans h3
    linarith

theorem region_area (D : Nat) (hc : Nat → ℝ) (d : Nat) (hd : 0 < d) (q z : Nat) :
    volume.real (region D (fun t => hc ⌊t * d⌋₊) q z) =
      ∑ r ∈ Finset.range d, 1 / d * max ((z : ℝ) + 1 - max (z : ℝ) (D * (1 - hc (d * q + r)))) 0 := by
  have hd' : (0 : ℝ) < d := by exact_mod_cast hd
  have hfin : ∀ r ∈ Finset.range d, volume (Set.Ico ((q : ℝ) + r / d) (q + (r + 1) / d) ×ˢ
      Set.Ico (max (z : ℝ) (D * (1 - hc (d * q + r)))) (z + 1)) ≠ ⊤ := by
    intro r _
    rw [Measure.volume_eq_prod, Measure.prod_prod]
    exact ENNReal.mul_ne_top (by simp) (by simp)
  rw [region_cells D hc d hd, measureReal_biUnion_finset ?_ ?_ hfin]
  · apply Finset.sum_congr rfl
    intro r _
    rw [Measure.volume_eq_prod, measureReal_prod_prod, Real.volume_real_Ico, Real.volume_real_Ico]
    congr 1
    rw [show (q : ℝ) + (r + 1) / d - (q + r / d) = 1 / d by ring]
    exact max_eq_left (by positivity)
  · intro r _ r' _ hne
    rw [Function.onFun, Set.disjoint_left]
    rintro ⟨t, u⟩ h1 h2
    simp only [Set.mem_prod, Set.mem_Ico] at h1 h2
    apply hne
    have a1 := lt_of_le_of_lt h1.1.1 h2.1.2
    have a2 := lt_of_le_of_lt h2.1.1 h1.1.2
    have b1 : (r : ℝ) < r' + 1 := by
      have : (r : ℝ) / d < (r' + 1) / d := by linarith
      rwa [div_lt_div_iff_of_pos_right hd'] at this
    have b2 : (r' : ℝ) < r + 1 := by
      have : (r' : ℝ) / d < (r + 1) / d := by linarith
      rwa [div_lt_div_iff_of_pos_right hd'] at this
    have b1' : r < r' + 1 := by exact_mod_cast b1
    have b2' : r' < r + 1 := by exact_mod_cast b2
    omega
  · intro r _
    exact measurableSet_Ico.prod measurableSet_Ico

/-- The areas of a column of pixels add up to the mean height. -/
theorem region_sum (D : Nat) (hc : Nat → ℝ) (h0 : ∀ c, 0 ≤ hc c) (h1 : ∀ c, hc c ≤ 1) (d : Nat) (hd : 0 < d) (q : Nat) :
    ∑ z ∈ Finset.range D, volume.real (region D (fun t => hc ⌊t * d⌋₊) q z) =
      D * ((∑ r ∈ Finset.range d, hc (d * q + r)) / d) := by
  simp only [region_area D hc d hd]
  rw [Finset.sum_comm, Finset.sum_div, Finset.mul_sum]
  apply Finset.sum_congr rfl
  intro r _
  have hD : (0 : ℝ) ≤ D := Nat.cast_nonneg D
  rw [← Finset.mul_sum, sum_above _ (mul_nonneg hD (by linarith [h1 (d * q + r)])), max_eq_left]
  · ring
  · have := mul_nonneg hD (h0 (d * q + r))
    linarith

theorem region_finite (D : Nat) (H : ℝ → ℝ) (q z : Nat) : volume (region D H q z) ≠ ⊤ := by
  have hsub : region D H q z ⊆ Set.Ico (q : ℝ) (q + 1) ×ˢ Set.Ico (z : ℝ) (z + 1) :=
    fun p hp => ⟨⟨hp.1.1, hp.1.2⟩, ⟨hp.2.1.1, hp.2.1.2⟩⟩
  apply ne_top_of_le_ne_top _ (measure_mono hsub)
  rw [Measure.volume_eq_prod, Measure.prod_prod]
  exact ENNReal.mul_ne_top (by simp) (by simp)

/-- A surface that is raised to the full height on an interval of length `δ`. -/
theorem region_raised (D : Nat) (H : ℝ → ℝ) (h1 : ∀ t, H t ≤ 1) (n : Nat) (δ : ℝ) (hδ : 0 ≤ δ) (q z : Nat) (hq : q < n) :
    let A := volume.real (region D (fun t => if t < (n : ℝ) - δ then H t else 1) q z)
    let B := volume.real (region D H q z)
    B ≤ A ∧ A ≤ B + δ ∧ ((q : ℝ) + 1 ≤ n - δ → A = B) := by
  intro A B
  have hD : (0 : ℝ) ≤ D := Nat.cast_nonneg D
  have hq' : (q : ℝ) + 1 ≤ n := by exact_mod_cast hq
  refine ⟨measureReal_mono ?_ (region_finite _ _ _ _), ?_, ?_⟩
  · rintro ⟨t, u⟩ ⟨a, b, c⟩
    refine ⟨a, b, ?_⟩
    simp only at c ⊢
    split
    · exact c
    · have := mul_le_mul_of_nonneg_left (h1 t) hD
      linarith
  · have hs : volume.real (Set.Ico ((n : ℝ) - δ) n ×ˢ Set.Ico (z : ℝ) (z + 1)) = δ := by
      rw [Measure.volume_eq_prod, measureReal_prod_prod, Real.volume_real_Ico, Real.volume_real_Ico]
      rw [max_eq_left (by linarith), max_eq_left (by linarith)]
      ring
    refine (measureReal_mono (μ := volume) (s₂ := region D H q z ∪ Set.Ico ((n : ℝ) - δ) n ×ˢ Set.Ico (z : ℝ) (z + 1)) ?_ ?_).trans
      ((measureReal_union_le _ _).trans_eq (by rw [hs]))
    · rintro ⟨t, u⟩ ⟨a, b, c⟩
      simp only at a b c
      by_cases ht : t < (n : ℝ) - δ
      · rw [if_pos ht] at c
        exact Or.inl ⟨a, b, c⟩
      · exact Or.inr ⟨⟨not_lt.1 ht, lt_of_lt_of_le a.2 hq'⟩, b⟩
    · refine measure_union_ne_top (region_finite _ _ _ _) ?_
      rw [Measure.volume_eq_prod, Measure.prod_prod]
      exact ENNReal.mul_ne_top (by simp) (by simp)
  · intro hl
    show volume.real _ = volume.real _
    congr 1
    ext ⟨t, u⟩
    simp only [region, Set.mem_ofPred_eq]
    refine and_congr_right fun a => and_congr_right fun b => ?_
    rw [if_pos (by linarith [a.2])]

/-! ### Levels -/

theorem lattice_level (φ : Nat → ℝ) (t : ℝ) (c : Nat) : ∀ (S : List (Nat × Nat)) (m : Nat), (S.map Prod.fst).Pairwise (· ≤ ·) →
    (∀ e ∈ S, φ e.1 ≤ t ↔ e.1 ≤ c) →
    levelAt m (S.map fun e => (φ e.1, e.2)) t = General.levelAt m S c := by
  intro S
  induction S with
  | nil => intro m _ _; rfl
  | cons e S ih =>
    intro m hs hφ
    rw [List.map_cons, List.pairwise_cons] at hs
    rw [List.map_cons, levelAt]
    by_cases h : e.1 ≤ c
    · rw [if_pos ((hφ e (by simp)).2 h), ih e.2 hs.2 fun f hf => hφ f (by simp [hf])]
      simp only [General.levelAt]
      rw [List.filter_cons_of_pos (by simpa using h), List.getLast?_cons]
      cases (S.filter fun e => decide (e.1 ≤ c)).getLast? <;> simp
    · rw [if_neg (fun h' => h ((hφ e (by simp)).1 h'))]
      simp only [General.levelAt]
      have : (e :: S).filter (fun e => decide (e.1 ≤ c)) = [] := by
        rw [List.filter_eq_nil_iff]
        intro f hf
        rcases List.mem_cons.1 hf with rfl | hf
        · simpa using h
        · have := hs.1 f.1 (List.mem_map_of_mem hf)
          simp only [decide_eq_true_eq]
          omega
      rw [this]
      rfl

theorem level_height (hf : List ℝ) (start : Nat) (h1 : hf.getD start 0 = 1) (S : List (Nat × Nat)) (hS : ∀ e ∈ S, e.2 < hf.length)
    (c : Nat) : hf.getD (General.levelAt hf.length S c) 1 = hf.getD (General.levelAt start S c) 0 := by
  simp only [General.levelAt]
  cases hl : (S.filter fun e => decide (e.1 ≤ c)).getLast? with
  | none => simpa using h1.symm
  | some e =>
    have he : e ∈ S := List.mem_of_mem_filter (List.mem_of_getLast? hl)
    simp only [Option.map_some, Option.getD_some]
    have := hS e he
    simp [List.getD_eq_getElem?_getD, List.getElem?_eq_getElem this]

theorem cumsums_widths : ∀ (l : List ℝ) (a : ℝ), cumsums a (General.widthsFrom a l) = l := by
  intro l
  induction l with
  | nil => intro a; rfl
  | cons b l ih =>
    intro a
    simp only [General.widthsFrom, cumsums]
    rw [show a + (b - a) = b by ring, ih b]

/-! ### Drawing edges at the end of the grating -/

theorem eval_clip (g : PixGrating ℝ) (hp : 0 < g.pixelSize) (input : List ℝ) (hi : List Nat) :
    g.eval input hi = PixGrating.eval { g with useEdgeLocs := true }
      ((g.edges input).map fun e => min e (((g.n : ℝ) - 1 / 100000) * g.pixelSize)) hi := by
  unfold PixGrating.eval
  congr 2
  unfold PixGrating.param MultiEtch.fromVector MultiEtch.project
  congr 1
  simp only [List.map_append, PixGrating.edges, if_true, List.map_map]
  congr 2
  apply List.map_congr_left
  intro e _
  simp only [Function.comp]
  have : min e (((g.n : ℝ) - 1 / 100000) * g.pixelSize) / g.pixelSize = min (e / g.pixelSize) ((g.n : ℝ) - 1 / 100000) := by
    rw [← min_div_div_right hp.le, mul_div_cancel_right₀ _ hp.ne']
  rw [this]
  set a := e / g.pixelSize
  set b := (g.n : ℝ) - 1 / 100000
  rcases le_total a b with h | h
  · rw [min_eq_left h]
  · rw [min_eq_right h, min_eq_right (h.trans (le_max_left a 0)), min_eq_right (le_max_left b 0)]

/-- The pixels drawn for edges on the lattice of `1 / d` of a pixel: full height left of the first edge. -/
theorem drawn_lattice (g : PixGrating ℝ) (hp : 0 < g.pixelSize) (hn : 0 < g.n) (hD : 0 < g.D) (hext : g.extent = g.n * g.pixelSize)
    (hgood : GoodDepths g.D 0 (g.heightFracs.reverse.map fun h => (g.D : ℝ) * (1 - h)))
    (hh : ∀ h ∈ g.heightFracs, 0 ≤ h ∧ h ≤ 1) (start : Nat) (hfull : g.heightFracs.getD start 0 = 1)
    (d : Nat) (hd : 0 < d) (S : List (Nat × Nat)) (hsort : (S.map Prod.fst).Pairwise (· ≤ ·))
    (hS : ∀ e ∈ S, e.2 < g.heightFracs.length ∧ e.1 ≤ d * g.n)
    (input : List ℝ) (hin : g.edges input = S.map fun e => (e.1 : ℝ) / d * g.pixelSize) :
    ∃ s, g.eval input (S.map Prod.snd) = some s ∧ s.length = g.n ∧ ∀ q, q < g.n →
      General.pixelHeight g.heightFracs start d S q ≤ meanHeight g.D s q ∧
      meanHeight g.D s q ≤ General.pixelHeight g.heightFracs start d S q + 1 / 100000 ∧
      (q + 1 < g.n → meanHeight g.D s q = General.pixelHeight g.heightFracs start d S q) := by
  have hd' : (0 : ℝ) < d := by exact_mod_cast hd
  have hn' : (1 : ℝ) ≤ g.n := by exact_mod_cast hn
  have hD' : (0 : ℝ) < g.D := by exact_mod_cast hD
  set b : ℝ := (g.n : ℝ) - 1 / 100000 with hb
  have hb0 : 0 < b := by rw [hb]; linarith
  set g' : PixGrating ℝ := { g with useEdgeLocs := true } with hg'
  set input' : List ℝ := (g.edges input).map fun e => min e (b * g.pixelSize) with hinput'
  have hstop : g'.stop = b := by
    unfold PixGrating.stop
    show min (g.extent / g.pixelSize) ((g.n : ℝ) - 1 / 100000) = b
    rw [hext, mul_div_cancel_right₀ _ hp.ne', hb]
    exact min_eq_right (by linarith)
  have hpos : g'.pos input' = S.map fun e => min ((e.1 : ℝ) / d) b := by
    show input'.map (fun e => e / g.pixelSize) = _
    rw [hinput', hin, List.map_map, List.map_map]
    apply List.map_congr_left
    intro e _
    simp only [Function.comp]
    rw [← min_div_div_right hp.le, mul_div_cancel_right₀ _ hp.ne', mul_div_cancel_right₀ _ hp.ne']
  have hv : Valid g' input' (S.map Prod.snd) := by
    refine ⟨by simp [hinput', hin], ?_, hgood, by rw [hstop]; exact hb0.le, ?_, ?_⟩
    · intro c hc
      obtain ⟨e, he, rfl⟩ := List.mem_map.1 hc
      exact (hS e he).1
    · rw [hpos, List.pairwise_map]
      rw [List.pairwise_map] at hsort
      refine hsort.imp fun {e f} h => ?_
      have : (e.1 : ℝ) ≤ f.1 := by exact_mod_cast h
      exact min_le_min (by gcongr) le_rfl
    · intro e he
      rw [hpos] at he
      obtain ⟨f, -, rfl⟩ := List.mem_map.1 he
      rw [hstop]
      exact ⟨le_min (by positivity) hb0.le, min_le_right _ _⟩
  obtain ⟨s, s1, s2, s3, s4⟩ := pixelated_grating_profile_partial g' input' _ hv
  refine ⟨s, by rw [eval_clip g hp]; exact s1, s2, fun q hq => ?_⟩
  set hc : Nat → ℝ := fun c => g.heightFracs.getD (General.levelAt start S c) 0 with hhc
  have unit : ∀ c, 0 ≤ hc c ∧ hc c ≤ 1 := by
    intro c
    simp only [hhc]
    rw [List.getD_eq_getElem?_getD]
    cases h : g.heightFracs[General.levelAt start S c]? with
    | none => simp
    | some v => exact hh v (List.mem_of_getElem? h)
  have hmat : ∀ z, g'.material input' (S.map Prod.snd) q z =
      volume.real (region g.D (fun t => if t < (g.n : ℝ) - 1 / 100000 then hc ⌊t * d⌋₊ else 1) q z) := by
    intro z
    unfold PixGrating.material region
    congr 1
    ext ⟨t, u⟩
    simp only [Set.mem_ofPred_eq]
    refine and_congr_right fun a => and_congr_right fun _ => ?_
    have ht0 : 0 ≤ t := (Nat.cast_nonneg q).trans a.1
    have htd : 0 ≤ t * d := mul_nonneg ht0 hd'.le
    have : g'.heightAt input' (S.map Prod.snd) t = if t < (g.n : ℝ) - 1 / 100000 then hc ⌊t * d⌋₊ else 1 := by
      unfold PixGrating.heightAt
      rw [hstop]
      by_cases ht : t < b
      · rw [if_pos ht, if_pos ht, hpos, General.zip_map_pair]
        rw [lattice_level (fun e => min ((e : ℝ) / d) b) t ⌊t * d⌋₊ S _ hsort]
        · exact level_height g.heightFracs start hfull S (fun e he => (hS e he).1) _
        · intro e _
          rw [Nat.le_floor_iff htd, ← div_le_iff₀ hd', min_le_iff]
          constructor
          · rintro (h | h)
            · exact h
            · exact absurd ht (not_lt.2 h)
          · exact Or.inl
      · rw [if_neg ht, if_neg ht]
    rw [this]
  have hsum : ∑ z ∈ Finset.range g.D, entryAt s q z = ∑ z ∈ Finset.range g.D,
      volume.real (region g.D (fun t => if t < (g.n : ℝ) - 1 / 100000 then hc ⌊t * d⌋₊ else 1) q z) := by
    have hpol : ∑ z ∈ Finset.range g.D, entryAt s q z =
        ∑ z ∈ Finset.range g.D, entryAt s q (if g'.polarity then g.D - 1 - z else z) := by
      by_cases h : g'.polarity = true
      · simp only [h, if_true]
        exact (Finset.sum_range_reflect (fun z => entryAt s q z) g.D).symm
      · simp only [h]
        rfl
    rw [hpol]
    apply Finset.sum_congr rfl
    intro z hz
    rw [← hmat z]
    exact s4 q z hq (Finset.mem_range.1 hz)
  have hideal : ∑ z ∈ Finset.range g.D, volume.real (region g.D (fun t => hc ⌊t * d⌋₊) q z) =
      g.D * General.pixelHeight g.heightFracs start d S q :=
    region_sum g.D hc (fun c => (unit c).1) (fun c => (unit c).2) d hd q
  have hr := fun z => region_raised g.D (fun t => hc ⌊t * d⌋₊) (fun t => (unit _).2) g.n (1 / 100000) (by norm_num) q z hq
  refine ⟨?_, ?_, fun hl => ?_⟩
  · unfold meanHeight
    rw [le_div_iff₀ hD', hsum, mul_comm, ← hideal]
    exact Finset.sum_le_sum fun z _ => (hr z).1
  · unfold meanHeight
    rw [div_le_iff₀ hD', hsum, add_mul, mul_comm, ← hideal]
    calc _ ≤ ∑ z ∈ Finset.range g.D, (volume.real (region g.D (fun t => hc ⌊t * d⌋₊) q z) + 1 / 100000) :=
          Finset.sum_le_sum fun z _ => (hr z).2.1
      _ = _ := by
        rw [Finset.sum_add_distrib, Finset.sum_const, Finset.card_range, nsmul_eq_mul]
        ring
  · unfold meanHeight
    have hl' : (q : ℝ) + 1 + 1 ≤ g.n := by exact_mod_cast hl
    rw [div_eq_iff hD'.ne', hsum, mul_comm, ← hideal]
    exact Finset.sum_congr rfl fun z _ => (hr z).2.2 (by linarith)

/-- The edges of an allowed grating are sorted and on the grating. -/
theorem allowed_sorted {n len start stop : Nat} {lo hi : Nat → Nat} {S : List (Nat × Nat)}
    (h : General.Allowed n len start stop lo hi S) :
    (S.map Prod.fst).Pairwise (· ≤ ·) ∧ ∀ e ∈ S, e.1 ≤ len := by
  have hp : S.Pairwise fun e f => e.1 ≤ f.1 := by
    rw [← List.isChain_iff_pairwise]
    exact h.chain.imp fun e f hef => by omega
  refine ⟨List.pairwise_map.2 hp, fun e he => ?_⟩
  obtain ⟨l, hl⟩ : ∃ l, S.getLast? = some l := by
    cases hS : S.getLast? with
    | none => exact absurd (List.getLast?_eq_none_iff.1 hS) h.ne
    | some l => exact ⟨l, rfl⟩
  obtain ⟨T, rfl⟩ := List.getLast?_eq_some_iff.1 hl
  have hlen := (h.last l hl).2.1
  rcases List.mem_append.1 he with he | he
  · have := (List.pairwise_append.1 hp).2.2 e he l (by simp)
    omega
  · rw [List.mem_singleton.1 he]; exact hlen

/-- **C122.** A continuous grating with values in `[0, 1]`, one for each pixel, is discretised and drawn; the level at the start has
the full height. If some grating on the lattice of `1 / divisions` of a pixel respects the features, then the mean height drawn at each
pixel is that of a grating `S` that respects them (the last pixel up to `1e-5`), and the drawn grating is, up to `3e-5`, at least as
close to the continuous one as any grating that respects them.
Missing: start levels of less than the full height (`discretised_start_false`), heights less than a pixel apart (C65). -/
theorem discretised_drawn_partial (g : PixGrating ℝ) (x minF : List ℝ) (maxF : Option (List ℝ)) (start stop d : Nat)
    (hp : 0 < g.pixelSize) (hn : 0 < g.n) (hD : 0 < g.D) (hext : g.extent = g.n * g.pixelSize)
    (hgood : GoodDepths g.D 0 (g.heightFracs.reverse.map fun h => (g.D : ℝ) * (1 - h)))
    (hh : ∀ h ∈ g.heightFracs, 0 ≤ h ∧ h ≤ 1) (hfull : g.heightFracs.getD start 0 = 1)
    (hx : x.length = g.n) (hx1 : ∀ a ∈ x, 0 ≤ a ∧ a ≤ 1) (hd : 1 ≤ d)
    (hstart : start < g.heightFracs.length) (hstop : stop < g.heightFracs.length)
    (hmin : minF.length = g.heightFracs.length) (hmin1 : ∀ f ∈ minF, g.pixelSize ≤ f)
    (hex : ∃ S, General.Allowed g.heightFracs.length (d * x.length) start stop
      (fun a => ⌈(minF.map (· / g.pixelSize)).getD a 0 * d⌉₊)
      (fun a => ⌊General.maxOf g.heightFracs.length (maxF.map fun l => l.map (· / g.pixelSize)) a * d⌋₊) S ∧
      General.levelError x g.heightFracs start d S < 2 ^ 30) :
    ∃ s S, discretizeAndDraw g x g.pixelSize minF maxF start stop d = some s ∧
      General.Allowed g.heightFracs.length (d * x.length) start stop
        (fun a => ⌈(minF.map (· / g.pixelSize)).getD a 0 * d⌉₊)
        (fun a => ⌊General.maxOf g.heightFracs.length (maxF.map fun l => l.map (· / g.pixelSize)) a * d⌋₊) S ∧
      (∀ q, q < g.n → General.pixelHeight g.heightFracs start d S q ≤ meanHeight g.D s q ∧
        meanHeight g.D s q ≤ General.pixelHeight g.heightFracs start d S q + 1 / 100000 ∧
        (q + 1 < g.n → meanHeight g.D s q = General.pixelHeight g.heightFracs start d S q)) ∧
      ∀ S', General.Allowed g.heightFracs.length (d * x.length) start stop
        (fun a => ⌈(minF.map (· / g.pixelSize)).getD a 0 * d⌉₊)
        (fun a => ⌊General.maxOf g.heightFracs.length (maxF.map fun l => l.map (· / g.pixelSize)) a * d⌋₊) S' →
        drawnError g.D x s ≤ General.levelError x g.heightFracs start d S' + 3 / 100000 := by
  have hx0 : x ≠ [] := by rintro rfl; simp at hx; omega
  have hmin' : ∀ a, a < g.heightFracs.length → 1 ≤ (minF.map (· / g.pixelSize)).getD a 0 := by
    intro a ha
    rw [List.getD_eq_getElem?_getD, List.getElem?_map, List.getElem?_eq_getElem (by omega)]
    simp only [Option.map_some, Option.getD_some]
    rw [le_div_iff₀ hp, one_mul]
    exact hmin1 _ (List.getElem_mem _)
  obtain ⟨S, e1, e2, e3⟩ := General.general_optimal x g.heightFracs (minF.map (· / g.pixelSize))
    (maxF.map fun l => l.map (· / g.pixelSize)) start stop d hd hx0 hstart hstop hmin' hex
  obtain ⟨h1, h2⟩ := allowed_sorted e2
  have hany : (minF.any fun f => g.pixelSize > f) = false := by
    rw [List.any_eq_false]
    intro f hf
    simpa using hmin1 f hf
  have key : ∀ input, g.edges input = (S.map fun e => (e.1 : ℝ) / d * g.pixelSize) → _ := fun input hin =>
    drawn_lattice g hp hn hD hext hgood hh start hfull d hd S h1
      (fun e he => ⟨e2.level e he, by rw [← hx]; exact h2 e he⟩) input hin
  have hdraw : ∃ input, g.edges input = (S.map fun e => (e.1 : ℝ) / d * g.pixelSize) ∧
      discretizeAndDraw g x g.pixelSize minF maxF start stop d = g.eval input (S.map Prod.snd) := by
    unfold discretizeAndDraw General.gratingL2D
    rw [if_neg (by rw [hany]; simp), e1]
    by_cases hu : g.useEdgeLocs = true
    · refine ⟨S.map fun e => (e.1 : ℝ) / d * g.pixelSize, by rw [PixGrating.edges, if_pos hu], ?_⟩
      simp [hu, Function.comp_def]
    · refine ⟨General.widthsFrom 0 (S.map fun e => (e.1 : ℝ) / d * g.pixelSize), by
        rw [PixGrating.edges, if_neg hu, cumsums_widths], ?_⟩
      simp [hu, Function.comp_def]
  obtain ⟨input, hin, hdr⟩ := hdraw
  obtain ⟨s, s1, s2, s3⟩ := key input hin
  refine ⟨s, S, by rw [hdr, s1], e2, s3, fun S' hS' => ?_⟩
  refine le_trans ?_ (add_le_add_left (e3 S' hS') _)
  unfold drawnError General.levelError
  obtain ⟨m, hm⟩ : ∃ m, g.n = m + 1 := ⟨g.n - 1, by omega⟩
  rw [hx, hm, Finset.sum_range_succ, Finset.sum_range_succ]
  have hfirst : ∑ q ∈ Finset.range m, (meanHeight g.D s q - x.getD q 0) ^ 2 =
      ∑ q ∈ Finset.range m, (General.pixelHeight g.heightFracs start d S q - x.getD q 0) ^ 2 := by
    apply Finset.sum_congr rfl
    intro q hq
    have := Finset.mem_range.1 hq
    rw [(s3 q (by omega)).2.2 (by omega)]
  rw [hfirst]
  obtain ⟨a1, a2, -⟩ := s3 m (by omega)
  have hxm := getD_unit x hx1 m
  have hd' : (0 : ℝ) < d := by exact_mod_cast hd
  have hph : 0 ≤ General.pixelHeight g.heightFracs start d S m ∧ General.pixelHeight g.heightFracs start d S m ≤ 1 := by
    unfold General.pixelHeight
    constructor
    · exact div_nonneg (Finset.sum_nonneg fun r _ => (getD_unit g.heightFracs hh _).1) hd'.le
    · rw [div_le_one hd']
      calc _ ≤ ∑ r ∈ Finset.range d, (1 : ℝ) := Finset.sum_le_sum fun r _ => (getD_unit g.heightFracs hh _).2
        _ = _ := by simp
  obtain ⟨δ, hδ⟩ : ∃ δ, meanHeight g.D s m = General.pixelHeight g.heightFracs start d S m + δ := ⟨_, (add_sub_cancel _ _).symm⟩
  rw [hδ] at a1 a2 ⊢
  have b1 : 0 ≤ δ := by linarith
  have b2 : δ ≤ 1 / 100000 := by linarith
  set w := General.pixelHeight g.heightFracs start d S m
  set y := x.getD m 0
  nlinarith [mul_nonneg b1 (by linarith : 0 ≤ 1 / 100000 - δ), mul_nonneg b1 (by linarith : 0 ≤ 1 - (w - y))]

/-- The grating of two heights that the following cases use. -/
def example₂ {K : Type} [Field K] (u : Bool) : PixGrating K := ⟨3, 1, [0, 1], 1, 3, false, u⟩

/-- The hypotheses hold for three pixels, two heights, features of one pixel. -/
example (u : Bool) : let g : PixGrating ℝ := example₂ u
    0 < g.pixelSize ∧ 0 < g.n ∧ 0 < g.D ∧ g.extent = g.n * g.pixelSize ∧
    GoodDepths g.D 0 (g.heightFracs.reverse.map fun h => (g.D : ℝ) * (1 - h)) ∧
    (∀ h ∈ g.heightFracs, 0 ≤ h ∧ h ≤ 1) ∧ g.heightFracs.getD 1 0 = 1 ∧
    ∃ S, General.Allowed 2 (1 * 3) 1 0 (fun a => ⌈(([1, 1] : List ℝ).map (· / g.pixelSize)).getD a 0 * (1 : Nat)⌉₊)
      (fun a => ⌊General.maxOf (K := ℝ) 2 none a * (1 : Nat)⌋₊) S ∧ General.levelError [1, 0, 0] g.heightFracs 1 1 S < 2 ^ 30 := by
  refine ⟨by simp [example₂], by simp [example₂], by simp [example₂], by simp [example₂], ?_, by simp [example₂], by simp [example₂],
    [(1, 0)], ⟨by simp, ?_, by simp, ?_, by simp⟩, ?_⟩
  · simp only [example₂, List.reverse_cons, List.reverse_nil, List.nil_append, List.cons_append, List.map_cons, List.map_nil, GoodDepths,
      GoodFrac]
    norm_num
  · intro e he
    simp only [List.head?_cons, Option.some.injEq] at he
    subst he
    refine ⟨by simp, ?_⟩
    rw [Nat.le_floor_iff (by simp [General.maxOf])]
    simp [General.maxOf]
    norm_num
  · intro e he
    simp only [List.getLast?_singleton, Option.some.injEq] at he
    subst he
    refine ⟨rfl, by norm_num, ?_⟩
    have : (3 : ℕ) ≤ ⌊General.maxOf (K := ℝ) 2 none 0 * (1 : Nat)⌋₊ := by
      rw [Nat.le_floor_iff (by simp [General.maxOf])]
      simp [General.maxOf]
      norm_num
    omega
  · simp [General.levelError, General.pixelHeight, General.levelAt, example₂, Finset.sum_range_succ, List.getD]

/-- A start level of less than the full height is drawn at the full height: a grating that is flat at height 0 except for its last
pixel is discretised from level 0 to level 1 exactly, but drawn solid from end to end. -/
theorem discretised_start_false : ¬ ∀ (g : PixGrating ℚ) (x minF : List ℚ) (start stop d : Nat) (s : List (List ℚ)),
    g.accepts = true → g.n = x.length → start < g.heightFracs.length → stop < g.heightFracs.length →
    discretizeAndDraw g x g.pixelSize minF none start stop d = some s →
    (∃ r, General.edgeLocs x g.heightFracs (minF.map (· / g.pixelSize)) none start stop d = some r ∧ r = [(2, 1)]) →
    entryAt s 0 0 = g.heightFracs.getD start 0 := by
  intro H
  have := H (example₂ true) [0, 0, 1] [1, 1] 0 1 1 [[1], [1], [1]] (by decide +kernel) rfl (by decide) (by decide) (by decide +kernel)
    ⟨_, by decide +kernel, rfl⟩
  revert this
  decide +kernel

end Verif.Grating
