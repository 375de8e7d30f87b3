import Verif.Grating.Param
import Verif.Render.RasterProps
import Mathlib.MeasureTheory.Measure.Lebesgue.Basic
import Mathlib.MeasureTheory.Measure.Real
import Mathlib.Analysis.Calculus.Deriv.Add
import Mathlib.Analysis.Calculus.Deriv.Mul
/-
C31: `GratingParam` renders its edges. C47: its Jacobian.
-/
set_option linter.unusedVariables false
namespace Verif.Grating
open Verif.Render MeasureTheory

/-! ### Specification -/

/-- The material at `x` of a grating with the given edges: it changes at each edge, and there is none on the far left. -/
def Inside (edges : List ℝ) (x : ℝ) : Prop := Odd (edges.countP fun e => decide (e ≤ x))

/-- The part of the pixel `i` (of length one) where the condition holds. -/
noncomputable def pixelPart (i : Nat) (P : ℝ → Prop) : ℝ := volume.real {x : ℝ | (i : ℝ) ≤ x ∧ x < i + 1 ∧ P x}

/-! ### Sorting -/

theorem npSort_sorted (l : List ℝ) : (npSort l).Pairwise (· ≤ ·) := by
  have := List.pairwise_mergeSort (le := fun a b : ℝ => decide (a ≤ b))
    (fun a b c h1 h2 => by simp only [decide_eq_true_eq] at *; exact h1.trans h2)
    (fun a b => by simp only [Bool.or_eq_true, decide_eq_true_eq]; exact le_total a b) l
  exact this.imp fun h => by simpa using h

theorem npSort_perm (l : List ℝ) : (npSort l).Perm l := List.mergeSort_perm l _

theorem npSort_of_sorted (l : List ℝ) (h : l.Pairwise (· ≤ ·)) : npSort l = l :=
  List.mergeSort_of_pairwise (h.imp fun h => by simpa using h)

/-- **C31**. Setting a vector and reading it gives the sorted vector; a new parametrization holds its sorted initial value, and
is refused exactly for an odd number of edges. -/
theorem grating_decode_encode (p : GratingParam) (v : List ℝ) :
    ((p.decode v).encode.Pairwise (· ≤ ·) ∧ (p.decode v).encode.Perm v) ∧
    (v.Pairwise (· ≤ ·) → (p.decode v).encode = v) ∧ (p.decode v).numPixels = p.numPixels ∧
    (p.decode v).inverted = p.inverted :=
  ⟨⟨npSort_sorted v, npSort_perm v⟩, npSort_of_sorted v, rfl, rfl⟩

theorem grating_init (initial : List ℝ) (n : Nat) (inv : Bool) :
    (mkGrating initial n inv = none ↔ Odd initial.length) ∧
    (∀ p, mkGrating initial n inv = some p → p.edges.Pairwise (· ≤ ·) ∧ p.edges.Perm initial ∧ Even p.edges.length ∧
      p.numPixels = n ∧ p.inverted = inv) := by
  unfold mkGrating
  constructor
  · rw [Nat.odd_iff]
    split <;> simp_all
  · intro p hp
    split at hp
    · cases hp
    · rename_i h
      cases hp
      refine ⟨npSort_sorted _, npSort_perm _, ?_, rfl, rfl⟩
      rw [(npSort_perm initial).length_eq, Nat.even_iff]
      omega

/-! ### Rendering -/

/-- How much of `[c, c + 1]` is to the left of `x`. -/
noncomputable def ramp (c x : ℝ) : ℝ := min (max x c) (c + 1) - c

theorem covered_ramp (a b c : ℝ) (h : a ≤ b) : covered a b c (c + 1) = ramp c b - ramp c a := by
  unfold covered ramp
  rw [add_sub_cancel_left, div_one]
  rcases le_total a c with h1 | h1 <;> rcases le_total b c with h2 | h2 <;>
    rcases le_total a (c + 1) with h3 | h3 <;> rcases le_total b (c + 1) with h4 | h4 <;>
    simp only [max_eq_left, max_eq_right, min_eq_left, min_eq_right, h1, h2, h3, h4,
      le_add_iff_nonneg_right, zero_le_one] <;>
    first
      | (rw [max_eq_left (by linarith)]; linarith)
      | (rw [max_eq_right (by linarith)]; try linarith)

/-- The signed sum over the edges: rising edges count negative, falling edges positive. -/
noncomputable def signed (c : ℝ) : List ℝ → ℝ
  | [] => 0
  | a :: l => -ramp c a - signed c l

theorem xCoords_length (n : Nat) : (xCoords n).length = n + 1 := by simp [xCoords]

theorem at'_xCoords (n i : Nat) (h : i ≤ n) : at' (xCoords n) i = (i : ℝ) := by
  rw [at'_eq _ _ (by rw [xCoords_length]; omega)]
  simp [xCoords]

theorem xCoords_increasing (n : Nat) : (xCoords n).Pairwise (· < ·) := by
  unfold xCoords
  rw [List.pairwise_map]
  exact List.pairwise_lt_range.imp fun h => by exact_mod_cast h

theorem addTooth_spec (n : Nat) (hn : 1 ≤ n) (vals : List ℝ) (hv : vals.length = n) (t : ℝ × ℝ) (ht : t.1 ≤ t.2) :
    ∃ r, addTooth n vals t = some r ∧ r.length = n ∧
      ∀ i v, i < n → vals[i]? = some v → r[i]? = some (v + (ramp i t.2 - ramp i t.1)) := by
  obtain ⟨l, h1, h2, h3⟩ := raster_1d_fraction t.1 t.2 (xCoords n) (xCoords_increasing n) (by rw [xCoords_length]; omega)
  rw [xCoords_length] at h2 h3
  refine ⟨List.zipWith (· + ·) vals l, ?_, ?_, ?_⟩
  · unfold addTooth
    simp only
    rw [show (0.5 * (t.2 + t.1) - 0.5 * (t.2 - t.1) : ℝ) = t.1 by ring,
      show (0.5 * (t.2 + t.1) + 0.5 * (t.2 - t.1) : ℝ) = t.2 by ring, h1]
    rfl
  · rw [List.length_zipWith, hv, h2]
    simp
  · intro i v hi hvi
    rw [List.getElem?_zipWith, hvi, h3 i (by simpa using hi)]
    simp only [Option.some.injEq]
    rw [at'_xCoords n i (by omega), at'_xCoords n (i + 1) (by omega), min_eq_left ht, max_eq_right ht]
    push_cast
    rw [covered_ramp _ _ _ ht]

theorem teeth_spec (n : Nat) (hn : 1 ≤ n) : ∀ (m : Nat) (edges : List ℝ), edges.length = 2 * m → edges.Pairwise (· ≤ ·) →
    ∀ vals : List ℝ, vals.length = n → ∃ r, (teeth edges).foldlM (addTooth n) vals = some r ∧ r.length = n ∧
      ∀ i v, i < n → vals[i]? = some v → r[i]? = some (v + signed i edges) := by
  intro m
  induction m with
  | zero =>
    intro edges hl _ vals hv
    obtain rfl : edges = [] := List.length_eq_zero_iff.1 (by omega)
    exact ⟨vals, rfl, hv, fun i v _ h => by simpa [signed] using h⟩
  | succ m ih =>
    intro edges hl hs vals hv
    match edges, hl, hs with
    | a :: b :: l, hl, hs =>
      have hab : a ≤ b := (List.pairwise_cons.1 hs).1 b (by simp)
      obtain ⟨r1, e1, e2, e3⟩ := addTooth_spec n hn vals hv (a, b) hab
      obtain ⟨r2, f1, f2, f3⟩ := ih l (by simp at hl; omega) (List.pairwise_cons.1 (List.pairwise_cons.1 hs).2).2 r1 e2
      refine ⟨r2, ?_, f2, ?_⟩
      · rw [teeth, List.foldlM_cons, e1]
        exact f1
      · intro i v hi hvi
        rw [f3 i _ hi (e3 i v hi hvi)]
        simp only [signed]
        congr 1
        ring

/-- The pixels in terms of the signed sum. -/
theorem structure_signed (p : GratingParam) (hn : 1 ≤ p.numPixels) (he : Even p.edges.length)
    (hs : p.edges.Pairwise (· ≤ ·)) : ∃ l, p.getStructure = some l ∧ l.length = p.numPixels ∧
      ∀ i, i < p.numPixels → l[i]? = some (if p.inverted then 1 - signed i p.edges else signed i p.edges) := by
  obtain ⟨m, hm⟩ := he
  obtain ⟨r, h1, h2, h3⟩ := teeth_spec p.numPixels hn m p.edges (by omega) hs (List.replicate p.numPixels 0) (by simp)
  refine ⟨_, by rw [GratingParam.getStructure, h1]; rfl, ?_, ?_⟩
  · split <;> simp [h2]
  · intro i hi
    have := h3 i 0 hi (by simp [hi])
    rw [zero_add] at this
    split
    · rw [List.getElem?_map, this]
      rfl
    · exact this

/-- The set of the points of a pixel inside the grating, and its size. -/
theorem inside_measure (i : Nat) : ∀ (m : Nat) (edges : List ℝ), edges.length = 2 * m → edges.Pairwise (· ≤ ·) →
    MeasurableSet {x : ℝ | (i : ℝ) ≤ x ∧ x < i + 1 ∧ Inside edges x} ∧
    volume.real {x : ℝ | (i : ℝ) ≤ x ∧ x < i + 1 ∧ Inside edges x} = signed i edges := by
  intro m
  induction m with
  | zero =>
    intro edges hl _
    obtain rfl : edges = [] := List.length_eq_zero_iff.1 (by omega)
    have : {x : ℝ | (i : ℝ) ≤ x ∧ x < i + 1 ∧ Inside [] x} = ∅ := by
      ext x
      simp [Inside]
    rw [this]
    simp [signed]
  | succ m ih =>
    intro edges hl hs
    match edges, hl, hs with
    | a :: b :: l, hl, hs =>
      obtain ⟨s1, s2⟩ := List.pairwise_cons.1 hs
      obtain ⟨s3, s4⟩ := List.pairwise_cons.1 s2
      have hab : a ≤ b := s1 b (by simp)
      obtain ⟨i1, i2⟩ := ih l (by simp at hl; omega) s4
      have hset : {x : ℝ | (i : ℝ) ≤ x ∧ x < i + 1 ∧ Inside (a :: b :: l) x} =
          Set.Ico (max a i) (min b (i + 1)) ∪ {x : ℝ | (i : ℝ) ≤ x ∧ x < i + 1 ∧ Inside l x} := by
        ext x
        simp only [Set.mem_ofPred_eq, Set.mem_union, Set.mem_Ico, max_le_iff, lt_min_iff, Inside, List.countP_cons]
        by_cases h1 : a ≤ x <;> by_cases h2 : b ≤ x
        · simp only [h1, h2, decide_true, if_true]
          rw [add_assoc, Nat.odd_add]
          simp only [show Even (1 + 1) by decide, iff_true]
          constructor
          · intro h; exact Or.inr h
          · rintro (h | h)
            · exact absurd h2 (not_le.2 h.2.1)
            · exact h
        · have hz : l.countP (fun e => decide (e ≤ x)) = 0 := by
            rw [List.countP_eq_zero]
            intro e he
            have := s3 e he
            simp only [decide_eq_true_eq, not_le]
            linarith [not_le.1 h2]
          simp only [h1, h2, hz, decide_true, decide_false, if_true]
          simp only [Bool.false_eq_true, if_false]
          constructor
          · intro h; exact Or.inl ⟨⟨trivial, h.1⟩, not_le.1 h2, h.2.1⟩
          · rintro (h | h)
            · exact ⟨h.1.2, h.2.2, by decide⟩
            · exact absurd h.2.2 (by decide)
        · exact absurd (hab.trans h2) h1
        · have hz : l.countP (fun e => decide (e ≤ x)) = 0 := by
            rw [List.countP_eq_zero]
            intro e he
            have := s3 e he
            simp only [decide_eq_true_eq, not_le]
            linarith [not_le.1 h2]
          simp only [h1, h2, hz, decide_false, Bool.false_eq_true, if_false, false_and, false_or]
      have hdisj : Disjoint (Set.Ico (max a i) (min b ((i : ℝ) + 1))) {x : ℝ | (i : ℝ) ≤ x ∧ x < i + 1 ∧ Inside l x} := by
        rw [Set.disjoint_left]
        intro x hx hx'
        have hxb : x < b := lt_of_lt_of_le hx.2 (min_le_left _ _)
        have hz : l.countP (fun e => decide (e ≤ x)) = 0 := by
          rw [List.countP_eq_zero]
          intro e he
          have := s3 e he
          simp only [decide_eq_true_eq, not_le]
          linarith
        have := hx'.2.2
        rw [Inside, hz] at this
        exact absurd this (by decide)
      rw [hset]
      refine ⟨measurableSet_Ico.union i1, ?_⟩
      have hfin : volume {x : ℝ | (i : ℝ) ≤ x ∧ x < i + 1 ∧ Inside l x} ≠ ⊤ := by
        refine ne_of_lt (lt_of_le_of_lt (measure_mono (t := Set.Ico (i : ℝ) (i + 1)) fun x hx => ⟨hx.1, hx.2.1⟩) ?_)
        simp
      rw [measureReal_union hdisj i1 (by simp) hfin, i2]
      have hc := covered_ramp a b i hab
      simp only [covered, add_sub_cancel_left, div_one] at hc
      simp only [signed, Measure.real, Real.volume_Ico]
      rw [ENNReal.toReal_ofReal']
      rw [max_comm (0 : ℝ)] at hc
      rw [hc]
      ring

/-- **C31**. `get_structure` returns for each pixel the part of it that is inside the grating (outside, if inverted). -/
theorem grating_structure (p : GratingParam) (hn : 1 ≤ p.numPixels) (he : Even p.edges.length)
    (hs : p.edges.Pairwise (· ≤ ·)) : ∃ l, p.getStructure = some l ∧ l.length = p.numPixels ∧
      ∀ i, i < p.numPixels → l[i]? = some (pixelPart i fun x => if p.inverted then ¬ Inside p.edges x else Inside p.edges x) := by
  obtain ⟨l, h1, h2, h3⟩ := structure_signed p hn he hs
  refine ⟨l, h1, h2, ?_⟩
  intro i hi
  rw [h3 i hi]
  obtain ⟨m, hm⟩ := he
  obtain ⟨m1, m2⟩ := inside_measure i m p.edges (by omega) hs
  cases p.inverted with
  | false => simp only [Bool.false_eq_true, if_false, pixelPart, m2]
  | true =>
    simp only [if_true, pixelPart]
    have : {x : ℝ | (i : ℝ) ≤ x ∧ x < i + 1 ∧ ¬ Inside p.edges x} =
        Set.Ico (i : ℝ) (i + 1) \ {x : ℝ | (i : ℝ) ≤ x ∧ x < i + 1 ∧ Inside p.edges x} := by
      ext x
      simp only [Set.mem_ofPred_eq, Set.mem_sdiff, Set.mem_Ico]
      tauto
    have hsub : {x : ℝ | (i : ℝ) ≤ x ∧ x < i + 1 ∧ Inside p.edges x} ⊆ Set.Ico (i : ℝ) (i + 1) := fun x hx => ⟨hx.1, hx.2.1⟩
    rw [this, measureReal_sdiff hsub m1 (by simp), m2]
    simp [Measure.real]

/-- A grating of 6 pixels with two teeth, given in any order. -/
example : ∃ p, mkGrating [5, 1.5, 3.25, 0.5] 6 false = some p ∧ p.edges.Pairwise (· ≤ ·) ∧ Even p.edges.length ∧
    1 ≤ p.numPixels := by
  refine ⟨⟨npSort [5, 1.5, 3.25, 0.5], 6, false⟩, rfl, npSort_sorted _, ?_, by norm_num⟩
  rw [(npSort_perm _).length_eq]
  decide

/-! ### The Jacobian -/

theorem signed_set (c : ℝ) : ∀ (edges : List ℝ) (j : Nat) (t e : ℝ), edges[j]? = some e →
    signed c (edges.set j t) = signed c edges + (if j % 2 = 0 then -1 else 1) * (ramp c t - ramp c e) := by
  intro edges
  induction edges with
  | nil => intro j t e h; simp at h
  | cons a l ih =>
    intro j t e h
    cases j with
    | zero =>
      obtain rfl : a = e := by simpa using h
      simp only [List.set_cons_zero, signed, Nat.zero_mod, if_true]
      ring
    | succ j =>
      simp only [List.set_cons_succ, signed]
      rw [ih j t e (by simpa using h)]
      rcases Nat.mod_two_eq_zero_or_one j with h0 | h0
      · rw [if_pos h0, if_neg (by omega : ¬ (j + 1) % 2 = 0)]
        ring
      · rw [if_neg (by omega : ¬ j % 2 = 0), if_pos (by omega : (j + 1) % 2 = 0)]
        ring

/-- The derivative of `ramp` to the right. -/
theorem ramp_deriv (c x : ℝ) : HasDerivWithinAt (ramp c) (if c ≤ x ∧ x < c + 1 then 1 else 0) (Set.Ici x) x := by
  have hn : ∀ y, x < y → ∀ᶠ z in nhdsWithin x (Set.Ici x), x ≤ z ∧ z < y := by
    intro y hy
    filter_upwards [self_mem_nhdsWithin, mem_nhdsWithin_of_mem_nhds (Iio_mem_nhds hy)] with z h1 h2
    exact ⟨h1, h2⟩
  split
  · rename_i h
    have hd : HasDerivWithinAt (fun z : ℝ => z - c) 1 (Set.Ici x) x := ((hasDerivAt_id' x).sub_const c).hasDerivWithinAt
    refine hd.congr_of_eventuallyEq ?_ ?_
    · filter_upwards [hn (c + 1) h.2] with z hz
      simp only [ramp]
      rw [max_eq_left (by linarith [hz.1, h.1]), min_eq_left (by linarith [hz.2])]
    · simp only [ramp]
      rw [max_eq_left h.1, min_eq_left h.2.le]
  · rename_i h
    by_cases h1 : c ≤ x
    · have h2 : c + 1 ≤ x := not_lt.1 fun h2 => h ⟨h1, h2⟩
      have hd : HasDerivWithinAt (fun _ : ℝ => (1 : ℝ)) 0 (Set.Ici x) x := hasDerivWithinAt_const x _ _
      refine hd.congr_of_eventuallyEq ?_ ?_
      · filter_upwards [self_mem_nhdsWithin] with z hz
        simp only [ramp]
        have hz' : x ≤ z := hz
        rw [max_eq_left (by linarith), min_eq_right (by linarith)]
        ring
      · simp only [ramp]
        rw [max_eq_left h1, min_eq_right h2]
        ring
    · have hd : HasDerivWithinAt (fun _ : ℝ => (0 : ℝ)) 0 (Set.Ici x) x := hasDerivWithinAt_const x _ _
      refine hd.congr_of_eventuallyEq ?_ ?_
      · filter_upwards [hn c (not_le.1 h1)] with z hz
        simp only [ramp]
        rw [max_eq_right hz.2.le, min_eq_left (by linarith)]
        ring
      · simp only [ramp]
        rw [max_eq_right (not_le.1 h1).le, min_eq_left (by linarith)]
        ring

/-- What one edge adds to pixel `i` of the product. -/
noncomputable def contrib (p : GratingParam) (i : Nat) (x : (ℝ × ℝ) × Nat) : ℝ :=
  (if (i : ℝ) ≤ x.1.1 ∧ x.1.1 < i + 1 then 1 else 0) *
    ((if x.2 % 2 = 0 then -1 else 1) * (if p.inverted then -1 else 1)) * x.1.2

theorem jacStep_spec (p : GratingParam) (acc : List ℝ) (x : (ℝ × ℝ) × Nat) (i : Nat) (hi : i < p.numPixels)
    (ha : acc.length = p.numPixels) : (jacStep p acc x).length = p.numPixels ∧
    (jacStep p acc x).getD i 0 = acc.getD i 0 + contrib p i x := by
  unfold jacStep contrib
  simp only
  have hi' : (i : ℝ) + 1 ≤ p.numPixels := by exact_mod_cast hi
  by_cases h : 0 ≤ x.1.1 ∧ x.1.1 < p.numPixels
  · rw [if_pos h]
    refine ⟨by simp [ha], ?_⟩
    rw [List.getD_eq_getElem?_getD, List.getD_eq_getElem?_getD, List.getElem?_mapIdx,
      List.getElem?_eq_getElem (by omega : i < acc.length)]
    simp only [Option.map_some, Option.getD_some]
    by_cases hk : (i : Int) = ⌊x.1.1⌋
    · have hk' : (i : ℝ) ≤ x.1.1 ∧ x.1.1 < i + 1 := by
        have := Int.floor_eq_iff.1 hk.symm
        exact_mod_cast this
      rw [if_pos hk]
      simp only [hk', and_self, if_true]
      split <;> split <;> ring
    · have hk' : ¬ ((i : ℝ) ≤ x.1.1 ∧ x.1.1 < i + 1) := fun hc =>
        hk (Int.floor_eq_iff.2 (by exact_mod_cast hc)).symm
      rw [if_neg hk]
      simp only [hk', if_false]
      ring
  · have hk' : ¬ ((i : ℝ) ≤ x.1.1 ∧ x.1.1 < i + 1) := fun hc =>
      h ⟨le_trans (Nat.cast_nonneg i) hc.1, lt_of_lt_of_le hc.2 hi'⟩
    rw [if_neg h]
    simp only [hk', if_false]
    exact ⟨ha, by ring⟩

theorem jacFold_spec (p : GratingParam) (i : Nat) (hi : i < p.numPixels) : ∀ (l : List ((ℝ × ℝ) × Nat)) (acc : List ℝ),
    acc.length = p.numPixels → (l.foldl (jacStep p) acc).getD i 0 = acc.getD i 0 + (l.map (contrib p i)).sum := by
  intro l
  induction l with
  | nil => intro acc _; simp
  | cons x l ih =>
    intro acc ha
    obtain ⟨h1, h2⟩ := jacStep_spec p acc x i hi ha
    rw [List.foldl_cons, ih _ h1, h2, List.map_cons, List.sum_cons]
    ring

theorem contrib_zero (p : GratingParam) (i : Nat) : ∀ (edges : List ℝ) (k : Nat),
    (((edges.zip (List.replicate edges.length 0)).zipIdx k).map (contrib p i)).sum = 0 := by
  intro edges
  induction edges with
  | nil => intro k; simp
  | cons a l ih =>
    intro k
    simp only [List.length_cons, List.replicate_succ, List.zip_cons_cons, List.zipIdx_cons, List.map_cons, List.sum_cons]
    rw [ih]
    simp [contrib]

theorem contrib_unit (p : GratingParam) (i : Nat) : ∀ (edges : List ℝ) (k j : Nat) (e : ℝ), edges[j]? = some e →
    (((edges.zip ((List.replicate edges.length 0).set j 1)).zipIdx k).map (contrib p i)).sum = contrib p i ((e, 1), k + j) := by
  intro edges
  induction edges with
  | nil => intro k j e h; simp at h
  | cons a l ih =>
    intro k j e h
    cases j with
    | zero =>
      obtain rfl : a = e := by simpa using h
      simp only [List.length_cons, List.replicate_succ, List.set_cons_zero, List.zip_cons_cons, List.zipIdx_cons, List.map_cons,
        List.sum_cons]
      rw [contrib_zero]
      simp
    | succ j =>
      simp only [List.length_cons, List.replicate_succ, List.set_cons_succ, List.zip_cons_cons, List.zipIdx_cons, List.map_cons,
        List.sum_cons]
      rw [ih (k + 1) j e (by simpa using h), show k + 1 + j = k + (j + 1) by omega]
      simp [contrib]

theorem jacobian_eq (p : GratingParam) (i j : Nat) (e : ℝ) (hi : i < p.numPixels) (he : p.edges[j]? = some e) :
    p.jacobian i j = (if (i : ℝ) ≤ e ∧ e < i + 1 then 1 else 0) *
      ((if j % 2 = 0 then -1 else 1) * (if p.inverted then -1 else 1)) := by
  unfold GratingParam.jacobian GratingParam.jacVec
  rw [jacFold_spec p i hi _ _ (by simp), contrib_unit p i p.edges 0 j e he]
  simp [contrib, hi]

theorem set_sorted : ∀ (l : List ℝ) (j : Nat) (e : ℝ), l.Pairwise (· < ·) → l[j]? = some e →
    ∃ u, e < u ∧ ∀ t, e ≤ t → t < u → (l.set j t).Pairwise (· ≤ ·) := by
  intro l
  induction l with
  | nil => intro j e _ h; simp at h
  | cons a l ih =>
    intro j e hs h
    obtain ⟨s1, s2⟩ := List.pairwise_cons.1 hs
    cases j with
    | zero =>
      obtain rfl : a = e := by simpa using h
      cases l with
      | nil => exact ⟨a + 1, by linarith, fun t _ _ => by simp⟩
      | cons b l =>
        refine ⟨b, s1 b (by simp), fun t h1 h2 => ?_⟩
        rw [List.set_cons_zero, List.pairwise_cons]
        refine ⟨?_, s2.imp le_of_lt⟩
        intro x hx
        rcases List.mem_cons.1 hx with rfl | hx
        · exact h2.le
        · exact (h2.trans ((List.pairwise_cons.1 s2).1 x hx)).le
    | succ j =>
      have hj : l[j]? = some e := by simpa using h
      obtain ⟨u, h1, h2⟩ := ih j e s2 hj
      refine ⟨u, h1, fun t h3 h4 => ?_⟩
      rw [List.set_cons_succ, List.pairwise_cons]
      refine ⟨?_, h2 t h3 h4⟩
      intro x hx
      rcases List.mem_or_eq_of_mem_set hx with hx | rfl
      · exact (s1 x hx).le
      · exact (s1 e (List.mem_of_getElem? hj)).le.trans h3

/-- **C47** (the edges of a grating). For distinct edges, the entry of the Jacobian for a pixel and an edge is the derivative of
the pixel as the edge moves to the right (the two sided derivative exists only for edges inside pixels). -/
theorem grating_jacobian (p : GratingParam) (i j : Nat) (e : ℝ) (hi : i < p.numPixels) (hp : p.edges.Pairwise (· < ·))
    (hev : Even p.edges.length) (he : p.edges[j]? = some e) :
    HasDerivWithinAt (fun t => (((p.decode (p.encode.set j t)).getStructure).getD []).getD i 0) (p.jacobian i j) (Set.Ici e) e := by
  have hval : ∀ t, (p.edges.set j t).Pairwise (· ≤ ·) →
      (((p.decode (p.encode.set j t)).getStructure).getD []).getD i 0 =
        (if p.inverted then 1 - signed i p.edges else signed i p.edges) +
        ((if j % 2 = 0 then -1 else 1) * (if p.inverted then -1 else 1)) * (ramp i t - ramp i e) := by
    intro t ht
    have h0 : p.decode (p.encode.set j t) = { p with edges := p.edges.set j t } := by
      simp only [GratingParam.decode, GratingParam.encode]
      rw [npSort_of_sorted _ ht]
    rw [h0]
    obtain ⟨l, h1, _, h3⟩ := structure_signed { p with edges := p.edges.set j t } (by show 1 ≤ p.numPixels; omega)
      (by simpa using hev) ht
    rw [h1, Option.getD_some, List.getD_eq_getElem?_getD, h3 i hi, Option.getD_some]
    simp only [signed_set i p.edges j t e he]
    split <;> split <;> ring
  rw [jacobian_eq p i j e hi he]
  obtain ⟨u, hu, hsort⟩ := set_sorted p.edges j e hp he
  have hd := ((ramp_deriv (i : ℝ) e).sub_const (ramp i e)).const_mul
    ((if j % 2 = 0 then -1 else 1) * (if p.inverted then -1 else 1) : ℝ)
  have hd2 := hd.const_add (if p.inverted then 1 - signed i p.edges else signed i p.edges)
  rw [mul_comm]
  refine hd2.congr_of_eventuallyEq ?_ ?_
  · filter_upwards [self_mem_nhdsWithin, mem_nhdsWithin_of_mem_nhds (Iio_mem_nhds hu)] with t h1 h2
    exact hval t (hsort t h1 h2)
  · exact hval e (hsort e le_rfl hu)

/-- A grating that meets the hypotheses. -/
example : ∃ p : GratingParam, p.edges.Pairwise (· < ·) ∧ Even p.edges.length ∧ p.edges[1]? = some (5 / 2) ∧ 2 < p.numPixels :=
  ⟨⟨[1 / 2, 5 / 2, 3, 4], 6, true⟩, by norm_num, by decide, rfl, by norm_num⟩

/-- Edges that coincide: the derivative has the sign of the other edge, because the edges are sorted again. -/
theorem grating_jacobian_equal_false : ¬ ∀ (p : GratingParam) (i j : Nat) (e : ℝ), i < p.numPixels →
    p.edges.Pairwise (· ≤ ·) → Even p.edges.length → p.edges[j]? = some e →
    HasDerivWithinAt (fun t => (((p.decode (p.encode.set j t)).getStructure).getD []).getD i 0) (p.jacobian i j)
      (Set.Ici e) e := by
  intro H
  have h := H ⟨[1 / 2, 1 / 2], 1, false⟩ 0 0 (1 / 2) (by norm_num) (by norm_num) (by decide) rfl
  rw [jacobian_eq _ 0 0 (1 / 2) (by norm_num) rfl] at h
  have hd : HasDerivWithinAt (fun t : ℝ => ramp 0 t - ramp 0 (1 / 2)) 1 (Set.Ici (1 / 2)) (1 / 2) := by
    have := (ramp_deriv 0 (1 / 2)).sub_const (ramp 0 (1 / 2))
    rwa [if_pos (by norm_num)] at this
  have hval : ∀ t : ℝ, 1 / 2 ≤ t →
      (((GratingParam.decode ⟨[1 / 2, 1 / 2], 1, false⟩ ((GratingParam.encode ⟨[1 / 2, 1 / 2], 1, false⟩).set 0 t)).getStructure).getD
        []).getD 0 0 = ramp 0 t - ramp 0 (1 / 2) := by
    intro t ht
    have hs : npSort [t, 1 / 2] = [1 / 2, t] := by
      apply List.Perm.eq_of_pairwise (le := (· ≤ ·)) (fun a b _ _ => le_antisymm) (npSort_sorted _)
      · simpa using ht
      · exact (npSort_perm _).trans (List.Perm.swap _ _ _)
    simp only [GratingParam.decode, GratingParam.encode, List.set_cons_zero]
    rw [hs]
    obtain ⟨l, h1, _, h3⟩ := structure_signed ⟨[1 / 2, t], 1, false⟩ (by norm_num) (by simp) (by simpa using ht)
    rw [h1, Option.getD_some, List.getD_eq_getElem?_getD, h3 0 (by norm_num)]
    simp only [Option.getD_some, signed, Bool.false_eq_true, if_false, Nat.cast_zero]
    ring
  have h2 := hd.congr (f₁ := fun t => (((GratingParam.decode ⟨[1 / 2, 1 / 2], 1, false⟩
    ((GratingParam.encode ⟨[1 / 2, 1 / 2], 1, false⟩).set 0 t)).getStructure).getD []).getD 0 0) (fun t ht => hval t ht)
    (hval _ le_rfl)
  have := (uniqueDiffOn_Ici (1 / 2 : ℝ) (1 / 2) (by simp)).eq_deriv _ h h2
  norm_num at this

end Verif.Grating
