import Verif.Grating.EdgeConstraint
import Verif.Grating.GeneralProps
/-
C69: the bounds that the discretisation sets. C70: the constraint on edge locations. C71: the bars of a barcode grating.
-/
set_option linter.unusedSectionVars false
set_option linter.unusedVariables false
namespace Verif.Grating.General

section Generic
variable {K : Type} [Field K] [LinearOrder K] [IsStrictOrderedRing K]

theorem gapVals_spec (minF : List K) : ∀ (v : List K) (index : List Nat), v ≠ [] → index.length = v.length →
    (∀ l ∈ index, l < minF.length) → ∃ g, gapVals minF v index = some g ∧ g.length = v.length - 1 ∧
      ((∀ a ∈ g, a ≤ 0) ↔ (v.zip index).IsChain fun e f => minF.getD e.2 0 ≤ f.1 - e.1) ∧
      ∀ i, i + 1 < v.length → g.getD i 0 = minF.getD (index.getD i 0) 0 - (v.getD (i + 1) 0 - v.getD i 0) := by
  intro v
  induction v with
  | nil => intro _ h; exact absurd rfl h
  | cons a v ih =>
    intro index _ hlen hin
    match index, hlen with
    | l :: ls, hlen =>
      match v, hlen, ih with
      | [], hlen, _ =>
        refine ⟨[], by simp [gapVals], by simp, ?_, ?_⟩
        · have : ls = [] := by simpa using hlen
          subst this
          simp
        · intro i hi
          simp at hi
      | b :: v, hlen, ih =>
        have hl : l < minF.length := hin l (by simp)
        obtain ⟨g, g1, g2, g3, g4⟩ := ih ls (by simp) (by simpa using hlen) (fun x hx => hin x (by simp [hx]))
        refine ⟨(minF.getD l 0 - (b - a)) :: g, ?_, ?_, ?_, ?_⟩
        · unfold gapVals
          rw [List.getElem?_eq_getElem hl, g1]
          simp [List.getD_eq_getElem?_getD, List.getElem?_eq_getElem hl]
        · simp only [List.length_cons, g2]
          omega
        · obtain ⟨m, ms, rfl⟩ : ∃ m ms, ls = m :: ms := by
            cases ls with
            | nil => simp at hlen
            | cons m ms => exact ⟨m, ms, rfl⟩
          simp only [List.mem_cons, forall_eq_or_imp, List.zip_cons_cons, List.isChain_cons_cons]
          rw [g3]
          simp only [List.zip_cons_cons]
          constructor
          · rintro ⟨h1, h2⟩
            exact ⟨by linarith, h2⟩
          · rintro ⟨h1, h2⟩
            exact ⟨by linarith, h2⟩
        · intro i hi
          cases i with
          | zero => simp
          | succ i =>
            have := g4 i (by simpa using hi)
            simpa using this

/-- **C70**. The constraint is satisfied (no entry is positive) exactly if the edges are on the grating and every segment between two
edges is at least the minimum feature of its level wide. -/
theorem constraint_feasible (minF : List K) (len : K) (v : List K) (index : List Nat) (hv : v ≠ []) (hlen : index.length = v.length)
    (hin : ∀ l ∈ index, l < minF.length) : ∃ c, constraintEval minF len v index = some c ∧ ((∀ a ∈ c, a ≤ 0) ↔
      (0 ≤ v.head hv ∧ v.getLast hv ≤ len ∧ (v.zip index).IsChain fun e f => minF.getD e.2 0 ≤ f.1 - e.1)) := by
  obtain ⟨g, g1, g2, g3, g4⟩ := gapVals_spec minF v index hv hlen hin
  refine ⟨g ++ [-(v.head hv), v.getLast hv - len], ?_, ?_⟩
  · unfold constraintEval
    rw [g1, List.head?_eq_some_head hv, List.getLast?_eq_some_getLast hv]
    rfl
  · rw [← g3]
    simp only [List.mem_append, List.mem_cons, List.not_mem_nil, or_false]
    constructor
    · intro h
      refine ⟨?_, ?_, fun a ha => h a (Or.inl ha)⟩
      · have := h (-(v.head hv)) (by simp)
        linarith
      · have := h (v.getLast hv - len) (by simp)
        linarith
    · rintro ⟨h1, h2, h3⟩ a (ha | rfl | rfl)
      · exact h3 a ha
      · linarith
      · linarith

theorem sum_diffRow (n i : Nat) (hi : i + 1 < n) (d : Nat → K) :
    ∑ j ∈ Finset.range n, (diffRow (K := K) n i).getD j 0 * d j = d i - d (i + 1) := by
  have h : ∀ j ∈ Finset.range n, (diffRow (K := K) n i).getD j 0 * d j =
      (if j = i then d j else 0) - (if j = i + 1 then d j else 0) := by
    intro j hj
    have hj' := Finset.mem_range.1 hj
    simp only [diffRow, List.getD_eq_getElem?_getD, List.getElem?_map, List.getElem?_range hj', Option.map_some, Option.getD_some]
    by_cases h1 : j = i
    · subst h1
      simp
    · by_cases h2 : j = i + 1
      · subst h2
        simp
      · simp [h1, h2]
  rw [Finset.sum_congr rfl h, Finset.sum_sub_distrib, Finset.sum_ite_eq', Finset.sum_ite_eq', if_pos (by simp; omega),
    if_pos (by simpa using hi)]

theorem sum_unitRow (n i : Nat) (hi : i < n) (d : Nat → K) :
    ∑ j ∈ Finset.range n, (unitRow (K := K) n i).getD j 0 * d j = d i := by
  have h : ∀ j ∈ Finset.range n, (unitRow (K := K) n i).getD j 0 * d j = if j = i then d j else 0 := by
    intro j hj
    have hj' := Finset.mem_range.1 hj
    simp only [unitRow, List.getD_eq_getElem?_getD, List.getElem?_map, List.getElem?_range hj', Option.map_some, Option.getD_some]
    by_cases h1 : j = i <;> simp [h1]
  rw [Finset.sum_congr rfl h, Finset.sum_ite_eq', if_pos (by simpa using hi)]

/-- **C70**. The matrix of the gradient is the derivative of the constraint (the constraint is affine) in all rows but the one of the
first edge, where it has the wrong sign. -/
theorem constraint_jac_partial (minF : List K) (len : K) (v w : List K) (index : List Nat) (hv : 2 ≤ v.length)
    (hw : w.length = v.length) (hlen : index.length = v.length) (hin : ∀ l ∈ index, l < minF.length) :
    ∃ c c' m, constraintEval minF len v index = some c ∧ constraintEval minF len w index = some c' ∧
      diffMat (K := K) v.length = some m ∧ m.length = c.length ∧
      (∀ i, i < c.length → i ≠ v.length - 1 → c'.getD i 0 - c.getD i 0 =
        ∑ j ∈ Finset.range v.length, (m.getD i []).getD j 0 * (w.getD j 0 - v.getD j 0)) ∧
      c'.getD (v.length - 1) 0 - c.getD (v.length - 1) 0 =
        - ∑ j ∈ Finset.range v.length, (m.getD (v.length - 1) []).getD j 0 * (w.getD j 0 - v.getD j 0) := by
  have hv0 : v ≠ [] := by rintro rfl; simp at hv
  have hw0 : w ≠ [] := by rintro rfl; simp at hw; omega
  obtain ⟨g, g1, g2, g3, g4⟩ := gapVals_spec minF v index hv0 hlen hin
  obtain ⟨g', g1', g2', g3', g4'⟩ := gapVals_spec minF w index hw0 (by omega) hin
  have e : constraintEval minF len v index = some (g ++ [-(v.head hv0), v.getLast hv0 - len]) := by
    unfold constraintEval
    rw [g1, List.head?_eq_some_head hv0, List.getLast?_eq_some_getLast hv0]
    rfl
  have e' : constraintEval minF len w index = some (g' ++ [-(w.head hw0), w.getLast hw0 - len]) := by
    unfold constraintEval
    rw [g1', List.head?_eq_some_head hw0, List.getLast?_eq_some_getLast hw0]
    rfl
  have hm : diffMat (K := K) v.length = some (((List.range (v.length - 1)).map fun i => diffRow v.length i) ++
      [unitRow v.length 0, unitRow v.length (v.length - 1)]) := by
    unfold diffMat
    rw [if_neg (by omega)]
  have hhead : ∀ (l : List K) (h : l ≠ []), l.head h = l.getD 0 0 := by
    intro l h
    cases l with
    | nil => exact absurd rfl h
    | cons a l => rfl
  have hlast : ∀ (l : List K) (h : l ≠ []), l.getLast h = l.getD (l.length - 1) 0 := by
    intro l h
    have hl : l.length - 1 < l.length := by have := List.length_pos_iff.2 h; omega
    rw [List.getLast_eq_getElem, List.getD_eq_getElem?_getD, List.getElem?_eq_getElem hl]
    rfl
  refine ⟨_, _, _, e, e', hm, by simp [g2], ?_, ?_⟩
  · intro i hi hne
    simp only [List.length_append, List.length_cons, List.length_nil, g2] at hi
    by_cases h1 : i < v.length - 1
    · rw [List.getD_append _ _ _ _ (by omega), List.getD_append _ _ _ _ (by omega), List.getD_append _ _ _ _ (by simpa using h1)]
      have hrow : ((List.range (v.length - 1)).map fun i => diffRow (K := K) v.length i).getD i [] = diffRow v.length i := by
        simp [List.getD_eq_getElem?_getD, h1]
      rw [hrow, sum_diffRow _ _ (by omega) fun j => w.getD j 0 - v.getD j 0, g4 i (by omega), g4' i (by omega)]
      ring
    · have h2 : i = v.length := by omega
      subst h2
      rw [List.getD_append_right _ _ _ _ (by omega), List.getD_append_right _ _ _ _ (by omega),
        List.getD_append_right _ _ _ _ (by simp)]
      have i1 : v.length - g.length = 1 := by omega
      have i2 : v.length - g'.length = 1 := by omega
      have i3 : v.length - ((List.range (v.length - 1)).map fun i => diffRow (K := K) v.length i).length = 1 := by simp; omega
      rw [i1, i2, i3]
      change w.getLast hw0 - len - (v.getLast hv0 - len) = ∑ j ∈ Finset.range v.length,
        (unitRow (K := K) v.length (v.length - 1)).getD j 0 * (w.getD j 0 - v.getD j 0)
      rw [sum_unitRow _ _ (by omega) fun j => w.getD j 0 - v.getD j 0, hlast w hw0, hlast v hv0, hw]
      ring
  · rw [List.getD_append_right _ _ _ _ (by omega), List.getD_append_right _ _ _ _ (by omega),
      List.getD_append_right _ _ _ _ (by simp)]
    have i1 : v.length - 1 - g.length = 0 := by omega
    have i2 : v.length - 1 - g'.length = 0 := by omega
    have i3 : v.length - 1 - ((List.range (v.length - 1)).map fun i => diffRow (K := K) v.length i).length = 0 := by simp
    rw [i1, i2, i3]
    change -(w.head hw0) - (-(v.head hv0)) = - ∑ j ∈ Finset.range v.length,
      (unitRow (K := K) v.length 0).getD j 0 * (w.getD j 0 - v.getD j 0)
    rw [sum_unitRow _ _ (by omega) fun j => w.getD j 0 - v.getD j 0, hhead w hw0, hhead v hv0]
    ring

/-- A case that meets the hypotheses. -/
example : ([0, 1, 0] : List Nat).length = ([1 / 2, 2, 7 / 2] : List ℚ).length ∧ (∀ l ∈ ([0, 1, 0] : List Nat), l < ([1, 3 / 2] : List ℚ).length) ∧
    constraintEval ([1, 3 / 2] : List ℚ) 5 [1 / 2, 2, 7 / 2] [0, 1, 0] = some [-1 / 2, 0, -1 / 2, -3 / 2] := by
  refine ⟨rfl, by decide, by decide +kernel⟩

/-- **C70** (violated). The gradient of the constraint can not be computed: the product raises for every value of the constraint's
gradient, which has one entry per constraint. -/
theorem constraint_grad_raises (v g c minF : List K) (len : K) (index : List Nat) (hc : constraintEval minF len v index = some c)
    (hlen : index.length = v.length) (hin : ∀ l ∈ index, l < minF.length) (hg : g.length = c.length) :
    constraintGrad v g = none := by
  have hv0 : v ≠ [] := by
    rintro rfl
    have : index = [] := by simpa using hlen
    subst this
    simp [constraintEval, gapVals] at hc
  obtain ⟨g', g1, g2, -⟩ := gapVals_spec minF v index hv0 hlen hin
  have hcl : c.length = v.length + 1 := by
    unfold constraintEval at hc
    rw [g1, List.head?_eq_some_head hv0, List.getLast?_eq_some_getLast hv0] at hc
    have : c = g' ++ [-(v.head hv0), v.getLast hv0 - len] := by
      simpa using hc.symm
    rw [this]
    have := List.length_pos_iff.2 hv0
    simp [g2]
    omega
  unfold constraintGrad starMat
  cases diffMat (K := K) v.length with
  | none => rfl
  | some m =>
    simp only [Option.bind_some]
    rw [if_neg (by omega)]

theorem bars_spec (pos extent etch : K) : ∀ (v hs : List K), v.length - 1 ≤ hs.length →
    (bars pos extent etch v hs).length = v.length - 1 ∧ ∀ i b, (bars pos extent etch v hs)[i]? = some b →
      b.pos - b.width / 2 = pos - extent / 2 + v.getD i 0 ∧ b.pos + b.width / 2 = pos - extent / 2 + v.getD (i + 1) 0 ∧
      b.height = etch * hs.getD i 0 := by
  intro v
  induction v with
  | nil => intro hs _; simp [bars]
  | cons a v ih =>
    intro hs hl
    cases v with
    | nil => simp [bars]
    | cons c v =>
      cases hs with
      | nil => simp at hl
      | cons h hs =>
        obtain ⟨h1, h2⟩ := ih hs (by simpa using hl)
        unfold bars
        refine ⟨by simp [h1], ?_⟩
        intro i b hb
        cases i with
        | zero =>
          simp only [List.getElem?_cons_zero, Option.some.injEq] at hb
          subst hb
          refine ⟨?_, ?_, by simp⟩
          · simp only [List.getD_cons_zero]
            ring
          · simp only [List.getD_cons_zero, List.getD_cons_succ, zero_add]
            ring
        | succ i =>
          have := h2 i b (by simpa using hb)
          simpa using this

/-- **C71**. A barcode grating has one bar between every two consecutive edges: it spans exactly from one to the other (edges are in
units of the extent, from the lower end), and its height is the given fraction of the extent, or the single one given. -/
theorem barcode_bars (pos extent etch : K) (edges heights : List K) (hh : heights.length = 1 ∨ edges.length ≤ heights.length + 1) :
    (barcode pos extent etch edges heights).length = edges.length - 1 ∧
    ∀ i b, (barcode pos extent etch edges heights)[i]? = some b →
      b.pos - b.width / 2 = pos - extent / 2 + edges.getD i 0 * extent ∧
      b.pos + b.width / 2 = pos - extent / 2 + edges.getD (i + 1) 0 * extent ∧
      b.height = etch * (if heights.length = 1 then heights.getD 0 0 else heights.getD i 0) := by
  have hmap : ∀ i, (edges.map (· * extent)).getD i 0 = edges.getD i 0 * extent := by
    intro i
    have := List.getD_map (d := (0 : K)) (l := edges) (n := i) (· * extent)
    rw [zero_mul] at this
    exact this
  by_cases h1 : heights.length = 1
  · obtain ⟨h, rfl⟩ := List.length_eq_one_iff.1 h1
    obtain ⟨b1, b2⟩ := bars_spec pos extent etch (edges.map (· * extent)) (List.replicate edges.length h) (by simp)
    have hb : barcode pos extent etch edges [h] = bars pos extent etch (edges.map (· * extent)) (List.replicate edges.length h) := rfl
    rw [hb]
    refine ⟨by rw [b1]; simp, ?_⟩
    intro i b hib
    obtain ⟨c1, c2, c3⟩ := b2 i b hib
    have hi : i < edges.length := by
      have := (List.getElem?_eq_some_iff.1 hib).1
      rw [b1] at this
      simp at this
      omega
    refine ⟨by rw [c1, hmap], by rw [c2, hmap], ?_⟩
    rw [c3]
    simp [hi]
  · have hl : edges.length ≤ heights.length + 1 := by
      rcases hh with h | h
      · exact absurd h h1
      · exact h
    obtain ⟨b1, b2⟩ := bars_spec pos extent etch (edges.map (· * extent)) heights (by simp; omega)
    have hb : barcode pos extent etch edges heights = bars pos extent etch (edges.map (· * extent)) heights := by
      unfold barcode
      match heights, h1 with
      | [], _ => rfl
      | _ :: _ :: _, _ => rfl
    rw [hb]
    refine ⟨by rw [b1]; simp, ?_⟩
    intro i b hib
    obtain ⟨c1, c2, c3⟩ := b2 i b hib
    refine ⟨by rw [c1, hmap], by rw [c2, hmap], ?_⟩
    rw [c3, if_neg h1]

/-- A case that meets the hypotheses. -/
example : barcode (0 : ℚ) 10 2 [1 / 10, 2 / 10, 1 / 2] [1] = [⟨-7 / 2, 1, 2⟩, ⟨-3 / 2, 3, 2⟩] := by
  norm_num [barcode, bars, List.replicate]

/-- **C71** (violated). With fewer heights (but not one) than bars, bars are left out without an error. -/
theorem barcode_short_false : ¬ ∀ (pos extent etch : ℚ) (edges heights : List ℚ), heights ≠ [] →
    (barcode pos extent etch edges heights).length = edges.length - 1 := by
  intro H
  have := H 0 1 1 [0, 1 / 4, 1 / 2, 1] [1, 0] (by simp)
  revert this
  decide +kernel

variable [FloorSemiring K]

theorem widthsFrom_getD : ∀ (l : List K) (a : K) (i : Nat), i < l.length →
    (widthsFrom a l).getD i 0 = l.getD i 0 - (a :: l).getD i 0 := by
  intro l
  induction l with
  | nil => intro a i hi; simp at hi
  | cons b l ih =>
    intro a i hi
    cases i with
    | zero => simp [widthsFrom]
    | succ i =>
      have := ih b i (by simpa using hi)
      simpa [widthsFrom] using this

theorem widthsFrom_length : ∀ (l : List K) (a : K), (widthsFrom a l).length = l.length := by
  intro l
  induction l with
  | nil => intro a; rfl
  | cons b l ih => intro a; simp [widthsFrom, ih]

/-- **C69**. The widths that `GratingL2D` stores add up to the edges: the sum of the first `i + 1` widths is the position of edge `i`,
and with edge locations the edges are stored. -/
theorem l2d_widths (target depths : List K) (pixel : K) (minF : List K) (maxF : Option (List K)) (start stop q : Nat)
    (d d' : Discrete K) (h : gratingL2D target depths pixel minF maxF start stop q false = some d)
    (h' : gratingL2D target depths pixel minF maxF start stop q true = some d') :
    d.levels = d'.levels ∧ d.value.length = d.levels.length ∧ d'.value.length = d.levels.length ∧
      ∀ i, i < d.value.length → d.value.getD i 0 = d'.value.getD i 0 - (0 :: d'.value).getD i 0 := by
  unfold gratingL2D at h h'
  split at h
  · cases h
  · rename_i hc
    rw [if_neg hc] at h'
    obtain ⟨r, r1, rfl⟩ := Option.map_eq_some_iff.1 h
    rw [r1] at h'
    simp only [Option.map_some, Option.some.injEq] at h'
    subst h'
    refine ⟨by simp, by simp [widthsFrom_length], by simp, ?_⟩
    intro i hi
    have hi' : i < (r.map fun e => e.1 * pixel).length := by
      simpa [widthsFrom_length] using hi
    have := widthsFrom_getD (r.map fun e => e.1 * pixel) 0 i hi'
    simpa using this

end Generic

/-- **C69** (violated). The bound on a width is the feature of the level on the right of its edge, not of the segment: the widths that
are stored do not respect the bounds that are stored with them, even if all levels have the same feature (the first segment may be
narrower). -/
theorem l2d_bounds_false : ¬ ∀ (target depths minF : List ℚ) (pixel : ℚ) (start stop q : Nat) (d : Discrete ℚ), 1 ≤ q → target ≠ [] →
    start < depths.length → stop < depths.length → 0 < pixel → (∀ a, a < depths.length → pixel ≤ minF.getD a 0) →
    (∀ a b, a < depths.length → b < depths.length → minF.getD a 0 = minF.getD b 0) →
    gratingL2D target depths pixel minF none start stop q false = some d →
    ∀ (i : Nat) (w l : ℚ), d.value[i]? = some w → d.lower[i]? = some (some l) → l ≤ w := by
  intro H
  have e : (gratingL2D ([1, 0] : List ℚ) [0, 1] 1 [1, 1] none 0 0 1 false).map (fun d => (d.value[0]?, d.lower[0]?)) =
      some (some 0, some (some 1)) := by decide +kernel
  obtain ⟨d, h1, h2⟩ := Option.map_eq_some_iff.1 e
  have := H [1, 0] [0, 1] [1, 1] 1 0 0 1 d le_rfl (by simp) (by simp) (by simp) (by norm_num) (by
    intro a ha
    match a, ha with
    | 0, _ => norm_num
    | 1, _ => norm_num) (by
    intro a b ha hb
    match a, b, ha, hb with
    | 0, 0, _, _ => norm_num
    | 0, 1, _, _ => norm_num
    | 1, 0, _, _ => norm_num
    | 1, 1, _, _ => norm_num) h1 0 0 1 (by simpa using congrArg Prod.fst h2) (by simpa using congrArg Prod.snd h2)
  norm_num at this

/-- **C69** (violated). Widths within the bounds need not respect the minimum features: the segment after edge `i` has the level
`levels[i]`, but its width `i + 1` is bounded by the feature of `levels[i + 1]`. -/
theorem l2d_feature_false : ¬ ∀ (target depths minF : List ℚ) (pixel : ℚ) (start stop q : Nat) (d : Discrete ℚ), 1 ≤ q → target ≠ [] →
    start < depths.length → stop < depths.length → 0 < pixel → (∀ a, a < depths.length → pixel ≤ minF.getD a 0) →
    gratingL2D target depths pixel minF none start stop q false = some d →
    ∀ widths : List ℚ, widths.length = d.value.length →
      (∀ (i : Nat) (w l : ℚ), widths[i]? = some w → d.lower[i]? = some (some l) → l ≤ w) →
      ∀ (i level : Nat) (w : ℚ), d.levels[i]? = some level → widths[i + 1]? = some w → minF.getD level 0 ≤ w := by
  intro H
  have e : (gratingL2D ([0, 1, 1, 1] : List ℚ) [0, 1] 1 [1, 3] none 0 0 1 false).map
      (fun d => (d.value, d.lower, d.levels)) = some ([1, 3], [some 3, some 1], [1, 0]) := by decide +kernel
  obtain ⟨d, h1, h2⟩ := Option.map_eq_some_iff.1 e
  simp only [Prod.mk.injEq] at h2
  obtain ⟨h2, h3, h4⟩ := h2
  have := H [0, 1, 1, 1] [0, 1] [1, 3] 1 0 0 1 d le_rfl (by simp) (by simp) (by simp) (by norm_num) (by
    intro a ha
    match a, ha with
    | 0, _ => norm_num
    | 1, _ => norm_num) h1 [3, 1] (by simp [h2]) (by
    intro i w l hw hl
    rw [h3] at hl
    match i with
    | 0 => simp at hw hl; linarith
    | 1 => simp at hw hl; linarith
    | i + 2 => simp at hw) 0 1 1 (by simp [h4]) (by simp)
  norm_num at this

end Verif.Grating.General
