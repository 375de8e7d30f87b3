import Verif.Grating.EtchConstraint
import Mathlib.Algebra.Order.Field.Rat
import Mathlib.Data.Rat.Floor
import Mathlib.Algebra.BigOperators.Ring.Finset
import Mathlib.Algebra.BigOperators.Fin
import Mathlib.Tactic.Linarith
import Mathlib.Tactic.Ring
/-
Property C129: the constraints of an etched grating allow the gratings with the minimum feature size.
-/
namespace Verif.Grating.EtchConstraint
open Finset
variable {K : Type} [Field K] [LinearOrder K] [FloorRing K]

/-! ### Specification -/

/-- Edges within the grating, in order, and no two next to each other closer than the minimum feature. -/
def Fabricable (minFeature len : K) (x : List K) : Prop :=
  (∀ i, i + 1 < x.length → minFeature ≤ x.getD (i + 1) 0 - x.getD i 0) ∧ ∀ v ∈ x, 0 ≤ v ∧ v ≤ len

/-- What an optimizer takes for feasible: each constraint has a value, and its entries are not negative. -/
def Feasible (cs : List (Con K)) (x : List K) : Prop := ∀ c ∈ cs, ∃ y, c.fn x = some y ∧ ∀ v ∈ y, 0 ≤ v

/-! ### Lemmas -/

omit [LinearOrder K] [FloorRing K] in
theorem dot_range (n : Nat) (g : Nat → K) (x : List K) (hx : x.length = n) :
    dot ((List.range n).map g) x = ∑ j ∈ range n, g j * x.getD j 0 := by
  have hl : List.zipWith (· * ·) ((List.range n).map g) x = (List.range n).map fun j => g j * x.getD j 0 := by
    apply List.ext_getElem
    · simp [hx]
    · intro i h1 h2
      have hi : i < x.length := by simp at h2; omega
      simp [List.getElem?_eq_getElem hi]
  rw [dot, hl, Finset.sum_range, ← List.sum_ofFn]
  congr 1
  apply List.ext_getElem
  · simp
  · intro i h1 h2; simp

omit [LinearOrder K] [FloorRing K] in
theorem circ_entry (n i j : Nat) (hn : 2 ≤ n) (hi : i + 1 < n) (hj : j < n) :
    (([-1, 1] : List K) ++ List.replicate (n - 2) 0).getD ((j + n - i) % n) 0 = (if j = i + 1 then 1 else 0) - if j = i then 1 else 0 := by
  have hz : ∀ k, 2 ≤ k → (([-1, 1] : List K) ++ List.replicate (n - 2) 0).getD k 0 = 0 := by
    intro k hk
    obtain ⟨k, rfl⟩ := Nat.exists_eq_add_of_le' hk
    show (List.replicate (n - 2) (0 : K)).getD k 0 = 0
    by_cases h : k < n - 2
    · simp [h]
    · simp [List.getElem?_eq_none (show (List.replicate (n - 2) (0 : K)).length ≤ k by simp; omega)]
  rcases Nat.lt_trichotomy j i with h | h | h
  · have e : (j + n - i) % n = j + n - i := Nat.mod_eq_of_lt (by omega)
    rw [e, hz _ (by omega), if_neg (by omega), if_neg (by omega), sub_zero]
  · subst h
    have e : (j + n - j) % n = 0 := by rw [Nat.add_sub_cancel_left, Nat.mod_self]
    rw [e, if_neg (by omega), if_pos rfl, zero_sub]; rfl
  · have e : (j + n - i) % n = j - i := by
      rw [show j + n - i = (j - i) + n by omega, Nat.add_mod_right, Nat.mod_eq_of_lt (by omega)]
    rw [e, if_neg (show j ≠ i by omega), sub_zero]
    by_cases h1 : j = i + 1
    · rw [if_pos h1, h1, show i + 1 - i = 1 by omega]; rfl
    · rw [if_neg h1, hz _ (by omega)]

omit [LinearOrder K] [FloorRing K] in
theorem diffMatrix_eq (n : Nat) (hn : 2 ≤ n) : diffMatrix (K := K) n =
    (List.range (n - 1)).map fun i => (List.range n).map fun j => ((if j = i + 1 then 1 else 0) - if j = i then 1 else 0 : K) := by
  have hl : (([-1, 1] : List K) ++ List.replicate (n - 2) 0).length = n := by simp; omega
  have hc : (circulant (([-1, 1] : List K) ++ List.replicate (n - 2) 0)).length = n := by rw [circulant, List.length_map, List.length_range, hl]
  rw [diffMatrix, transpose, hc]
  obtain ⟨m, rfl⟩ : ∃ m, n = m + 1 := ⟨n - 1, by omega⟩
  rw [List.range_succ, List.map_append, List.map_cons, List.map_nil, List.dropLast_concat, Nat.add_sub_cancel]
  refine List.map_congr_left fun i hi => List.map_congr_left fun j hj => ?_
  rw [← List.range_succ] at hj
  have hi' : i < m := List.mem_range.1 hi
  have hj' : j < m + 1 := List.mem_range.1 hj
  have e := circ_entry (K := K) (m + 1) i j hn (by omega) hj'
  rw [← e, circulant, hl]
  have hi2 : i < m + 1 := by omega
  simp [hj', hi2]

omit [LinearOrder K] [FloorRing K] in
theorem diff_apply (x : List K) (hx : 2 ≤ x.length) :
    matVec (diffMatrix x.length) x = some ((List.range (x.length - 1)).map fun i => x.getD (i + 1) 0 - x.getD i 0) := by
  rw [diffMatrix_eq _ hx, matVec, if_pos]
  · rw [List.map_map]
    congr 1
    refine List.map_congr_left fun i hi => ?_
    have hi' : i < x.length - 1 := List.mem_range.1 hi
    show dot _ x = _
    rw [dot_range _ _ x rfl]
    simp only [sub_mul, ite_mul, one_mul, zero_mul, Finset.sum_sub_distrib]
    rw [Finset.sum_ite_eq', Finset.sum_ite_eq', if_pos (Finset.mem_range.2 (by omega)), if_pos (Finset.mem_range.2 (by omega))]
  · intro r hr
    obtain ⟨i, _, rfl⟩ := List.mem_map.1 hr
    simp

/-! ### The property -/

variable [IsStrictOrderedRing K]

omit [FloorRing K] in
/-- **C129.** With two edges or more, a vector of the right length is feasible exactly if the grating is fabricable. -/
theorem feasible_iff (p : MultiEtch K) (minFeature : K) (x : List K) (hx : x.length = p.vector.length) (h2 : 2 ≤ x.length) :
    Feasible (buildConstraints p minFeature) x ↔ Fabricable minFeature (p.n : K) x := by
  have hA := diff_apply x h2
  rw [hx] at hA
  constructor
  · intro h
    obtain ⟨y1, e1, k1⟩ := h _ (List.mem_cons_self ..)
    obtain ⟨y2, e2, k2⟩ := h _ (List.mem_cons_of_mem _ (List.mem_cons_self ..))
    obtain ⟨y3, e3, k3⟩ := h _ (List.mem_cons_of_mem _ (List.mem_cons_of_mem _ (List.mem_cons_self ..)))
    simp only [hA, Option.map_some] at e1
    cases e1
    cases e2
    cases e3
    refine ⟨fun i hi => ?_, fun v hv => ⟨k2 v hv, ?_⟩⟩
    · have := k1 (x.getD (i + 1) 0 - x.getD i 0 - minFeature) (List.mem_map.2 ⟨_, List.mem_map.2 ⟨i, List.mem_range.2 (by omega), rfl⟩, rfl⟩)
      linarith
    · have := k3 ((p.n : K) - v) (List.mem_map.2 ⟨v, hv, rfl⟩)
      linarith
  · rintro ⟨h1, h3⟩ c hc
    simp only [buildConstraints, List.mem_cons, List.not_mem_nil, or_false] at hc
    rcases hc with rfl | rfl | rfl
    · refine ⟨((List.range (p.vector.length - 1)).map fun i => x.getD (i + 1) 0 - x.getD i 0).map fun v => v - minFeature,
        by simp only [hA, Option.map_some], fun v hv => ?_⟩
      obtain ⟨w, hw, rfl⟩ := List.mem_map.1 hv
      obtain ⟨i, hi, rfl⟩ := List.mem_map.1 hw
      have := h1 i (by have := List.mem_range.1 hi; omega)
      linarith
    · exact ⟨x, rfl, fun v hv => (h3 v hv).1⟩
    · refine ⟨_, rfl, fun v hv => ?_⟩
      obtain ⟨w, hw, rfl⟩ := List.mem_map.1 hv
      have := (h3 w hw).2
      linarith

omit [LinearOrder K] [FloorRing K] [IsStrictOrderedRing K] in
theorem dot_add (r x d : List K) (hd : d.length = x.length) : dot r (List.zipWith (· + ·) x d) = dot r x + dot r d := by
  induction r generalizing x d with
  | nil => simp [dot]
  | cons a r ih =>
    cases x with
    | nil => simp [dot, List.eq_nil_of_length_eq_zero (show d.length = 0 from hd)]
    | cons b x =>
      cases d with
      | nil => cases hd
      | cons c d =>
        have h := ih x d (by simpa using hd)
        simp only [dot] at h
        simp only [dot, List.zipWith_cons_cons, List.sum_cons, h]
        ring

omit [LinearOrder K] [FloorRing K] [IsStrictOrderedRing K] in
theorem identity_apply (d : List K) : ((identity d.length).map fun r => dot r d) = d := by
  apply List.ext_getElem
  · simp [identity]
  · intro i h1 h2
    simp only [identity, List.getElem_map, List.getElem_range]
    rw [dot_range _ _ d rfl]
    simp only [ite_mul, one_mul, zero_mul]
    rw [Finset.sum_ite_eq, if_pos (Finset.mem_range.2 h2)]
    simp [h2]

omit [LinearOrder K] [FloorRing K] [IsStrictOrderedRing K] in
theorem dot_neg (r d : List K) : dot (r.map fun v => -v) d = -dot r d := by
  induction r generalizing d with
  | nil => simp [dot]
  | cons a r ih =>
    cases d with
    | nil => simp [dot]
    | cons b d =>
      have h := ih d
      simp only [dot] at h
      simp only [dot, List.map_cons, List.zipWith_cons_cons, List.sum_cons, h]
      ring

omit [LinearOrder K] [FloorRing K] [IsStrictOrderedRing K] in
/-- **C129.** The Jacobians are exact: each constraint changes by its Jacobian times the change of the edges. -/
theorem jacobian_exact (p : MultiEtch K) (minFeature : K) (c : Con K) (hc : c ∈ buildConstraints p minFeature) (x d : List K)
    (hx : x.length = p.vector.length) (hd : d.length = x.length) (h2 : 2 ≤ x.length) :
    ∃ y, c.fn x = some y ∧ y.length = ((c.jac x).map fun r => dot r d).length ∧
      c.fn (List.zipWith (· + ·) x d) = some (List.zipWith (· + ·) y ((c.jac x).map fun r => dot r d)) := by
  have hl : (List.zipWith (· + ·) x d).length = x.length := by simp [hd]
  simp only [buildConstraints, List.mem_cons, List.not_mem_nil, or_false] at hc
  rcases hc with rfl | rfl | rfl
  · have hrow : ∀ z : List K, z.length = x.length → ∀ r ∈ diffMatrix (K := K) p.vector.length, r.length = z.length := by
      intro z hz r hr
      rw [← hx, diffMatrix_eq _ h2] at hr
      obtain ⟨i, _, rfl⟩ := List.mem_map.1 hr
      simp [hz]
    have e1 : matVec (diffMatrix p.vector.length) x = some ((diffMatrix p.vector.length).map fun r => dot r x) := by
      rw [matVec, if_pos (hrow x rfl)]
    have e2 : matVec (diffMatrix p.vector.length) (List.zipWith (· + ·) x d) =
        some ((diffMatrix p.vector.length).map fun r => dot r (List.zipWith (· + ·) x d)) := by rw [matVec, if_pos (hrow _ hl)]
    refine ⟨((diffMatrix p.vector.length).map fun r => dot r x).map fun v => v - minFeature, by simp only [e1, Option.map_some], by simp, ?_⟩
    simp only [e2, Option.map_some, Option.some.injEq]
    apply List.ext_getElem
    · simp
    · intro i h3 h4
      simp only [List.getElem_map, List.getElem_zipWith]
      rw [dot_add _ _ _ hd]
      ring
  · refine ⟨x, rfl, by simp [identity, hx], ?_⟩
    simp only
    rw [← hx, ← hd, identity_apply]
  · refine ⟨_, rfl, by simp [identity, hx], ?_⟩
    have hn : ((identity p.vector.length).map fun r => r.map fun v => -v).map (fun r => dot r d) = d.map fun v => -v := by
      rw [List.map_map, ← hx, ← hd]
      have h : ((fun r => dot r d) ∘ fun r : List K => r.map fun v => -v) = (fun v => -v) ∘ fun r => dot r d := by
        funext r; exact dot_neg r d
      rw [h, ← List.map_map, identity_apply]
    simp only [hn, Option.some.injEq]
    apply List.ext_getElem
    · simp
    · intro i h3 h4
      simp only [List.getElem_map, List.getElem_zipWith]
      ring

omit [FloorRing K] [IsStrictOrderedRing K] in
/-- **C129.** A feasible vector that ends a little before the end of the grating is stored as it is. Partial: see `stored_false`. -/
theorem stored_partial (p : MultiEtch K) (minFeature : K) (x : List K) (h : Fabricable minFeature (p.n : K) x)
    (hend : ∀ v ∈ x, v ≤ (p.n : K) - 1 / 100000) : (p.fromVector x).vector = x := by
  show x.map (fun v => min (max v 0) ((p.n : K) - 1 / 100000)) = x
  conv_rhs => rw [← List.map_id x]
  refine List.map_congr_left fun v hv => ?_
  rw [max_eq_left (h.2 v hv).1, min_eq_left (hend v hv)]; rfl

/-- **C129 fails in part.** A feasible vector that ends at the end of the grating is moved when it is stored, and the stored grating
is not feasible. -/
theorem stored_false : ∃ (p : MultiEtch ℚ) (minFeature : ℚ) (x : List ℚ), x.length = p.vector.length ∧
    Feasible (buildConstraints p minFeature) x ∧ ¬ Feasible (buildConstraints (p.fromVector x) minFeature) (p.fromVector x).vector := by
  let p : MultiEtch ℚ := ⟨4, 1, [1], [0, 1], [0, 1]⟩
  have e : (p.fromVector [2, 4]).vector = [2, 4 - 1 / 100000] := by
    show [min (max (2 : ℚ) 0) (((4 : ℕ) : ℚ) - 1 / 100000), min (max (4 : ℚ) 0) (((4 : ℕ) : ℚ) - 1 / 100000)] = _
    norm_num
  refine ⟨p, 2, [2, 4], rfl, ?_, ?_⟩
  · refine (feasible_iff p 2 [2, 4] rfl (Nat.le_refl 2)).2 ⟨fun i hi => ?_, fun v hv => ?_⟩
    · have : i = 0 := by simp at hi; omega
      subst this
      show (2 : ℚ) ≤ 4 - 2; norm_num
    · have : v = 2 ∨ v = 4 := by simpa using hv
      show 0 ≤ v ∧ v ≤ ((4 : ℕ) : ℚ)
      rcases this with rfl | rfl <;> norm_num
  · intro h
    have h := (feasible_iff (p.fromVector [2, 4]) 2 _ rfl (by rw [e]; exact Nat.le_refl 2)).1 h
    rw [e] at h
    have := h.1 0 (by decide)
    simp only [List.getD_cons_succ, List.getD_cons_zero] at this
    norm_num at this

omit [FloorRing K] [LinearOrder K] [IsStrictOrderedRing K] in
/-- **C129 fails in part.** With fewer than two edges the first constraint has no value at any vector of that length: evaluating it
raises. -/
theorem single_edge_false (x : List K) (hx : x.length < 2) : matVec (diffMatrix x.length) x = none := by
  have h0 : x.length - 2 = 0 := by omega
  rw [diffMatrix, h0, matVec, if_neg]
  intro h
  have := h [-1, 1] (by
    simp [transpose, circulant, List.range_succ])
  simp at this
  omega

/-- **C129 fails in part.** Bounds given to the parametrization are enforced neither by bounds nor by constraints. -/
theorem bounds_ignored_false : ∃ (p : MultiEtch ℚ) (lower upper x : List ℚ), getBounds p lower upper = none ∧
    Feasible (buildConstraints p 0) x ∧ ¬ List.Forall₂ (· ≤ ·) x upper := by
  refine ⟨⟨4, 1, [1], [0, 1], [0, 1]⟩, [0, 0], [1, 1], [2, 3], rfl, ?_, ?_⟩
  · refine (feasible_iff (⟨4, 1, [1], [0, 1], [0, 1]⟩ : MultiEtch ℚ) 0 [2, 3] rfl (Nat.le_refl 2)).2 ⟨fun i hi => ?_, fun v hv => ?_⟩
    · have : i = 0 := by simp at hi; omega
      subst this
      show (0 : ℚ) ≤ 3 - 2; norm_num
    · have : v = 2 ∨ v = 3 := by simpa using hv
      show 0 ≤ v ∧ v ≤ ((4 : ℕ) : ℚ)
      rcases this with rfl | rfl <;> norm_num
  · intro h
    cases h with
    | cons h _ => norm_num at h

/-- Three edges at 0, 2 and 5 of ten pixels with features of two pixels. -/
example : Feasible (buildConstraints (⟨10, 1, [1], [0, 0, 0], [0, 1, 0]⟩ : MultiEtch ℚ) 2) [0, 2, 5] := by
  refine (feasible_iff (⟨10, 1, [1], [0, 0, 0], [0, 1, 0]⟩ : MultiEtch ℚ) 2 [0, 2, 5] rfl (by show 2 ≤ 3; decide)).2
    ⟨fun i hi => ?_, fun v hv => ?_⟩
  · have : i = 0 ∨ i = 1 := by simp at hi; omega
    rcases this with rfl | rfl
    · show (2 : ℚ) ≤ 2 - 0; norm_num
    · show (2 : ℚ) ≤ 5 - 2; norm_num
  · have : v = 0 ∨ v = 2 ∨ v = 5 := by simpa using hv
    show 0 ≤ v ∧ v ≤ ((10 : ℕ) : ℚ)
    rcases this with rfl | rfl | rfl <;> norm_num

end Verif.Grating.EtchConstraint
