import Verif.Fdfd.OverlapObj
import Verif.Fdfd.AdjointProps
import Verif.Obj.NodeProps
import Mathlib.Analysis.Asymptotics.Lemmas
import Mathlib.Analysis.Real.Sqrt
import Mathlib.Algebra.Ring.Parity
/-
Property C91: the values and gradients of the overlap objectives.
-/
set_option linter.unusedSectionVars false
namespace Verif.Fdfd.OverlapObj
open Matrix
variable {n : Nat}

/-! ### Specification -/

/-- `d` is the derivative of the real function `F` of the fields at `x`, in the convention of the adjoint simulation:
a small change `v` of the fields changes `F` by `2 Re Σ dₚ vₚ`. -/
def FieldDeriv (F : VField n → ℝ) (d x : VField n) : Prop :=
  ∃ L : VField n →L[ℝ] ℝ, HasFDerivAt F L x ∧ ∀ v, L v = ∑ p, 2 * (d p * v p).re

/-- The reported derivative is the derivative. -/
def IsFieldGradient (F : VField n → ℝ) (r : Option (VField n)) (x : VField n) : Prop :=
  ∃ d, r = some d ∧ FieldDeriv F d x

/-- The overlap of the field `E` of a mode with the fields `x`. -/
noncomputable def overlap (E x : VField n) : ℂ := ∑ p, E p * x p

/-! ### Lemmas -/

theorem dotH_column (E x : VField n) : dotH (column E) x = overlap E x := by
  simp [dotH, herm, column, overlap]

noncomputable def dotL (C : VField n) : VField n →L[ℝ] ℂ :=
  LinearMap.toContinuousLinearMap
    { toFun := dotH C
      map_add' := by intro x y; simp only [dotH, Pi.add_apply, mul_add, Finset.sum_add_distrib]
      map_smul' := by
        intro a x
        simp only [dotH, Pi.smul_apply, RingHom.id_apply, Complex.real_smul, Finset.mul_sum]
        exact Finset.sum_congr rfl fun p _ => by ring }

theorem dotL_apply (C v : VField n) : dotL C v = dotH C v := rfl

theorem sum_pair (c : ℂ) (C v : VField n) :
    ∑ p, 2 * (c * herm C p * v p).re = 2 * (c * dotH C v).re := by
  rw [← Finset.mul_sum, ← Complex.re_sum, dotH, Finset.mul_sum]
  congr 2
  exact Finset.sum_congr rfl fun p _ => by ring

/-- A function of the distance of an overlap to a number. -/
theorem fieldDeriv_dist (C : VField n) (T : ℂ) (x : VField n) (h : dotH C x - T ≠ 0) (g : ℝ → ℝ) (g' : ℝ)
    (hg : HasDerivAt g g' ‖dotH C x - T‖) :
    FieldDeriv (fun y => g ‖dotH C y - T‖)
      (fun p => (g' : ℂ) * (0.5 * star (dotH C x - T) / (‖dotH C x - T‖ : ℂ)) * herm C p) x := by
  have h1 : HasFDerivAt (fun y => dotH C y - T) (dotL C) x := ((dotL C).hasFDerivAt (x := x)).sub_const T
  have h2 := (Verif.Obj.norm_hasFDerivAt (dotH C x - T) h).comp x h1
  have h3 := hg.comp_hasFDerivAt x h2
  refine ⟨_, h3, fun v => ?_⟩
  rw [sum_pair]
  simp only [_root_.smul_apply, ContinuousLinearMap.comp_apply, smul_eq_mul, innerSL_apply_apply, dotL_apply]
  rw [← Verif.Obj.re_star_mul]
  have e : (g' : ℂ) * (0.5 * star (dotH C x - T) / (‖dotH C x - T‖ : ℂ)) * dotH C v =
      ((g' * 0.5 / ‖dotH C x - T‖ : ℝ) : ℂ) * (star (dotH C x - T) * dotH C v) := by
    push_cast
    ring
  rw [e, Complex.re_ofReal_mul]
  show _ * (_ * (star (dotH C x - T) * dotH C v).re) = _
  ring

theorem fieldDeriv_sum {α : Type} (l : List α) (F : α → VField n → ℝ) (d : α → VField n) (x : VField n)
    (h : ∀ a ∈ l, FieldDeriv (F a) (d a) x) :
    FieldDeriv (fun y => (l.map fun a => F a y).sum) (fun p => (l.map fun a => d a p).sum) x := by
  induction l with
  | nil => exact ⟨0, hasFDerivAt_const _ _, fun v => by simp⟩
  | cons a l ih =>
    obtain ⟨L1, h1, e1⟩ := h a (by simp)
    obtain ⟨L2, h2, e2⟩ := ih fun b hb => h b (by simp [hb])
    refine ⟨L1 + L2, ?_, fun v => ?_⟩
    · simp only [List.map_cons, List.sum_cons]
      exact h1.add h2
    · rw [_root_.add_apply, e1, e2, ← Finset.sum_add_distrib]
      refine Finset.sum_congr rfl fun p _ => ?_
      simp only [List.map_cons, List.sum_cons, add_mul, Complex.add_re]
      ring

theorem FieldDeriv.unique {F : VField n → ℝ} {d d' x : VField n} (h : FieldDeriv F d x) (h' : FieldDeriv F d' x) :
    d = d' := by
  obtain ⟨L, hL, e⟩ := h
  obtain ⟨L', hL', e'⟩ := h'
  have hu := hL.unique hL'
  have key : ∀ v : VField n, ∑ p, 2 * (d p * v p).re = ∑ p, 2 * (d' p * v p).re := fun v => by rw [← e, ← e', hu]
  funext q
  have k1 := key (Pi.single q 1)
  have k2 := key (Pi.single q Complex.I)
  simp only [Pi.single_apply, mul_ite, mul_one, mul_zero] at k1 k2
  have s : ∀ (c : ℂ) (f : VField n), ∑ p, 2 * (if p = q then f p * c else 0).re = 2 * (f q * c).re := by
    intro c f
    rw [Finset.sum_eq_single q]
    · simp
    · intro b _ hb; simp [hb]
    · intro hq; exact absurd (Finset.mem_univ q) hq
  have s1 : ∀ (f : VField n), ∑ p, 2 * (if p = q then f p else 0).re = 2 * (f q).re := by
    intro f
    have := s 1 f
    simpa using this
  rw [s1, s1] at k1
  rw [s, s] at k2
  refine Complex.ext (by linarith) ?_
  simp only [Complex.mul_re, Complex.I_re, Complex.I_im, mul_zero, mul_one, zero_sub] at k2
  linarith

/-! ### `Overlap` -/

/-- C91: the objective is the distance of the overlap to the wanted transmission. -/
theorem overlap_value (E x : VField n) (T : Option ℂ) :
    (mkOverlap E T).f x = ‖overlap E x - T.getD 0‖ := by
  simp [OverlapCfg.f, mkOverlap, dotH_column]

/-- C91: it vanishes exactly if the transmission is the wanted one. -/
theorem overlap_zero (E x : VField n) (T : ℂ) : (mkOverlap E (some T)).f x = 0 ↔ overlap E x = T := by
  rw [overlap_value, norm_eq_zero, sub_eq_zero]; rfl

/-- C91: the reported norm is the squared modulus of the overlap, whatever transmission is wanted. -/
theorem overlap_norm2 (E x : VField n) (T : Option ℂ) : (mkOverlap E T).norm2 x = ‖overlap E x‖ ^ 2 := by
  simp [OverlapCfg.norm2, mkOverlap, dotH_column]

/-- C91: wherever the transmission is not the wanted one, the reported derivative is the derivative. -/
theorem overlap_derivative (E x : VField n) (T : ℂ) (h : overlap E x ≠ T) :
    IsFieldGradient (mkOverlap E (some T)).f ((mkOverlap E (some T)).dfdx x) x := by
  have h0 : dotH (column E) x - T ≠ 0 := by rw [dotH_column]; exact sub_ne_zero.2 h
  refine ⟨_, if_neg (by simpa [mkOverlap] using h0), ?_⟩
  have := fieldDeriv_dist (column E) T x h0 (fun t => t) 1 (hasDerivAt_id' _)
  simp only [Complex.ofReal_one, one_mul] at this
  exact this

example : overlap (n := 1) (fun _ => 1) (fun _ => 1) ≠ 1 := by
  simp [overlap]

/-! ### `BasicOverlapObjective` -/

theorem npMin_spec (l : List ℝ) : ∀ a, npMin a l ∈ a :: l ∧ ∀ c ∈ a :: l, npMin a l ≤ c := by
  induction l with
  | nil => intro a; simp [npMin]
  | cons b l ih =>
    intro a
    have e : npMin a (b :: l) = npMin (min a b) l := rfl
    obtain ⟨h1, h2⟩ := ih (min a b)
    rw [e]
    constructor
    · rcases List.mem_cons.1 h1 with h | h
      · rw [h]; rcases min_choice a b with h' | h' <;> rw [h'] <;> simp
      · simp [h]
    · intro c hc
      have hm := h2 (min a b) (by simp)
      rcases List.mem_cons.1 hc with h | h
      · subst h; exact hm.trans (min_le_left _ _)
      · rcases List.mem_cons.1 h with h | h
        · subst h; exact hm.trans (min_le_right _ _)
        · exact h2 c (by simp [h])

theorem npMax_spec (l : List ℝ) : ∀ a, npMax a l ∈ a :: l ∧ ∀ c ∈ a :: l, c ≤ npMax a l := by
  induction l with
  | nil => intro a; simp [npMax]
  | cons b l ih =>
    intro a
    have e : npMax a (b :: l) = npMax (max a b) l := rfl
    obtain ⟨h1, h2⟩ := ih (max a b)
    rw [e]
    constructor
    · rcases List.mem_cons.1 h1 with h | h
      · rw [h]; rcases max_choice a b with h' | h' <;> rw [h'] <;> simp
      · simp [h]
    · intro c hc
      have hm := h2 (max a b) (by simp)
      rcases List.mem_cons.1 hc with h | h
      · subst h; exact (le_max_left _ _).trans hm
      · rcases List.mem_cons.1 h with h | h
        · subst h; exact (le_max_right _ _).trans hm
        · exact h2 c (by simp [h])

/-- The violation of the band `[α, β]`. -/
noncomputable def viol (a b o : ℝ) : ℝ :=
  (if o < a then 1 else 0) * (a - o) + (if b < o then 1 else 0) * (o - b)

theorem viol_below {a b o : ℝ} (hab : a ≤ b) (h : o < a) : viol a b o = a - o := by
  rw [viol, if_pos h, if_neg (by linarith)]; ring

theorem viol_above {a b o : ℝ} (hab : a ≤ b) (h : b < o) : viol a b o = o - b := by
  rw [viol, if_pos h, if_neg (by linarith)]; ring

theorem viol_inside {a b o : ℝ} (h1 : a ≤ o) (h2 : o ≤ b) : viol a b o = 0 := by
  rw [viol, if_neg (by linarith), if_neg (by linarith)]; ring

theorem viol_nonneg (a b o : ℝ) : 0 ≤ viol a b o := by
  unfold viol
  split <;> split <;> linarith

theorem viol_zero {a b o : ℝ} : viol a b o = 0 ↔ a ≤ o ∧ o ≤ b := by
  constructor
  · intro h
    unfold viol at h
    split at h <;> split at h <;> constructor <;> linarith
  · rintro ⟨h1, h2⟩; exact viol_inside h1 h2

theorem viol_pow_hasDerivAt {a b : ℝ} (hab : a ≤ b) (o : ℝ) (pf : Nat) (hp : 2 ≤ pf) :
    HasDerivAt (fun y => viol a b y ^ pf)
      (pf * viol a b o ^ (pf - 1) * ((if b < o then 1 else 0) - (if o < a then 1 else 0))) o := by
  by_cases h1 : o < a
  · have e : (fun y => viol a b y ^ pf) =ᶠ[nhds o] fun y => (a - y) ^ pf := by
      filter_upwards [gt_mem_nhds h1] with y hy
      rw [viol_below hab hy]
    have := ((hasDerivAt_id' o).const_sub a).pow pf
    refine (this.congr_of_eventuallyEq e).congr_deriv ?_
    rw [viol_below hab h1, if_pos h1, if_neg (by linarith)]
    ring
  by_cases h2 : b < o
  · have e : (fun y => viol a b y ^ pf) =ᶠ[nhds o] fun y => (y - b) ^ pf := by
      filter_upwards [lt_mem_nhds h2] with y hy
      rw [viol_above hab hy]
    have := ((hasDerivAt_id' o).sub_const b).pow pf
    refine (this.congr_of_eventuallyEq e).congr_deriv ?_
    rw [viol_above hab h2, if_pos h2, if_neg (by linarith)]
    ring
  · rw [if_neg h1, if_neg h2, sub_zero, mul_zero, hasDerivAt_iff_isLittleO]
    push Not at h1 h2
    have hp0 : pf ≠ 0 := by omega
    simp only [viol_inside h1 h2, zero_pow hp0, sub_zero, smul_zero]
    refine Asymptotics.IsBigO.trans_isLittleO
      (Asymptotics.IsBigO.of_bound 1 (Filter.Eventually.of_forall fun y => ?_))
      (Asymptotics.isLittleO_pow_sub_sub (m := pf) o (by omega))
    rw [one_mul, norm_pow, norm_pow, norm_norm]
    refine pow_le_pow_left₀ (norm_nonneg _) ?_ _
    rw [Real.norm_eq_abs, Real.norm_eq_abs, abs_of_nonneg (viol_nonneg a b y)]
    by_cases c1 : y < a
    · rw [viol_below hab c1]
      have := neg_le_abs (y - o)
      linarith
    by_cases c2 : b < y
    · rw [viol_above hab c2]
      have := le_abs_self (y - o)
      linarith
    · rw [viol_inside (by linarith) (by linarith)]; exact abs_nonneg _

theorem basicF0_eq (m : BasicMode n) (x : VField n) : basicF0 m x = viol m.alpha m.beta ‖dotH m.C x‖ := rfl

theorem basicG0_eq (m : BasicMode n) (x : VField n) : basicG0 m x = -basicF0 m x := by
  simp only [basicG0, basicF0]; ring

theorem sum_zero_iff {α : Type} (l : List α) (f : α → ℝ) (h : ∀ a ∈ l, 0 ≤ f a) :
    (l.map f).sum = 0 ↔ ∀ a ∈ l, f a = 0 := by
  induction l with
  | nil => simp
  | cons a l ih =>
    have h1 := h a (by simp)
    have h2 : 0 ≤ (l.map f).sum := List.sum_nonneg (by
      intro y hy
      obtain ⟨b, hb, rfl⟩ := List.mem_map.1 hy
      exact h b (by simp [hb]))
    have h3 := ih fun b hb => h b (by simp [hb])
    simp only [List.map_cons, List.sum_cons, List.forall_mem_cons, ← h3]
    constructor
    · intro e; exact ⟨by linarith, by linarith⟩
    · rintro ⟨e1, e2⟩; rw [e1, e2, add_zero]

theorem mk_le (E : VField n) (p : ℝ × List ℝ) : (mkBasic E p).alpha ≤ (mkBasic E p).beta :=
  Real.sqrt_le_sqrt (((npMin_spec p.2 p.1).2 p.1 (by simp)).trans ((npMax_spec p.2 p.1).2 p.1 (by simp)))

/-- C91: the objective with ranges of powers is never negative. -/
theorem basic_nonneg (modes : List (VField n × (ℝ × List ℝ))) (pf : Nat) (x : VField n) :
    0 ≤ basicF (modes.map fun m => mkBasic m.1 m.2) pf x := by
  refine List.sum_nonneg fun y hy => ?_
  obtain ⟨m, _, rfl⟩ := List.mem_map.1 hy
  exact pow_nonneg (by rw [basicF0_eq]; exact viol_nonneg _ _ _) _

/-- C91: it vanishes exactly if the power in every mode lies between two of the wanted powers of the mode. -/
theorem basic_zero (modes : List (VField n × (ℝ × List ℝ))) (pf : Nat) (hp : 1 ≤ pf) (x : VField n)
    (hpos : ∀ m ∈ modes, ∀ q ∈ m.2.1 :: m.2.2, 0 ≤ q) :
    basicF (modes.map fun m => mkBasic m.1 m.2) pf x = 0 ↔
      ∀ m ∈ modes, ∃ a ∈ m.2.1 :: m.2.2, ∃ b ∈ m.2.1 :: m.2.2, a ≤ ‖overlap m.1 x‖ ^ 2 ∧ ‖overlap m.1 x‖ ^ 2 ≤ b := by
  unfold basicF
  rw [List.map_map, sum_zero_iff]
  · refine forall₂_congr fun m hm => ?_
    simp only [Function.comp]
    rw [pow_eq_zero_iff (by omega), basicF0_eq, viol_zero]
    show √(npMin m.2.1 m.2.2) ≤ ‖dotH (column m.1) x‖ ∧ ‖dotH (column m.1) x‖ ≤ √(npMax m.2.1 m.2.2) ↔ _
    rw [dotH_column, Real.sqrt_le_left (norm_nonneg _), Real.le_sqrt (norm_nonneg _)
      (hpos m hm _ (npMax_spec m.2.2 m.2.1).1)]
    obtain ⟨i1, i2⟩ := npMin_spec m.2.2 m.2.1
    obtain ⟨a1, a2⟩ := npMax_spec m.2.2 m.2.1
    constructor
    · rintro ⟨h1, h2⟩
      exact ⟨_, i1, _, a1, h1, h2⟩
    · rintro ⟨a, ha, b, hb, h1, h2⟩
      exact ⟨(i2 a ha).trans h1, h2.trans (a2 b hb)⟩
  · intro m _
    exact pow_nonneg (by rw [basicF0_eq]; exact viol_nonneg _ _ _) _

theorem basic_core (ms : List (BasicMode n)) (hab : ∀ m ∈ ms, m.alpha ≤ m.beta) (pf : Nat) (hp : 2 ≤ pf) (x : VField n)
    (h0 : ∀ m ∈ ms, dotH m.C x ≠ 0) :
    ∃ d, basicDfdx ms pf x = some d ∧ FieldDeriv (basicF ms pf) (fun p => (-1) ^ pf * d p) x := by
  refine ⟨_, if_neg (by rintro ⟨m, hm, h⟩; exact h0 m hm (norm_eq_zero.1 h)), ?_⟩
  have := fieldDeriv_sum ms (fun m y => basicF0 m y ^ pf)
    (fun m p => (-1) ^ pf * ((pf : ℂ) * (basicG0 m x : ℂ) ^ (pf - 1) * basicDf0 m x p)) x (fun m hm => by
      have h1 := fieldDeriv_dist m.C 0 x (by simpa using h0 m hm) (fun o => viol m.alpha m.beta o ^ pf) _
        (viol_pow_hasDerivAt (hab m hm) ‖dotH m.C x - 0‖ pf hp)
      simp only [sub_zero] at h1
      refine cast ?_ h1
      congr 1
      funext p
      obtain ⟨k, rfl⟩ : ∃ k, pf = k + 1 := ⟨pf - 1, by omega⟩
      simp only [basicG0_eq, basicF0_eq, basicDf0, Nat.add_sub_cancel]
      push_cast
      simp only [apply_ite (fun r : ℝ => (r : ℂ)), Complex.ofReal_one, Complex.ofReal_zero]
      rw [neg_pow, pow_succ (-1 : ℂ) k]
      have hs : ((-1 : ℂ) ^ k) * (-1) ^ k = 1 := by rw [← mul_pow]; simp
      linear_combination (((k : ℂ) + 1) * (viol m.alpha m.beta ‖dotH m.C x‖ : ℂ) ^ k *
        (((1 * (if ‖dotH m.C x‖ < m.alpha then 1 else 0) - 1 * (if m.beta < ‖dotH m.C x‖ then 1 else 0)) * 0.5 *
        star (dotH m.C x) / (‖dotH m.C x‖ : ℂ)) * herm m.C p)) * hs)
  refine cast ?_ this
  congr 1
  funext p
  rw [List.sum_map_mul_left]

/-- C91, for even powers, the default 2 among them: wherever no overlap vanishes, the reported derivative is the
derivative. The powers of the modes may be any, in any order. -/
theorem basic_derivative_partial (modes : List (VField n × (ℝ × List ℝ))) (pf : Nat) (hp : 2 ≤ pf) (he : Even pf)
    (x : VField n) (h0 : ∀ m ∈ modes, overlap m.1 x ≠ 0) :
    IsFieldGradient (basicF (modes.map fun m => mkBasic m.1 m.2) pf)
      (basicDfdx (modes.map fun m => mkBasic m.1 m.2) pf x) x := by
  obtain ⟨d, h1, h2⟩ := basic_core (modes.map fun m => mkBasic m.1 m.2) (by
    intro m hm; obtain ⟨e, _, rfl⟩ := List.mem_map.1 hm; exact mk_le _ _) pf hp x (by
    intro m hm; obtain ⟨e, he, rfl⟩ := List.mem_map.1 hm
    show dotH (column e.1) x ≠ 0
    rw [dotH_column]; exact h0 e he)
  refine ⟨d, h1, ?_⟩
  simpa [he.neg_one_pow] using h2

/-- Two modes with a range of wanted powers and a single one, none with a vanishing overlap. -/
example : ∀ m ∈ [((fun _ => 1 : VField 1), ((0.5 : ℝ), [0.9, 0.2])), ((fun _ => Complex.I : VField 1), (0, []))],
    overlap m.1 (fun _ => 1) ≠ 0 := by
  simp [overlap]

/-- For odd powers the reported derivative has the wrong sign. -/
theorem basic_derivative_odd (modes : List (VField n × (ℝ × List ℝ))) (pf : Nat) (hp : 2 ≤ pf) (ho : Odd pf)
    (x : VField n) (h0 : ∀ m ∈ modes, overlap m.1 x ≠ 0) :
    ∃ d, basicDfdx (modes.map fun m => mkBasic m.1 m.2) pf x = some d ∧
      FieldDeriv (basicF (modes.map fun m => mkBasic m.1 m.2) pf) (-d) x := by
  obtain ⟨d, h1, h2⟩ := basic_core (modes.map fun m => mkBasic m.1 m.2) (by
    intro m hm; obtain ⟨e, _, rfl⟩ := List.mem_map.1 hm; exact mk_le _ _) pf hp x (by
    intro m hm; obtain ⟨e, he, rfl⟩ := List.mem_map.1 hm
    show dotH (column e.1) x ≠ 0
    rw [dotH_column]; exact h0 e he)
  refine ⟨d, h1, ?_⟩
  have e : (-d : VField n) = fun p => (-1) ^ pf * d p := by
    funext p; simp [ho.neg_one_pow]
  rw [e]; exact h2

/-- One cell; the mode is the first component. -/
noncomputable def oneE : VField 1 := fun p => if p = (0, 0) then 1 else 0

theorem one_overlap (x : VField 1) : overlap oneE x = x (0, 0) := by
  simp [overlap, oneE]

/-- C91 fails for odd powers: one mode with wanted power 1, an overlap of 2 and the power 3. -/
theorem basic_odd_false :
    ¬ IsFieldGradient (basicF [mkBasic oneE (1, [])] 3) (basicDfdx [mkBasic oneE (1, [])] 3 (2 • oneE)) (2 • oneE) := by
  rintro ⟨d, h1, h2⟩
  have ho : overlap oneE (2 • oneE) = 2 := by rw [one_overlap]; simp [oneE]
  obtain ⟨d', h3, h4⟩ := basic_derivative_odd [(oneE, ((1 : ℝ), ([] : List ℝ)))] 3 (by norm_num) (by decide) (2 • oneE)
    (by intro m hm; rw [List.mem_singleton] at hm; subst hm; rw [ho]; norm_num)
  have hd : some d = some d' := h1.symm.trans h3
  injection hd with hd
  subst hd
  have hz : d = -d := h2.unique h4
  have hz0 : d (0, 0) = 0 := by
    have := congrFun hz (0, 0)
    rw [Pi.neg_apply, eq_neg_iff_add_eq_zero, ← two_mul] at this
    simpa using this
  have hne : ‖dotH (column oneE) (2 • oneE)‖ = 2 := by rw [dotH_column, ho]; simp
  have hs : basicDfdx [mkBasic oneE (1, [])] 3 (2 • oneE) = some d := h1
  rw [basicDfdx, if_neg (by
    rintro ⟨m, hm, h⟩
    rw [List.mem_singleton] at hm
    subst hm
    rw [show (mkBasic oneE (1, [])).C = column oneE from rfl, hne] at h
    norm_num at h)] at hs
  injection hs with hs
  have hv := congrFun hs (0, 0)
  rw [hz0] at hv
  have ha : (mkBasic oneE (1, [])).alpha = 1 := by simp [mkBasic, npMin]
  have hb : (mkBasic oneE (1, [])).beta = 1 := by simp [mkBasic, npMax]
  have hC : (mkBasic oneE (1, [])).C = column oneE := rfl
  simp only [List.map_cons, List.map_nil, List.sum_cons, List.sum_nil, basicG0, basicDf0, ha, hb, hC,
    dotH_column, ho] at hv
  norm_num [herm, column, oneE] at hv

/-- C91 fails where a power of zero is allowed and reached: at a vanishing overlap with an allowed range of powers from
zero the objective has the derivative zero, and the code reports no number. -/
theorem basic_dark_false (E : VField n) (hi : ℝ) (hh : 0 < hi) (x : VField n) (h0 : overlap E x = 0) :
    basicDfdx [mkBasic E (0, [hi])] 2 x = none ∧ FieldDeriv (basicF [mkBasic E (0, [hi])] 2) 0 x := by
  have hd : dotH (column E) x = 0 := by rw [dotH_column, h0]
  refine ⟨if_pos ⟨_, List.mem_singleton_self _, by
    show ‖dotH (column E) x‖ = 0
    rw [hd, norm_zero]⟩, 0, ?_, fun v => by simp⟩
  have hβ : (mkBasic E (0, [hi])).beta = √hi := by
    simp [mkBasic, npMax, max_eq_right hh.le]
  have hα : (mkBasic E (0, [hi])).alpha = 0 := by
    simp [mkBasic, npMin, min_eq_left hh.le]
  have hcont : ContinuousAt (fun y => ‖dotH (column E) y‖) x :=
    ((dotL (column E)).continuous.norm).continuousAt
  have hev : (fun y => basicF [mkBasic E (0, [hi])] 2 y) =ᶠ[nhds x] fun _ => 0 := by
    have : ∀ᶠ y in nhds x, ‖dotH (column E) y‖ < √hi := by
      refine hcont.eventually_lt continuousAt_const ?_
      simp only [hd, norm_zero]
      exact Real.sqrt_pos.2 hh
    filter_upwards [this] with y hy
    have e : basicF0 (mkBasic E (0, [hi])) y = 0 := by
      rw [basicF0_eq, hα, hβ]
      exact viol_inside (norm_nonneg _) hy.le
    simp [basicF, e]
  exact (hasFDerivAt_const (0 : ℝ) x).congr_of_eventuallyEq hev

/-! ### `PhaseOverlapObjective` -/

theorem dotH_phase (E x : VField n) (T : ℂ) :
    dotH (mkPhase E T).C x = ∑ p, star (E p) * x p := by
  simp [dotH, herm, column, mkPhase]

/-- C91: the objective vanishes exactly if every mode has the wanted complex transmission. -/
theorem phase_zero (modes : List (VField n × ℂ)) (x : VField n) :
    phaseF (modes.map fun m => mkPhase m.1 m.2) x = 0 ↔ ∀ m ∈ modes, ∑ p, star (m.1 p) * x p = m.2 := by
  unfold phaseF
  rw [List.map_map, sum_zero_iff _ _ fun m _ => by simp only [Function.comp]; positivity]
  refine forall₂_congr fun m _ => ?_
  simp only [Function.comp]
  rw [pow_eq_zero_iff (by norm_num), norm_eq_zero, sub_eq_zero, dotH_phase]
  rfl

theorem sq_hasDerivAt (t : ℝ) : HasDerivAt (fun y : ℝ => y ^ 2) (2 * t) t := by
  have := hasDerivAt_pow 2 t
  simpa using this

/-- C91: wherever no mode has exactly the wanted transmission, the reported derivative is the derivative. -/
theorem phase_derivative_partial (modes : List (VField n × ℂ)) (x : VField n)
    (h : ∀ m ∈ modes, ∑ p, star (m.1 p) * x p ≠ m.2) :
    IsFieldGradient (phaseF (modes.map fun m => mkPhase m.1 m.2)) (phaseDfdx (modes.map fun m => mkPhase m.1 m.2) x)
      x := by
  have h0 : ∀ c ∈ modes.map (fun m => mkPhase m.1 m.2), dotH c.C x - c.T ≠ 0 := by
    intro c hc
    obtain ⟨m, hm, rfl⟩ := List.mem_map.1 hc
    rw [dotH_phase]
    exact sub_ne_zero.2 (h m hm)
  generalize modes.map (fun m => mkPhase m.1 m.2) = ms at h0
  refine ⟨_, if_neg (by rintro ⟨m, hm, h⟩; exact h0 m hm (norm_eq_zero.1 h)), ?_⟩
  refine fieldDeriv_sum ms (fun c y => ‖dotH c.C y - c.T‖ ^ 2) _ x fun c hc => ?_
  have h1 := fieldDeriv_dist c.C c.T x (h0 c hc) (fun t => t ^ 2) _ (sq_hasDerivAt _)
  refine cast ?_ h1
  congr 1
  funext p
  push_cast
  ring

/-- C91 fails at the optimum: as soon as one mode has exactly the wanted transmission the code reports no number; if all
modes have it, the derivative is zero. -/
theorem phase_matched_false (modes : List (VField n × ℂ)) (hne : modes ≠ []) (x : VField n)
    (h : ∀ m ∈ modes, ∑ p, star (m.1 p) * x p = m.2) :
    phaseDfdx (modes.map fun m => mkPhase m.1 m.2) x = none ∧
      FieldDeriv (phaseF (modes.map fun m => mkPhase m.1 m.2)) 0 x := by
  have h0 : ∀ c ∈ modes.map (fun m => mkPhase m.1 m.2), dotH c.C x - c.T = 0 := by
    intro c hc
    obtain ⟨m, hm, rfl⟩ := List.mem_map.1 hc
    rw [dotH_phase]
    exact sub_eq_zero.2 (h m hm)
  have hne' : modes.map (fun m => mkPhase m.1 m.2) ≠ [] := by simpa using hne
  generalize modes.map (fun m => mkPhase m.1 m.2) = ms at h0 hne'
  constructor
  · obtain ⟨c, hc⟩ := List.exists_mem_of_ne_nil _ hne'
    exact if_pos ⟨c, hc, by rw [h0 c hc, norm_zero]⟩
  · have := fieldDeriv_sum ms (fun c y => ‖dotH c.C y - c.T‖ ^ 2) (fun _ => 0) x fun c hc => by
      have h1 : HasFDerivAt (fun y => dotH c.C y - c.T) (dotL c.C) x :=
        ((dotL c.C).hasFDerivAt (x := x)).sub_const c.T
      refine ⟨_, h1.norm_sq, fun v => ?_⟩
      simp [h0 c hc]
    simp only [List.map_const', List.sum_replicate, Pi.zero_apply, smul_zero] at this
    exact this

/-! ### `EmObjective.calculate_gradient` -/

/-- C91: for a real parametrization with derivative `J`, a simulation whose fields solve the wave equation of the
structure and an adjoint simulation which solves the adjoint equation, `calculate_gradient` returns the gradient of the
objective with respect to the parameters, for every objective of the fields whose reported derivative is right. -/
theorem em_gradient {m k : Nat} (omega : ℂ) (hw : omega ≠ 0) (K : Mat3 n) (b eps0 : VField n)
    (S : Matrix (Fin 3 × Fin n) (Fin m) ℂ) (z : (Fin k → ℝ) → Fin m → ℝ) (J : Matrix (Fin m) (Fin k) ℝ) (p : Fin k → ℝ)
    (hz : HasFDerivAt z (LinearMap.toContinuousLinearMap J.mulVecLin) p)
    (fields : (Fin m → ℝ) → VField n)
    (hf : ∀ z', fields z' = (K - omega ^ 2 • Matrix.diagonal (eps0 + S *ᵥ fun j => (z' j : ℂ)))⁻¹ *ᵥ b)
    (hu : IsUnit (K - omega ^ 2 • Matrix.diagonal (eps0 + S *ᵥ fun j => (z p j : ℂ))).det)
    (adjoint : VField n → VField n)
    (hadj : ∀ J, (K - omega ^ 2 • Matrix.diagonal (eps0 + S *ᵥ fun j => (z p j : ℂ)))ᴴ *ᵥ adjoint J =
      (-Complex.I * omega) • J)
    (F : VField n → ℝ) (dfdx : VField n → Option (VField n))
    (hF : IsFieldGradient F (dfdx (fields (z p))) (fields (z p))) :
    ∃ g : Fin k → ℝ,
      calculateGradient omega S adjoint (fields (z p)) (dfdx (fields (z p))) (J.map fun a => (a : ℂ)) =
        some (fun i => (g i : ℂ)) ∧
      ∃ L : (Fin k → ℝ) →L[ℝ] ℝ, HasFDerivAt (fun p' => F (fields (z p'))) L p ∧ ∀ v, L v = ∑ i, g i * v i := by
  obtain ⟨d, hd, L, hL, hLv⟩ := hF
  obtain ⟨L', e1, e2⟩ := em_df_dz_exact omega hw K b eps0 S (z p) fields hf hu adjoint hadj F d L hLv hL
  refine ⟨fun i => ∑ j, J j i * emDfDz omega S adjoint (fields (z p)) d j, ?_, _, e2.comp p hz, fun v => ?_⟩
  · rw [hd, calculateGradient, Option.map_some]
    congr 1
    funext i
    simp only [add_zero, Matrix.mulVec, dotProduct, Matrix.conjTranspose_apply, Matrix.map_apply, star_sum, star_mul',
      star_star]
    push_cast
    rfl
  · rw [ContinuousLinearMap.comp_apply, e1]
    simp only [LinearMap.coe_toContinuousLinearMap', Matrix.mulVecLin_apply, Matrix.mulVec, dotProduct, Finset.mul_sum,
      Finset.sum_mul]
    rw [Finset.sum_comm]
    refine Finset.sum_congr rfl fun i _ => Finset.sum_congr rfl fun j _ => ?_
    ring

/-- One cell whose three components have the permittivity `1 + z`, at `z = 0`: the hypotheses on the two simulations
are met by the exact solutions. -/
example : ∃ (K : Mat3 1) (eps0 : VField 1) (S : Matrix (Fin 3 × Fin 1) (Fin 1) ℂ) (adjoint : VField 1 → VField 1),
    S ≠ 0 ∧ IsUnit (K - (1 : ℂ) ^ 2 • Matrix.diagonal (eps0 + S *ᵥ fun j => ((0 : Fin 1 → ℝ) j : ℂ))).det ∧
    (∀ J, (K - (1 : ℂ) ^ 2 • Matrix.diagonal (eps0 + S *ᵥ fun j => ((0 : Fin 1 → ℝ) j : ℂ)))ᴴ *ᵥ adjoint J =
      (-Complex.I * 1) • J) ∧
    HasFDerivAt (fun p : Fin 1 → ℝ => p) (LinearMap.toContinuousLinearMap (1 : Matrix (Fin 1) (Fin 1) ℝ).mulVecLin) 0 := by
  refine ⟨0, fun _ => 1, fun _ _ => 1, fun J => -((-Complex.I * 1) • J), ?_, ?_, ?_, ?_⟩
  · intro h
    have := congrFun (congrFun h (0, 0)) 0
    norm_num at this
  · have e : ((fun _ => 1 : VField 1) + (fun _ _ => 1 : Matrix (Fin 3 × Fin 1) (Fin 1) ℂ) *ᵥ
        fun j => ((0 : Fin 1 → ℝ) j : ℂ)) = fun _ => 1 := by
      funext p; simp [Matrix.mulVec, dotProduct]
    rw [e, Matrix.diagonal_one]
    simp [Matrix.det_neg]
  · intro J
    have e : ((fun _ => 1 : VField 1) + (fun _ _ => 1 : Matrix (Fin 3 × Fin 1) (Fin 1) ℂ) *ᵥ
        fun j => ((0 : Fin 1 → ℝ) j : ℂ)) = fun _ => 1 := by
      funext p; simp [Matrix.mulVec, dotProduct]
    rw [e, Matrix.diagonal_one]
    simp [Matrix.neg_mulVec]
  · rw [Matrix.mulVecLin_one]
    exact hasFDerivAt_id _

end Verif.Fdfd.OverlapObj
