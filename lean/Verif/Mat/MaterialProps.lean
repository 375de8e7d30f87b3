import Verif.Mat.PchipProps
import Verif.Mat.Material
import Mathlib.Tactic.NormNum
import Mathlib.Tactic.FinCases
set_option linter.unusedVariables false
/-
Property C98: the refractive indices and permittivities of materials.
-/
namespace Verif.Mat
open Complex

/-! ### Specification -/

/-- User data for a material: wavelengths in increasing order, with an index and an extinction each. -/
structure GoodData (wlens n k : List ℝ) : Prop where
  many : 2 ≤ wlens.length
  n_len : n.length = wlens.length
  k_len : k.length = wlens.length
  increasing : ∀ i, i + 1 < wlens.length → wlens.getD i 0 < wlens.getD (i + 1) 0

/-- A table over photon energies in decreasing order. -/
structure GoodTable (e v : List ℝ) : Prop where
  many : 2 ≤ e.length
  len : v.length = e.length
  decreasing : ∀ i, i + 1 < e.length → e.getD (i + 1) 0 < e.getD i 0

/-- `v` lies between `a` and `b`. -/
def Between (a b v : ℝ) : Prop := min a b ≤ v ∧ v ≤ max a b

/-- The tabulated materials with their four lists: energies and values of the index, energies and values of the
extinction coefficient. -/
inductive Tabulated : Medium → List ℚ → List ℚ → List ℚ → List ℚ → Prop
  | sio2 : Tabulated .sio2 sio2En sio2N0 sio2Ek sio2K0
  | si : Tabulated .si siEn siN0 siEk siK0
  | si3n4 : Tabulated .si3n4 sinEV sinN sinEV sinK

/-- The photon energy lies in a table. -/
def InRange (e : List ℝ) (q : ℝ) : Prop := e.getD (e.length - 1) 0 ≤ q ∧ q ≤ e.getD 0 0

/-! ### Lemmas -/

theorem rev_getD (l : List ℝ) (i : Nat) (h : i < l.length) : l.reverse.getD i 0 = l.getD (l.length - 1 - i) 0 :=
  by
  rw [List.getD_eq_getElem _ _ (by simpa using h), List.getD_eq_getElem _ _ (by omega), List.getElem_reverse]

theorem real_getD (l : List ℚ) (i : Nat) : (real l).getD i 0 = ((l.getD i 0 : ℚ) : ℝ) := by
  unfold real
  rw [List.getD_eq_getElem?_getD, List.getElem?_map, List.getD_eq_getElem?_getD]
  cases h : l[i]? with
  | none => simp
  | some v => simp

theorem real_length (l : List ℚ) : (real l).length = l.length := by simp [real]

theorem pchip_some (xs ys : List ℝ) (q : ℝ) (h1 : xs.length = ys.length) (h2 : 2 ≤ xs.length)
    (h3 : ∀ i, i + 1 < xs.length → xs.getD i 0 < xs.getD (i + 1) 0) :
    pchip xs ys q = some (pchipAt xs.length (fun i => xs.getD i 0) (fun i => ys.getD i 0) q) := by
  unfold pchip
  exact if_pos ⟨h1, h2, h3⟩

/-- The interpolant of a table at an energy. -/
noncomputable def tableAt (e v : List ℝ) (q : ℝ) : ℝ :=
  pchipAt e.length (fun i => e.reverse.getD i 0) (fun i => v.reverse.getD i 0) q

theorem rev_increasing {e v : List ℝ} (h : GoodTable e v) : Increasing e.length fun i => e.reverse.getD i 0 := by
  intro i hi
  simp only []
  rw [rev_getD _ _ (by omega), rev_getD _ _ hi]
  have := h.decreasing (e.length - 1 - (i + 1)) (by omega)
  rw [show e.length - 1 - (i + 1) + 1 = e.length - 1 - i by omega] at this
  exact this

theorem pchip_table {e v : List ℝ} (h : GoodTable e v) (q : ℝ) : pchip e.reverse v.reverse q = some (tableAt e v q) := by
  rw [pchip_some _ _ _ (by simp [h.len]) (by simp [h.many])]
  · rw [List.length_reverse]; rfl
  · intro i hi
    rw [List.length_reverse] at hi
    exact rev_increasing h i hi

theorem rev_at {e v : List ℝ} (h : GoodTable e v) (i : Nat) (hi : i < e.length) :
    e.reverse.getD (e.length - 1 - i) 0 = e.getD i 0 ∧ v.reverse.getD (e.length - 1 - i) 0 = v.getD i 0 := by
  rw [rev_getD _ _ (by omega), rev_getD _ _ (by rw [h.len]; omega), h.len]
  have : e.length - 1 - (e.length - 1 - i) = i := by omega
  rw [this]
  exact ⟨rfl, rfl⟩

theorem table_sample {e v : List ℝ} (h : GoodTable e v) (i : Nat) (hi : i < e.length) :
    tableAt e v (e.getD i 0) = v.getD i 0 := by
  have := pchipAt_sample e.length (fun i => e.reverse.getD i 0) (fun i => v.reverse.getD i 0) (rev_increasing h) h.many
    (e.length - 1 - i) (by omega)
  simp only [(rev_at h i hi).1, (rev_at h i hi).2] at this
  exact this

theorem table_between {e v : List ℝ} (h : GoodTable e v) (i : Nat) (hi : i + 1 < e.length) (q : ℝ)
    (h1 : e.getD (i + 1) 0 ≤ q) (h2 : q ≤ e.getD i 0) : Between (v.getD i 0) (v.getD (i + 1) 0) (tableAt e v q) := by
  have s : e.length - 1 - (i + 1) + 1 = e.length - 1 - i := by omega
  have := pchipAt_between e.length (fun i => e.reverse.getD i 0) (fun i => v.reverse.getD i 0) (rev_increasing h)
    (e.length - 1 - (i + 1)) (by omega) q (by rw [(rev_at h (i + 1) hi).1]; exact h1)
    (by rw [s, (rev_at h i (by omega)).1]; exact h2)
  rw [s, (rev_at h (i + 1) hi).2, (rev_at h i (by omega)).2] at this
  rw [Between, min_comm, max_comm]
  exact this

theorem table_monotone {e v : List ℝ} (h : GoodTable e v) (i : Nat) (hi : i + 1 < e.length) (q r : ℝ)
    (h1 : e.getD (i + 1) 0 ≤ q) (hqr : q ≤ r) (h2 : r ≤ e.getD i 0) :
    (v.getD (i + 1) 0 ≤ v.getD i 0 → tableAt e v q ≤ tableAt e v r) ∧
    (v.getD i 0 ≤ v.getD (i + 1) 0 → tableAt e v r ≤ tableAt e v q) := by
  have s : e.length - 1 - (i + 1) + 1 = e.length - 1 - i := by omega
  have := pchipAt_monotone e.length (fun i => e.reverse.getD i 0) (fun i => v.reverse.getD i 0) (rev_increasing h)
    (e.length - 1 - (i + 1)) (by omega) q r (by rw [(rev_at h (i + 1) hi).1]; exact h1) hqr
    (by rw [s, (rev_at h i (by omega)).1]; exact h2)
  rw [s, (rev_at h (i + 1) hi).2, (rev_at h i (by omega)).2] at this
  exact this

/-- A point between the first and the last sample lies between two neighbours. -/
theorem exists_gap (n : Nat) (x : Nat → ℝ) (hn : 2 ≤ n) (q : ℝ) (h1 : x 0 ≤ q) (h2 : q ≤ x (n - 1)) :
    ∃ i, i + 1 < n ∧ x i ≤ q ∧ q ≤ x (i + 1) := by
  by_contra hc
  push Not at hc
  have : ∀ i, i + 1 ≤ n - 1 + 1 → i < n - 1 → x (i + 1) < q ∨ x (i + 1) ≤ q := by
    intro i _ hi
    induction i with
    | zero => exact Or.inl (hc 0 (by omega) h1)
    | succ i ih => exact Or.inl (hc (i + 1) (by omega) (by rcases ih (by omega) (by omega) with h | h <;> linarith))
  have h3 := hc (n - 2) (by omega) (by
    by_cases h : n = 2
    · subst h; exact h1
    · have := this (n - 3) (by omega) (by omega)
      rw [show n - 3 + 1 = n - 2 by omega] at this
      rcases this with h | h <;> linarith)
  rw [show n - 2 + 1 = n - 1 by omega] at h3
  linarith

theorem table_gap {e v : List ℝ} (h : GoodTable e v) (q : ℝ) (hq : InRange e q) :
    ∃ i, i + 1 < e.length ∧ e.getD (i + 1) 0 ≤ q ∧ q ≤ e.getD i 0 := by
  have hm := h.many
  obtain ⟨j, hj, a, b⟩ := exists_gap e.length (fun i => e.reverse.getD i 0) hm q
    (by rw [rev_getD _ _ (by omega), Nat.sub_zero]; exact hq.1)
    (by rw [rev_getD _ _ (by omega), Nat.sub_self]; exact hq.2)
  rw [rev_getD _ _ (by omega)] at a
  rw [rev_getD _ _ hj] at b
  refine ⟨e.length - 1 - (j + 1), by omega, ?_, b⟩
  rw [show e.length - 1 - (j + 1) + 1 = e.length - 1 - j by omega]
  exact a

theorem table_bound {e v : List ℝ} (h : GoodTable e v) (q : ℝ) (hq : InRange e q) (lo : ℝ)
    (hlo : ∀ i, i < v.length → lo ≤ v.getD i 0) : lo ≤ tableAt e v q := by
  obtain ⟨i, hi, a, b⟩ := table_gap h q hq
  have := (table_between h i hi q a b).1
  refine le_trans (le_min ?_ ?_) this
  · exact hlo i (by rw [h.len]; omega)
  · exact hlo (i + 1) (by rw [h.len]; omega)

/-- A decidable check that a list falls. -/
def falls : List ℚ → Bool
  | a :: b :: l => decide (b < a) && falls (b :: l)
  | _ => true

theorem falls_spec (l : List ℚ) (h : falls l = true) (i : Nat) (hi : i + 1 < l.length) : l.getD (i + 1) 0 < l.getD i 0 := by
  induction l generalizing i with
  | nil => simp at hi
  | cons a l ih =>
    cases l with
    | nil => simp at hi
    | cons b l =>
      simp only [falls, Bool.and_eq_true, decide_eq_true_eq] at h
      cases i with
      | zero => simpa using h.1
      | succ i =>
        have := ih h.2 i (by simpa using hi)
        simpa using this

theorem good_table (e v : List ℚ) (h1 : falls e = true) (h2 : v.length = e.length) (h3 : 2 ≤ e.length) :
    GoodTable (real e) (real v) where
  many := by rw [real_length]; exact h3
  len := by rw [real_length, real_length]; exact h2
  decreasing := by
    intro i hi
    rw [real_length] at hi
    rw [real_getD, real_getD]
    exact_mod_cast falls_spec e h1 i hi

theorem all_getD (l : List ℚ) (p : ℚ → Bool) (h : l.all p = true) (i : Nat) (hi : i < l.length) : p (l.getD i 0) = true := by
  rw [List.getD_eq_getElem _ _ hi]
  exact List.all_eq_true.1 h _ (List.getElem_mem hi)

theorem tables_good (m : Medium) (en n ek k : List ℚ) (h : Tabulated m en n ek k) :
    GoodTable (real en) (real n) ∧ GoodTable (real ek) (real k) ∧
    (∀ i, i < n.length → 0 < n.getD i 0) ∧ ∀ i, i < k.length → 0 ≤ k.getD i 0 := by
  have mkp : (falls en && falls ek && decide (n.length = en.length) && decide (k.length = ek.length) &&
      decide (2 ≤ en.length) && decide (2 ≤ ek.length) && n.all (fun q => decide (0 < q)) &&
      k.all (fun q => decide (0 ≤ q))) = true := by
    cases h <;> decide +kernel
  simp only [Bool.and_eq_true, decide_eq_true_eq] at mkp
  obtain ⟨⟨⟨⟨⟨⟨⟨a1, a2⟩, a3⟩, a4⟩, a5⟩, a6⟩, a7⟩, a8⟩ := mkp
  exact ⟨good_table en n a1 a3 a5, good_table ek k a2 a4 a6,
    fun i hi => of_decide_eq_true (all_getD n _ a7 i hi), fun i hi => of_decide_eq_true (all_getD k _ a8 i hi)⟩

theorem tabulated_index (m : Medium) (en n ek k : List ℚ) (h : Tabulated m en n ek k) (wl : ℝ) :
    refractiveIndex m wl = some (tableAt (real en) (real n) (photonEnergy wl), tableAt (real ek) (real k) (photonEnergy wl)) := by
  obtain ⟨h1, h2, _, _⟩ := tables_good m en n ek k h
  have : refractiveIndex m wl = interpEnergy wl (real n) (real k) (real en) (real ek) := by cases h <;> rfl
  rw [this]
  unfold interpEnergy
  rw [pchip_table h1, pchip_table h2]
  rfl

theorem custom_index {wlens n k : List ℝ} (h : GoodData wlens n k) (wl : ℝ) :
    refractiveIndex (.custom wlens n k) wl = some
      (pchipAt wlens.length (fun i => wlens.getD i 0) (fun i => n.getD i 0) wl,
       pchipAt wlens.length (fun i => wlens.getD i 0) (fun i => k.getD i 0) wl) := by
  show interpWavelengths wl wlens n k = _
  unfold interpWavelengths
  rw [pchip_some _ _ _ h.n_len.symm h.many h.increasing, pchip_some _ _ _ h.k_len.symm h.many h.increasing]
  rfl

/-! ### C98: materials given by data -/

/-- At a wavelength of the data the material has the index and the extinction of the data. -/
theorem custom_samples {wlens n k : List ℝ} (h : GoodData wlens n k) (i : Nat) (hi : i < wlens.length) :
    refractiveIndex (.custom wlens n k) (wlens.getD i 0) = some (n.getD i 0, k.getD i 0) := by
  rw [custom_index h]
  have e1 := pchipAt_sample wlens.length (fun i => wlens.getD i 0) (fun i => n.getD i 0) h.increasing h.many i hi
  have e2 := pchipAt_sample wlens.length (fun i => wlens.getD i 0) (fun i => k.getD i 0) h.increasing h.many i hi
  rw [e1, e2]

/-- Between two neighbouring wavelengths of the data, index and extinction lie between their values there: the
interpolation does not overshoot. -/
theorem custom_between {wlens n k : List ℝ} (h : GoodData wlens n k) (i : Nat) (hi : i + 1 < wlens.length) (wl : ℝ)
    (h1 : wlens.getD i 0 ≤ wl) (h2 : wl ≤ wlens.getD (i + 1) 0) :
    ∃ a b, refractiveIndex (.custom wlens n k) wl = some (a, b) ∧
      Between (n.getD i 0) (n.getD (i + 1) 0) a ∧ Between (k.getD i 0) (k.getD (i + 1) 0) b :=
  ⟨_, _, custom_index h wl, pchipAt_between wlens.length _ (fun i => n.getD i 0) h.increasing i hi wl h1 h2,
    pchipAt_between wlens.length _ (fun i => k.getD i 0) h.increasing i hi wl h1 h2⟩

/-- ... and run monotonically from one to the other. -/
theorem custom_monotone {wlens n k : List ℝ} (h : GoodData wlens n k) (i : Nat) (hi : i + 1 < wlens.length) (v w : ℝ)
    (h1 : wlens.getD i 0 ≤ v) (hvw : v ≤ w) (h2 : w ≤ wlens.getD (i + 1) 0) :
    ∃ a b a' b', refractiveIndex (.custom wlens n k) v = some (a, b) ∧
      refractiveIndex (.custom wlens n k) w = some (a', b') ∧
      (n.getD i 0 ≤ n.getD (i + 1) 0 → a ≤ a') ∧ (n.getD (i + 1) 0 ≤ n.getD i 0 → a' ≤ a) ∧
      (k.getD i 0 ≤ k.getD (i + 1) 0 → b ≤ b') ∧ (k.getD (i + 1) 0 ≤ k.getD i 0 → b' ≤ b) := by
  have e1 := pchipAt_monotone wlens.length _ (fun i => n.getD i 0) h.increasing i hi v w h1 hvw h2
  have e2 := pchipAt_monotone wlens.length _ (fun i => k.getD i 0) h.increasing i hi v w h1 hvw h2
  exact ⟨_, _, _, _, custom_index h v, custom_index h w, e1.1, e1.2, e2.1, e2.2⟩

/-- A material whose data have a positive index and no gain has no gain at any wavelength the data cover. -/
theorem custom_passive {wlens n k : List ℝ} (h : GoodData wlens n k) (hn : ∀ i, i < n.length → 0 < n.getD i 0)
    (hk : ∀ i, i < k.length → 0 ≤ k.getD i 0) (wl : ℝ) (h1 : wlens.getD 0 0 ≤ wl)
    (h2 : wl ≤ wlens.getD (wlens.length - 1) 0) :
    ∃ a b, refractiveIndex (.custom wlens n k) wl = some (a, b) ∧ 0 < a ∧ 0 ≤ b := by
  obtain ⟨i, hi, l, r⟩ := exists_gap wlens.length (fun i => wlens.getD i 0) h.many wl h1 h2
  obtain ⟨a, b, e, ba, bb⟩ := custom_between h i hi wl l r
  refine ⟨a, b, e, lt_of_lt_of_le (lt_min ?_ ?_) ba.1, le_trans (le_min ?_ ?_) bb.1⟩
  · exact hn i (by rw [h.n_len]; omega)
  · exact hn (i + 1) (by rw [h.n_len]; omega)
  · exact hk i (by rw [h.k_len]; omega)
  · exact hk (i + 1) (by rw [h.k_len]; omega)

/-- Data that are not in strictly increasing order of wavelength, or lists of different lengths, are rejected. -/
theorem custom_rejected (wlens n k : List ℝ) (wl : ℝ) :
    (refractiveIndex (.custom wlens n k) wl).isSome ↔ GoodData wlens n k := by
  constructor
  · intro hs
    change (interpWavelengths wl wlens n k).isSome = true at hs
    unfold interpWavelengths at hs
    by_cases hn : (wlens.length = n.length ∧ 2 ≤ wlens.length ∧
        (∀ i, i + 1 < wlens.length → wlens.getD i 0 < wlens.getD (i + 1) 0))
    · by_cases hk : wlens.length = k.length
      · exact ⟨hn.2.1, hn.1.symm, hk.symm, hn.2.2⟩
      · have : pchip wlens k wl = none := by unfold pchip; exact if_neg (fun e => hk e.1)
        rw [this] at hs
        cases h : pchip wlens n wl <;> simp [h] at hs
    · have : pchip wlens n wl = none := by unfold pchip; exact if_neg hn
      simp [this] at hs
  · intro h
    rw [custom_index h]; rfl

theorem goodData_example : GoodData [400, 500, 700] [2, 3, 2.5] [0.1, 0, 0] where
  many := by simp
  n_len := rfl
  k_len := rfl
  increasing := by
    intro i hi
    simp only [List.length_cons, List.length_nil] at hi
    have : i = 0 ∨ i = 1 := by omega
    rcases this with rfl | rfl <;> norm_num

/-- ... so the index at 600 nm is between 2.5 and 3 and there is no loss. -/
example : ∃ a b, refractiveIndex (.custom [400, 500, 700] [2, 3, 2.5] [0.1, 0, 0]) 600 = some (a, b) ∧
    2.5 ≤ a ∧ a ≤ 3 ∧ b = 0 := by
  obtain ⟨a, b, e, h1, h2⟩ := custom_between goodData_example 1 (by simp) 600 (by norm_num) (by norm_num)
  simp [Between] at h1 h2
  norm_num at h1
  refine ⟨a, b, e, ?_, ?_, ?_⟩
  · norm_num; rcases h1.1 with h | h <;> linarith
  · rcases h1.2 with h | h <;> linarith
  · linarith [h2.1, h2.2]

/-! ### C98: permittivities -/

/-- The permittivity is the square of `n - i k`: its real part is what `eps_real` returns, and without gain its
imaginary part is not positive, which is the sign of absorption under the convention of the solver. -/
theorem permittivity_passive (m : Medium) (wl a b : ℝ) (h : refractiveIndex m wl = some (a, b)) (ha : 0 ≤ a) (hb : 0 ≤ b) :
    ∃ z, eps m wl = some z ∧ epsReal m wl = some z.re ∧ z.re = a ^ 2 - b ^ 2 ∧ z.im = -(2 * a * b) ∧ z.im ≤ 0 := by
  refine ⟨((a : ℂ) - I * b) ^ 2, by rw [eps, h]; rfl, ?_, ?_, ?_, ?_⟩
  · rw [epsReal, h]; simp [pow_two]
  · simp [pow_two]
  · simp [pow_two]; ring
  · simp [pow_two]; nlinarith [mul_nonneg ha hb]

/-- Air is vacuum. -/
theorem air_vacuum (wl : ℝ) : refractiveIndex .air wl = some (1, 0) ∧ eps .air wl = some 1 := by
  refine ⟨rfl, ?_⟩
  simp [eps, refractiveIndex]

/-! ### C98: tabulated materials -/

/-- At an energy of the table the material has the value of the table. -/
theorem tabulated_samples (m : Medium) (en n ek k : List ℚ) (h : Tabulated m en n ek k) (wl : ℝ) :
    ∃ a b, refractiveIndex m wl = some (a, b) ∧
      (∀ i, i < en.length → photonEnergy wl = (en.getD i 0 : ℚ) → a = (n.getD i 0 : ℚ)) ∧
      (∀ i, i < ek.length → photonEnergy wl = (ek.getD i 0 : ℚ) → b = (k.getD i 0 : ℚ)) := by
  obtain ⟨h1, h2, _, _⟩ := tables_good m en n ek k h
  refine ⟨_, _, tabulated_index m en n ek k h wl, fun i hi e => ?_, fun i hi e => ?_⟩
  · rw [e, ← real_getD, ← real_getD]
    exact table_sample h1 i (by rw [real_length]; exact hi)
  · rw [e, ← real_getD, ← real_getD]
    exact table_sample h2 i (by rw [real_length]; exact hi)

/-- Between two neighbouring energies of the table the value lies between the two values of the table. -/
theorem tabulated_between (m : Medium) (en n ek k : List ℚ) (h : Tabulated m en n ek k) (wl : ℝ) :
    ∃ a b, refractiveIndex m wl = some (a, b) ∧
      (∀ i, i + 1 < en.length → (en.getD (i + 1) 0 : ℚ) ≤ photonEnergy wl → photonEnergy wl ≤ (en.getD i 0 : ℚ) →
        Between (n.getD i 0 : ℚ) (n.getD (i + 1) 0 : ℚ) a) ∧
      (∀ i, i + 1 < ek.length → (ek.getD (i + 1) 0 : ℚ) ≤ photonEnergy wl → photonEnergy wl ≤ (ek.getD i 0 : ℚ) →
        Between (k.getD i 0 : ℚ) (k.getD (i + 1) 0 : ℚ) b) := by
  obtain ⟨h1, h2, _, _⟩ := tables_good m en n ek k h
  refine ⟨_, _, tabulated_index m en n ek k h wl, fun i hi e f => ?_, fun i hi e f => ?_⟩
  · rw [← real_getD] at e f ⊢
    rw [← real_getD]
    exact table_between h1 i (by rw [real_length]; exact hi) _ e f
  · rw [← real_getD] at e f ⊢
    rw [← real_getD]
    exact table_between h2 i (by rw [real_length]; exact hi) _ e f

/-- Within its tables a material has a positive index and no gain. -/
theorem tabulated_passive (m : Medium) (en n ek k : List ℚ) (h : Tabulated m en n ek k) (wl : ℝ)
    (hn : InRange (real en) (photonEnergy wl)) (hk : InRange (real ek) (photonEnergy wl)) :
    ∃ a b, refractiveIndex m wl = some (a, b) ∧ 0 < a ∧ 0 ≤ b := by
  obtain ⟨h1, h2, p1, p2⟩ := tables_good m en n ek k h
  refine ⟨_, _, tabulated_index m en n ek k h wl, ?_, ?_⟩
  · obtain ⟨i, hi, a, b⟩ := table_gap h1 _ hn
    refine lt_of_lt_of_le (lt_min ?_ ?_) (table_between h1 i hi _ a b).1
    · rw [real_getD]; rw [real_length] at hi
      exact_mod_cast p1 i (by have := h1.len; rw [real_length, real_length] at this; omega)
    · rw [real_getD]; rw [real_length] at hi
      exact_mod_cast p1 (i + 1) (by have := h1.len; rw [real_length, real_length] at this; omega)
  · refine table_bound h2 _ hk 0 fun i hi => ?_
    rw [real_getD]; rw [real_length] at hi
    exact_mod_cast p2 i hi

theorem energy_of_wavelength (wl : ℝ) (h : 0 < wl) : photonEnergy wl = 1239.841930092394328 / wl := by
  unfold photonEnergy
  rw [div_eq_div_iff (by positivity) h.ne']
  norm_num
  ring

/-- The wavelengths the tables cover, in nanometres: from 0.63 nm to 249 um for silica and silicon, from 52 nm to
1239 nm for silicon nitride. -/
theorem range_of_wavelength (wl : ℝ) (h0 : 0 < wl) :
    (0.63 ≤ wl → wl ≤ 249000 → InRange (real sio2En) (photonEnergy wl) ∧ InRange (real sio2Ek) (photonEnergy wl) ∧
      InRange (real siEn) (photonEnergy wl) ∧ InRange (real siEk) (photonEnergy wl)) ∧
    (52 ≤ wl → wl ≤ 1239 → InRange (real sinEV) (photonEnergy wl)) := by
  have lens : sio2En.length = 538 ∧ sio2Ek.length = 451 ∧ siEn.length = 287 ∧ siEk.length = 348 ∧ sinEV.length = 42 := by
    decide +kernel
  have ends : (sio2En.getD 537 0 ≤ 0.004959 ∧ 2000 ≤ sio2En.getD 0 0) ∧
      (sio2Ek.getD 450 0 ≤ 0.004959 ∧ 2000 ≤ sio2Ek.getD 0 0) ∧
      (siEn.getD 286 0 ≤ 0.004959 ∧ 2000 ≤ siEn.getD 0 0) ∧
      (siEk.getD 347 0 ≤ 0.004959 ∧ 2000 ≤ siEk.getD 0 0) ∧
      (sinEV.getD 41 0 ≤ 1 ∧ 24 ≤ sinEV.getD 0 0) := by
    decide +kernel
  obtain ⟨l1, l2, l3, l4, l5⟩ := lens
  obtain ⟨e1, e2, e3, e4, e5⟩ := ends
  rw [energy_of_wavelength wl h0]
  have key : ∀ (e : List ℚ) (lo hi : ℚ) (m : Nat), e.length = m + 1 → e.getD m 0 ≤ lo → hi ≤ e.getD 0 0 → ∀ q : ℝ,
      (lo : ℝ) ≤ q → q ≤ hi → InRange (real e) q := by
    intro e lo hi m hl h1 h2 q q1 q2
    unfold InRange
    rw [real_getD, real_getD, real_length, hl, Nat.add_sub_cancel]
    exact ⟨le_trans (by exact_mod_cast h1) q1, le_trans q2 (by exact_mod_cast h2)⟩
  constructor
  · intro a b
    have q1 : ((0.004959 : ℚ) : ℝ) ≤ 1239.841930092394328 / wl := by
      rw [le_div_iff₀ h0]; push_cast; norm_num; linarith
    have q2 : 1239.841930092394328 / wl ≤ ((2000 : ℚ) : ℝ) := by
      rw [div_le_iff₀ h0]; push_cast; norm_num; linarith
    exact ⟨key _ _ _ 537 l1 e1.1 e1.2 _ q1 q2, key _ _ _ 450 l2 e2.1 e2.2 _ q1 q2, key _ _ _ 286 l3 e3.1 e3.2 _ q1 q2,
      key _ _ _ 347 l4 e4.1 e4.2 _ q1 q2⟩
  · intro a b
    have q1 : ((1 : ℚ) : ℝ) ≤ 1239.841930092394328 / wl := by
      rw [le_div_iff₀ h0]; push_cast; norm_num; linarith
    have q2 : 1239.841930092394328 / wl ≤ ((24 : ℚ) : ℝ) := by
      rw [div_le_iff₀ h0]; push_cast; norm_num; linarith
    exact key _ _ _ 41 l5 e5.1 e5.2 _ q1 q2

/-- Silica and silicon at every wavelength from 0.63 nm to 249 um, and silicon nitride from 52 nm to 1239 nm, have
a positive index, no gain, and a permittivity whose imaginary part is not positive. -/
theorem named_passive (wl : ℝ) :
    (∀ m, m = Medium.sio2 ∨ m = Medium.si → 0.63 ≤ wl → wl ≤ 249000 →
      ∃ n k z, refractiveIndex m wl = some (n, k) ∧ 0 < n ∧ 0 ≤ k ∧ eps m wl = some z ∧ z.im ≤ 0) ∧
    (52 ≤ wl → wl ≤ 1239 →
      ∃ n k z, refractiveIndex .si3n4 wl = some (n, k) ∧ 0 < n ∧ 0 ≤ k ∧ eps .si3n4 wl = some z ∧ z.im ≤ 0) := by
  have fin : ∀ m, (∃ a b, refractiveIndex m wl = some (a, b) ∧ 0 < a ∧ 0 ≤ b) →
      ∃ n k z, refractiveIndex m wl = some (n, k) ∧ 0 < n ∧ 0 ≤ k ∧ eps m wl = some z ∧ z.im ≤ 0 := by
    rintro m ⟨a, b, e, ha, hb⟩
    obtain ⟨z, h1, _, _, _, h2⟩ := permittivity_passive m wl a b e ha.le hb
    exact ⟨a, b, z, e, ha, hb, h1, h2⟩
  constructor
  · rintro m (rfl | rfl) h1 h2
    · have r := (range_of_wavelength wl (by linarith)).1 h1 h2
      exact fin _ (tabulated_passive _ _ _ _ _ .sio2 wl r.1 r.2.1)
    · have r := (range_of_wavelength wl (by linarith)).1 h1 h2
      exact fin _ (tabulated_passive _ _ _ _ _ .si wl r.2.2.1 r.2.2.2)
  · intro h1 h2
    have r := (range_of_wavelength wl (by linarith)).2 h1 h2
    exact fin _ (tabulated_passive _ _ _ _ _ .si3n4 wl r r)

end Verif.Mat
