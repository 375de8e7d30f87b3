import Verif.Fdfd.PhcMode
import Verif.Fdfd.ShiftProps
import Verif.Fdfd.CurlProps
import Verif.Fdfd.PoyntingProps
import Verif.Fdfd.Symm
import Mathlib.Tactic.FieldSimp
import Mathlib.Analysis.SpecialFunctions.Pow.Real
import Mathlib.Analysis.SpecialFunctions.Pow.NNReal
/-
Lemmas: the curls with Bloch vectors are adjoint; consequences for eigenvectors.
-/
namespace Verif.Fdfd
open Matrix
set_option linter.unusedSectionVars false
variable {sh : Shape}

theorem conj_real {z : ℂ} (h : z.im = 0) : star z = z := Complex.conj_eq_iff_im.2 h

/-- Adjointness of the curls from adjointness of the derivatives. -/
theorem cross_adjoint {n : Nat} (Bf Bb : Fin 3 → Mat n) (gE gH : Fin 3 × Fin n → ℂ)
    (h : ∀ a b x : Fin 3, a ≠ b → a ≠ x → b ≠ x → ∀ i j, gE (a, i) * Bb x i j = -(star (Bf x j i) * gH (b, j))) :
    Matrix.diagonal gE * cross Bb = (cross Bf)ᴴ * Matrix.diagonal gH := by
  ext ⟨a, i⟩ ⟨b, j⟩
  rw [Matrix.diagonal_mul, Matrix.mul_diagonal, Matrix.conjTranspose_apply]
  have B := fun a b x h1 h2 h3 => h a b x h1 h2 h3 i j
  match a, b with
  | 0, 0 =>
    show gE _ * (0 : ℂ) = star (0 : ℂ) * _
    rw [mul_zero, star_zero, zero_mul]
  | 1, 1 =>
    show gE _ * (0 : ℂ) = star (0 : ℂ) * _
    rw [mul_zero, star_zero, zero_mul]
  | 2, 2 =>
    show gE _ * (0 : ℂ) = star (0 : ℂ) * _
    rw [mul_zero, star_zero, zero_mul]
  | 0, 1 =>
    have := B 0 1 2 (by decide) (by decide) (by decide)
    show gE _ * (-(Bb 2 i j)) = star (Bf 2 j i) * gH _
    linear_combination -this
  | 0, 2 =>
    have := B 0 2 1 (by decide) (by decide) (by decide)
    show gE _ * (Bb 1 i j) = star (-(Bf 1 j i)) * gH _
    rw [star_neg]
    linear_combination this
  | 1, 0 =>
    have := B 1 0 2 (by decide) (by decide) (by decide)
    show gE _ * (Bb 2 i j) = star (-(Bf 2 j i)) * gH _
    rw [star_neg]
    linear_combination this
  | 1, 2 =>
    have := B 1 2 0 (by decide) (by decide) (by decide)
    show gE _ * (-(Bb 0 i j)) = star (Bf 0 j i) * gH _
    linear_combination -this
  | 2, 0 =>
    have := B 2 0 1 (by decide) (by decide) (by decide)
    show gE _ * (-(Bb 1 i j)) = star (Bf 1 j i) * gH _
    linear_combination -this
  | 2, 1 =>
    have := B 2 1 0 (by decide) (by decide) (by decide)
    show gE _ * (Bb 0 i j) = star (-(Bf 0 j i)) * gH _
    rw [star_neg]
    linear_combination this

/-- All widths are real and positive. -/
def PositiveWidths (sh : Shape) (d : Dxes) : Prop :=
  ∀ a i, i < sh a → (d.e a i).im = 0 ∧ 0 < (d.e a i).re ∧ (d.h a i).im = 0 ∧ 0 < (d.h a i).re

theorem PositiveWidths.ne {d : Dxes} (h : PositiveWidths sh d) (a : Fin 3) (i : Nat) (hi : i < sh a) :
    d.e a i ≠ 0 ∧ d.h a i ≠ 0 := by
  obtain ⟨_, h2, _, h4⟩ := h a i hi
  constructor
  · intro e; rw [e] at h2; exact lt_irrefl _ h2
  · intro e; rw [e] at h4; exact lt_irrefl _ h4

/-- The volume around the sample of component `a` of the electric field in the cell `c`. -/
noncomputable def volE (d : Dxes) (a : Fin 3) (c : Cell sh) : ℝ :=
  ∏ b, if b = a then (d.e b (c b)).re else (d.h b (c b)).re

/-- The volume around the sample of component `a` of the magnetic field in the cell `c`. -/
noncomputable def volH (d : Dxes) (a : Fin 3) (c : Cell sh) : ℝ :=
  ∏ b, if b = a then (d.h b (c b)).re else (d.e b (c b)).re

theorem volE_pos {d : Dxes} (h : PositiveWidths sh d) (a : Fin 3) (c : Cell sh) : 0 < volE d a c := by
  apply Finset.prod_pos
  intro b _
  obtain ⟨_, h2, _, h4⟩ := h b (c b) (c b).isLt
  split
  · exact h2
  · exact h4

theorem volH_pos {d : Dxes} (h : PositiveWidths sh d) (a : Fin 3) (c : Cell sh) : 0 < volH d a c := by
  apply Finset.prod_pos
  intro b _
  obtain ⟨_, h2, _, h4⟩ := h b (c b) (c b).isLt
  split
  · exact h4
  · exact h2

noncomputable def vecE (d : Dxes) : Fin 3 × Fin sh.size → ℂ := fun p => (volE d p.1 (cellAt p.2) : ℂ)
noncomputable def vecH (d : Dxes) : Fin 3 × Fin sh.size → ℂ := fun p => (volH d p.1 (cellAt p.2) : ℂ)

theorem prod3 {M : Type} [CommMonoid M] (a b x : Fin 3) (hab : a ≠ b) (hax : a ≠ x) (hbx : b ≠ x) (f : Fin 3 → M) :
    ∏ y, f y = f a * (f b * f x) := by
  have huniv : (Finset.univ : Finset (Fin 3)) = {a, b, x} := by
    revert a b x; decide
  rw [huniv, Finset.prod_insert (by simp [hab, hax]), Finset.prod_insert (by simp [hbx]),
    Finset.prod_singleton]

theorem ofReal_re_of {z : ℂ} (h : z.im = 0) : ((z.re : ℝ) : ℂ) = z := by
  apply Complex.ext
  · rfl
  · rw [Complex.ofReal_im, h]

/-- The shift down is the conjugate transpose of the shift up. -/
theorem shiftM_conj (a : Fin 3) (p : ℂ) (hp : p.im = 0) : shiftM sh a (-1) p = (shiftM sh a 1 p)ᴴ :=
  rotation_conjTranspose a 1 (fun _ => p) 0 (fun _ => hp) _ _ (rotation_zero a 1 _) (rotation_zero a (-1) _)

/-- One block of the adjointness for Bloch phases, without orthogonal shifts. -/
theorem bloch_block (d : Dxes) (hd : PositiveWidths sh d) (p : ℂ) (hp : p.im = 0) (a b x : Fin 3) (hab : a ≠ b)
    (hax : a ≠ x) (hbx : b ≠ x) (i j : Fin sh.size) :
    vecE d (a, i) * derivM sh (fun i => -1 / d.h x i) x (-1) p i j =
      -(star (derivM sh (fun i => 1 / d.e x i) x 1 p j i) * vecH d (b, j)) := by
  obtain ⟨c, rfl⟩ : ∃ c, i = pos c := ⟨cellAt i, (pos_cellAt i).symm⟩
  obtain ⟨c', rfl⟩ : ∃ c, j = pos c := ⟨cellAt j, (pos_cellAt j).symm⟩
  set g : Cell sh → ℂ := fun c => d.e a (c a) * d.h b (c b) with hg
  have key : cdiag g * (shiftM sh x (-1) p - 1) = (shiftM sh x (-1) p - 1) * cdiag g := by
    rw [mul_sub, sub_mul, mul_one, one_mul, cdiag_shiftM]
    intro c
    rw [hg]
    simp only [moveCell_ne c x a (-1) hax, moveCell_ne c x b (-1) hbx]
  have hE : ∀ c : Cell sh, (volE d a c : ℂ) = d.e a (c a) * d.h b (c b) * d.h x (c x) := by
    intro c
    obtain ⟨h1, _, _, _⟩ := hd a (c a) (c a).isLt
    obtain ⟨_, _, h2, _⟩ := hd b (c b) (c b).isLt
    obtain ⟨_, _, h3, _⟩ := hd x (c x) (c x).isLt
    rw [volE, prod3 a b x hab hax hbx, if_pos rfl, if_neg (Ne.symm hab), if_neg (Ne.symm hax)]
    push_cast
    rw [ofReal_re_of h1, ofReal_re_of h2, ofReal_re_of h3]; ring
  have hH : ∀ c : Cell sh, (volH d b c : ℂ) = d.e a (c a) * d.h b (c b) * d.e x (c x) := by
    intro c
    obtain ⟨h1, _, _, _⟩ := hd a (c a) (c a).isLt
    obtain ⟨_, _, h2, _⟩ := hd b (c b) (c b).isLt
    obtain ⟨h3, _, _, _⟩ := hd x (c x) (c x).isLt
    rw [volH, prod3 a b x hab hax hbx, if_neg hab, if_pos rfl, if_neg (Ne.symm hbx)]
    push_cast
    rw [ofReal_re_of h1, ofReal_re_of h2, ofReal_re_of h3]; ring
  have hx := (hd.ne x (c x) (c x).isLt).2
  have hx' := (hd.ne x (c' x) (c' x).isLt).1
  have hx'' : star (d.e x (c' x)) = d.e x (c' x) := conj_real (hd x (c' x) (c' x).isLt).1
  have e1 : derivM sh (fun i => -1 / d.h x i) x (-1) p (pos c) (pos c') =
      (-1 / d.h x (c x)) * (shiftM sh x (-1) p - 1) (pos c) (pos c') := by
    rw [derivM, cdiag, Matrix.diagonal_mul, cellAt_pos]
  have e2 : star (derivM sh (fun i => 1 / d.e x i) x 1 p (pos c') (pos c)) =
      (1 / d.e x (c' x)) * (shiftM sh x (-1) p - 1) (pos c) (pos c') := by
    rw [derivM, cdiag, Matrix.diagonal_mul, cellAt_pos, star_mul', star_div₀, star_one, hx'',
      shiftM_conj x p hp, Matrix.sub_apply, Matrix.sub_apply, star_sub, Matrix.conjTranspose_apply]
    congr 2
    rw [Matrix.one_apply, Matrix.one_apply]
    by_cases h : c' = c
    · rw [h]; simp
    · rw [if_neg (fun e => h (pos_inj.1 e)), if_neg (fun e => h (pos_inj.1 e).symm), star_zero]
  have e3 : g c * (shiftM sh x (-1) p - 1) (pos c) (pos c') =
      (shiftM sh x (-1) p - 1) (pos c) (pos c') * g c' := by
    have := congrFun (congrFun key (pos c)) (pos c')
    rw [cdiag, Matrix.diagonal_mul, Matrix.mul_diagonal, cellAt_pos, cellAt_pos] at this
    exact this
  rw [e1, e2, vecE, vecH]
  simp only [cellAt_pos]
  rw [hE, hH]
  rw [hg] at e3
  field_simp
  linear_combination -e3

/-- Both grids have the same length along each axis. -/
def SameLength (sh : Shape) (d : Dxes) : Prop := ∀ a, gridLength sh d.e a = gridLength sh d.h a

theorem gridLength_real (dx : Fin 3 → Nat → ℂ) (a : Fin 3) (h : ∀ i, i < sh a → (dx a i).im = 0) :
    (gridLength sh dx a).im = 0 := by
  rw [gridLength, Complex.im_sum]
  exact Finset.sum_eq_zero (fun i hi => h i (Finset.mem_range.1 hi))

theorem im_mul_zero {x y : ℂ} (hx : x.im = 0) (hy : y.im = 0) : (x * y).im = 0 := by
  rw [Complex.mul_im, hx, hy]; ring

/-- The curls with a real Bloch vector on any grid of positive widths. -/
theorem bloch_adjoint (d : Dxes) (hd : PositiveWidths sh d) (hl : SameLength sh d) (k : Fin 3 → ℂ)
    (hk : ∀ a, (k a).im = 0) (ce ch : Mat3 sh.size) (hce : curlE sh d k 0 = some ce)
    (hch : curlH sh d k 0 = some ch) :
    Matrix.diagonal (vecE d) * ch = ceᴴ * Matrix.diagonal (vecH d) := by
  rw [curlE, derivForward_zero, Option.map_some, Option.some.injEq] at hce
  rw [curlH, derivBack_zero, Option.map_some, Option.some.injEq] at hch
  subst hce hch
  apply cross_adjoint
  intro a b x hab hax hbx i j
  have hp : axisPhase sh d.h k x = axisPhase sh d.e k x := by
    rw [axisPhase_eq, axisPhase_eq, hl x]
  rw [hp]
  apply bloch_block d hd _ _ a b x hab hax hbx
  rw [axisPhase_eq]
  exact im_mul_zero (hk x) (gridLength_real d.e x (fun i hi => (hd x i hi).1))

theorem sum_im_zero (l : List ℂ) (h : ∀ z ∈ l, z.im = 0) : l.sum.im = 0 := by
  induction l with
  | nil => rfl
  | cons z t ih =>
    rw [List.sum_cons, Complex.add_im, h z (List.mem_cons_self), ih (fun y hy => h y (List.mem_cons_of_mem _ hy)),
      add_zero]

theorem blochPhase_real (dx : Fin 3 → Nat → ℂ) (k : Fin 3 → ℂ) (so : Fin 3 → Fin 3 → Int) (hn : ∀ a, 0 < sh a)
    (hdx : ∀ a i, i < sh a → (dx a i).im = 0) (hk : ∀ a, (k a).im = 0) (a : Fin 3) :
    (blochPhase sh dx k so a).im = 0 := by
  have hs : (((List.range (sh a)).map (dx a)).sum).im = 0 := by
    apply sum_im_zero
    intro z hz
    obtain ⟨i, hi, rfl⟩ := List.mem_map.1 hz
    exact hdx a i (List.mem_range.1 hi)
  have ht : ∀ b, (((if a = b then ((List.range (sh a)).map (dx a)).sum else 0) - (so a b : ℂ) * dx b 0) * k b).im = 0 := by
    intro b
    apply im_mul_zero _ (hk b)
    rw [Complex.sub_im]
    have h1 : ((so a b : ℂ) * dx b 0).im = 0 := im_mul_zero (Complex.intCast_im _) (hdx b 0 (hn b))
    rw [h1, sub_zero]
    split
    · exact hs
    · rfl
  unfold blochPhase
  simp only [List.foldl_cons, List.foldl_nil, zero_add]
  rw [Complex.add_im, Complex.add_im, ht, ht, ht]
  ring

theorem forAxes_some {α : Type} {f : Fin 3 → Option α} {g : Fin 3 → α} (h : forAxes f = some g) (a : Fin 3) :
    f a = some (g a) := by
  unfold forAxes at h
  cases h0 : f 0 with
  | none => rw [h0] at h; simp at h
  | some x =>
    cases h1 : f 1 with
    | none => rw [h0, h1] at h; simp at h
    | some y =>
      cases h2 : f 2 with
      | none => rw [h0, h1, h2] at h; simp at h
      | some z =>
        rw [h0, h1, h2] at h
        simp only [Option.bind_some, Option.map_some, Option.some.injEq] at h
        subst h
        match a with
        | 0 => exact h0
        | 1 => exact h1
        | 2 => exact h2

theorem cdiag_const (f : Cell sh → ℂ) (z : ℂ) (h : ∀ c, f c = z) : cdiag f = z • (1 : Mat sh.size) := by
  have : f = fun _ => z := funext h
  rw [this]
  ext i j
  rw [cdiag, Matrix.smul_apply, Matrix.diagonal_apply, Matrix.one_apply]
  split <;> simp

theorem volE_uniform (d : Dxes) (w : Fin 3 → ℝ) (hd : Uniform sh d w) (a : Fin 3) (c : Cell sh) :
    volE d a c = w 0 * w 1 * w 2 := by
  rw [volE]
  have : ∀ b, (if b = a then (d.e b (c b)).re else (d.h b (c b)).re) = w b := by
    intro b
    obtain ⟨h1, h2⟩ := hd b (c b) (c b).isLt
    rw [h1, h2, ite_self, Complex.ofReal_re]
  simp only [this]
  rw [Fin.prod_univ_three]

theorem volH_uniform (d : Dxes) (w : Fin 3 → ℝ) (hd : Uniform sh d w) (a : Fin 3) (c : Cell sh) :
    volH d a c = w 0 * w 1 * w 2 := by
  rw [volH]
  have : ∀ b, (if b = a then (d.h b (c b)).re else (d.e b (c b)).re) = w b := by
    intro b
    obtain ⟨h1, h2⟩ := hd b (c b) (c b).isLt
    rw [h1, h2, ite_self, Complex.ofReal_re]
  simp only [this]
  rw [Fin.prod_univ_three]

/-- On a uniform grid one curl is the conjugate transpose of the other, sheared or not. -/
theorem uniform_conj (d : Dxes) (w : Fin 3 → ℝ) (hd : Uniform sh d w) (hn : ∀ a, 0 < sh a) (k : Fin 3 → ℂ)
    (hk : ∀ a, (k a).im = 0) (so : Fin 3 → Fin 3 → Int) (ce ch : Mat3 sh.size) (hce : curlE sh d k so = some ce)
    (hch : curlH sh d k so = some ch) : ch = ceᴴ := by
  rw [curlE] at hce
  rw [curlH] at hch
  obtain ⟨Bf, hf, rfl⟩ := Option.map_eq_some_iff.1 hce
  obtain ⟨Bb, hb, rfl⟩ := Option.map_eq_some_iff.1 hch
  have hphase : blochPhase sh d.h k so = blochPhase sh d.e k so := by
    have h0 : ∀ b, d.h b 0 = d.e b 0 := fun b => by rw [(hd b 0 (hn b)).1, (hd b 0 (hn b)).2]
    have hs : ∀ a, (List.range (sh a)).map (d.h a) = (List.range (sh a)).map (d.e a) := by
      intro a
      apply List.map_congr_left
      intro i hi
      have := hd a i (List.mem_range.1 hi)
      rw [this.1, this.2]
    funext a
    unfold blochPhase
    rw [hs]
    simp only [h0]
  unfold derivForwardShift at hf
  unfold derivBackShift at hb
  have hreal := blochPhase_real (sh := sh) d.e k so hn
    (fun a i hi => by rw [(hd a i hi).1, Complex.ofReal_im]) hk
  have key : ∀ x, Bb x = -(Bf x)ᴴ := by
    intro x
    have h1 := forAxes_some hf x
    have h2 := forAxes_some hb x
    obtain ⟨F, hF, h1⟩ := Option.map_eq_some_iff.1 h1
    obtain ⟨B, hB, h2⟩ := Option.map_eq_some_iff.1 h2
    rw [hphase] at hB
    have hBF := rotation_conjTranspose x 1 _ (so x) hreal F B hF hB
    have c1 : diags sh.size ((meshFlat sh d.e x).map (fun y => 1 / y)) = (1 / (w x : ℂ)) • (1 : Mat sh.size) := by
      rw [diags_mesh]
      exact cdiag_const _ _ (fun c => by rw [(hd x (c x) (c x).isLt).1])
    have c2 : diags sh.size ((meshFlat sh d.h x).map (fun y => -1 / y)) = (-1 / (w x : ℂ)) • (1 : Mat sh.size) := by
      rw [diags_mesh]
      exact cdiag_const _ _ (fun c => by rw [(hd x (c x) (c x).isLt).2])
    rw [← h1, ← h2, c1, c2, hBF, Matrix.smul_mul, Matrix.smul_mul, one_mul, one_mul, Matrix.conjTranspose_smul,
      Matrix.conjTranspose_sub, Matrix.conjTranspose_one, star_div₀, star_one,
      conj_real (Complex.ofReal_im _), neg_div, neg_smul]
  have h := cross_adjoint Bf Bb (fun _ => 1) (fun _ => 1) (by
    intro a b x _ _ _ i j
    rw [key x, Matrix.neg_apply, Matrix.conjTranspose_apply, one_mul, mul_one])
  rwa [Matrix.diagonal_one, Matrix.one_mul, Matrix.mul_one] at h

/-- The lattices on which the modes are lossless: positive widths, and either no shear and the same lengths on
both grids, or uniform cells (sheared or not). -/
def PhcLattice (sh : Shape) (d : Dxes) (so : Fin 3 → Fin 3 → Int) : Prop :=
  (∀ a, 0 < sh a) ∧ PositiveWidths sh d ∧ ((so = 0 ∧ SameLength sh d) ∨ ∃ w : Fin 3 → ℝ, Uniform sh d w)

theorem lattice_adjoint (d : Dxes) (so : Fin 3 → Fin 3 → Int) (hd : PhcLattice sh d so) (k : Fin 3 → ℂ)
    (hk : ∀ a, (k a).im = 0) (ce ch : Mat3 sh.size) (hce : curlE sh d k so = some ce)
    (hch : curlH sh d k so = some ch) :
    Matrix.diagonal (vecE d) * ch = ceᴴ * Matrix.diagonal (vecH d) := by
  obtain ⟨hn, hp, ⟨rfl, hl⟩ | ⟨w, hu⟩⟩ := hd
  · exact bloch_adjoint d hp hl k hk ce ch hce hch
  · have h := uniform_conj d w hu hn k hk so ce ch hce hch
    have hE : (vecE d : Fin 3 × Fin sh.size → ℂ) = fun _ => ((w 0 * w 1 * w 2 : ℝ) : ℂ) := by
      funext p; rw [vecE, volE_uniform d w hu]
    have hH : (vecH d : Fin 3 × Fin sh.size → ℂ) = fun _ => ((w 0 * w 1 * w 2 : ℝ) : ℂ) := by
      funext p; rw [vecH, volH_uniform d w hu]
    rw [hE, hH, h]
    ext p q
    rw [Matrix.diagonal_mul, Matrix.mul_diagonal, mul_comm]

/-! ### Weighted products -/

/-- `∑ w conj(x) y`. -/
noncomputable def wdot {n : Nat} (w : VField n) (x y : VField n) : ℂ := ∑ p, w p * (star (x p) * y p)

theorem wdot_eq {n : Nat} (w x y : VField n) : wdot w x y = star x ⬝ᵥ (Matrix.diagonal w *ᵥ y) := by
  rw [wdot, dotProduct]
  apply Finset.sum_congr rfl
  intro p _
  rw [Matrix.mulVec_diagonal, Pi.star_apply]; ring

theorem wdot_adjoint {n : Nat} (gE gH : VField n) (ce ch : Mat3 n)
    (h : Matrix.diagonal gE * ch = ceᴴ * Matrix.diagonal gH) (x y : VField n) :
    wdot gE x (ch *ᵥ y) = wdot gH (ce *ᵥ x) y := by
  rw [wdot_eq, wdot_eq, Matrix.mulVec_mulVec, h, ← Matrix.mulVec_mulVec, Matrix.star_mulVec,
    Matrix.dotProduct_mulVec]

theorem wdot_swap {n : Nat} (w x y : VField n) (hw : ∀ p, (w p).im = 0) : wdot w y x = star (wdot w x y) := by
  rw [wdot, wdot, star_sum]
  apply Finset.sum_congr rfl
  intro p _
  rw [star_mul', star_mul', conj_real (hw p), star_star]; ring

theorem wdot_smul {n : Nat} (w x y : VField n) (a : ℂ) : wdot w x (a • y) = a * wdot w x y := by
  rw [wdot, wdot, Finset.mul_sum]
  apply Finset.sum_congr rfl
  intro p _
  rw [Pi.smul_apply, smul_eq_mul]; ring

theorem wdot_self {n : Nat} (w : Fin 3 × Fin n → ℝ) (x : VField n) :
    wdot (fun p => (w p : ℂ)) x x = ((∑ p, w p * Complex.normSq (x p) : ℝ) : ℂ) := by
  rw [wdot]
  push_cast
  apply Finset.sum_congr rfl
  intro p _
  rw [Complex.normSq_eq_conj_mul_self]; rfl

theorem wdot_self_pos {n : Nat} (w : Fin 3 × Fin n → ℝ) (hw : ∀ p, 0 < w p) (x : VField n) (hx : x ≠ 0) :
    0 < ∑ p, w p * Complex.normSq (x p) := by
  obtain ⟨p, hp⟩ := Function.ne_iff.1 hx
  apply Finset.sum_pos' (fun q _ => mul_nonneg (hw q).le (Complex.normSq_nonneg _))
  exact ⟨p, Finset.mem_univ _, mul_pos (hw p) (Complex.normSq_pos.2 hp)⟩

/-- Multiplying by a real diagonal matrix may be moved to the other side. -/
theorem wdot_diag {n : Nat} (w m x y : VField n) (hm : ∀ p, (m p).im = 0) :
    wdot w x (Matrix.diagonal m *ᵥ y) = wdot w (Matrix.diagonal m *ᵥ x) y := by
  rw [wdot, wdot]
  apply Finset.sum_congr rfl
  intro p _
  rw [Matrix.mulVec_diagonal, Matrix.mulVec_diagonal, star_mul', conj_real (hm p)]; ring

theorem wdot_weight {n : Nat} (w m x y : VField n) :
    wdot w x (Matrix.diagonal m *ᵥ y) = wdot (fun p => w p * m p) x y := by
  rw [wdot, wdot]
  apply Finset.sum_congr rfl
  intro p _
  rw [Matrix.mulVec_diagonal]; ring

theorem npSqrt_real (x : ℝ) (hx : 0 ≤ x) : npSqrt (x : ℂ) = ((Real.sqrt x : ℝ) : ℂ) := by
  rw [npSqrt, Real.sqrt_eq_rpow, Complex.ofReal_cpow hx]
  norm_num

/-- A factor with a value on a sesquilinear form: the eigenvalue is real and not negative. -/
theorem eigen_real (l : ℂ) (num den : ℝ) (hn : 0 ≤ num) (hd : 0 < den) (h : (num : ℂ) = l * (den : ℂ)) :
    l = ((num / den : ℝ) : ℂ) ∧ 0 ≤ num / den := by
  refine ⟨?_, div_nonneg hn hd.le⟩
  have : (den : ℂ) ≠ 0 := by exact_mod_cast hd.ne'
  push_cast
  rw [eq_div_iff this, h]

end Verif.Fdfd
