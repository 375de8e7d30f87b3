import Verif.Fdfd.CurlProps
/-
Lemmas: the curl operators are adjoint to each other up to the cell volumes.
-/
namespace Verif.Fdfd
open Matrix
set_option linter.unusedSectionVars false
variable {sh : Shape}

/-- Volumes dual to `pSquared`. -/
noncomputable def dualVol (sh : Shape) (d : Dxes) : VField sh.size := fun p =>
  ∏ b, (if b = p.1 then d.h b (cellAt p.2 b) else d.e b (cellAt p.2 b))

theorem next_prev (a : Fin 3) (c c' : Cell sh) : c' = prevCell a c ↔ c = nextCell a c' := by
  rw [← move_prev, ← move_next]
  have key : ∀ (s : Int) (c : Cell sh), moveCell (moveCell c (unitDisp a s)) (unitDisp a (-s)) = c := by
    intro s c
    funext b
    by_cases h : b = a
    · subst h
      apply Fin.ext
      rw [moveCell_self, moveCell_self]
      exact back_idx (sh b) (c b).val (c b).isLt s
    · rw [moveCell_ne _ a b _ h, moveCell_ne _ a b _ h]
  constructor
  · intro h; rw [h]; exact (key (-1) c).symm
  · intro h; rw [h]; exact (key 1 c').symm

theorem leave_zero (n : Nat) (x : Int) : leave n 0 x = 1 := by
  unfold leave
  split
  · simp
  · split
    · simp
    · rfl

theorem axisPhase_zero (dx : Fin 3 → Nat → ℂ) (a : Fin 3) : axisPhase sh dx 0 a = 0 := by
  simp [axisPhase]

theorem derivM_apply (w : Nat → ℂ) (a : Fin 3) (s : Int) (c c' : Cell sh) :
    derivM sh w a s 0 (pos c) (pos c') = w (c a) *
      ((if c' = moveCell c (unitDisp a s) then 1 else 0) - if c' = c then 1 else 0) := by
  have : derivM sh w a s 0 = cmono (fun c => moveCell c (unitDisp a s)) (fun c => w (c a)) -
      cdiag (fun c => w (c a)) := by
    rw [derivM, mul_sub, mul_one, shiftM, cdiag_mul_cmono]
    simp only [leave_zero, mul_one]
  rw [this, Matrix.sub_apply, cmono_apply, cdiag_apply]
  split <;> split <;> ring

/-- One block of the adjointness of the curls. -/
theorem block_adjoint (d : Dxes) (a b x : Fin 3) (hab : a ≠ b) (hax : a ≠ x) (hbx : b ≠ x)
    (he : ∀ a i, i < sh a → d.e a i ≠ 0) (hh : ∀ a i, i < sh a → d.h a i ≠ 0) (i j : Fin sh.size) :
    pSquared sh d (a, i) * derivM sh (fun i => -1 / d.h x i) x (-1) 0 i j =
      -(derivM sh (fun i => 1 / d.e x i) x 1 0 j i * dualVol sh d (b, j)) := by
  obtain ⟨c, rfl⟩ : ∃ c, i = pos c := ⟨cellAt i, (pos_cellAt i).symm⟩
  obtain ⟨c', rfl⟩ : ∃ c, j = pos c := ⟨cellAt j, (pos_cellAt j).symm⟩
  rw [derivM_apply, derivM_apply, pSquared_apply, dualVol, cellAt_pos, move_next, move_prev]
  have huniv : (Finset.univ : Finset (Fin 3)) = {a, b, x} := by
    revert a b x; decide
  have hprod : ∀ f : Fin 3 → ℂ, ∏ y, f y = f a * (f b * f x) := by
    intro f
    rw [huniv, Finset.prod_insert (by simp [hab, hax]), Finset.prod_insert (by simp [hbx]),
      Finset.prod_singleton]
  rw [hprod, hprod, if_pos rfl, if_neg (Ne.symm hab), if_neg (Ne.symm hax), if_neg hab, if_pos rfl,
    if_neg (Ne.symm hbx)]
  have hx := hh x (c x) (c x).isLt
  have hx' := he x (c' x) (c' x).isLt
  have h1 : ∀ y : ℂ, d.e a (c a) * (d.h b (c b) * d.h x (c x)) * (-1 / d.h x (c x) * y) =
      -(d.e a (c a) * d.h b (c b) * y) := by
    intro y; field_simp
  have h2 : ∀ y : ℂ, 1 / d.e x (c' x) * y * (d.e a (c' a) * (d.h b (c' b) * d.e x (c' x))) =
      d.e a (c' a) * d.h b (c' b) * y := by
    intro y; field_simp
  rw [h1, h2]
  congr 1
  by_cases hc : c' = c
  · subst hc
    have : (c' = prevCell x c') ↔ (c' = nextCell x c') := next_prev x c' c'
    simp only [this]
  · rw [if_neg hc, if_neg (show ¬ c = c' from fun e => hc e.symm)]
    by_cases hp : c' = prevCell x c
    · rw [if_pos hp, if_pos ((next_prev x c c').1 hp)]
      have ha : c' a = c a := by rw [hp, prevCell, if_neg hax]
      have hb : c' b = c b := by rw [hp, prevCell, if_neg hbx]
      rw [ha, hb]
    · rw [if_neg hp, if_neg (fun e => hp ((next_prev x c c').2 e)), sub_self, mul_zero, mul_zero]

/-- The curls are adjoint with respect to the cell volumes. -/
theorem curl_adjoint (d : Dxes) (he : ∀ a i, i < sh a → d.e a i ≠ 0)
    (hh : ∀ a i, i < sh a → d.h a i ≠ 0) (ce ch : Mat3 sh.size)
    (hce : curlE sh d 0 0 = some ce) (hch : curlH sh d 0 0 = some ch) :
    Matrix.diagonal (pSquared sh d) * ch = ceᵀ * Matrix.diagonal (dualVol sh d) := by
  rw [curlE, derivForward_zero, Option.map_some, Option.some.injEq] at hce
  rw [curlH, derivBack_zero, Option.map_some, Option.some.injEq] at hch
  subst hce hch
  simp only [axisPhase_zero]
  ext ⟨a, i⟩ ⟨b, j⟩
  rw [Matrix.diagonal_mul, Matrix.mul_diagonal, Matrix.transpose_apply]
  have B := fun a b x h1 h2 h3 => block_adjoint d a b x h1 h2 h3 he hh i j
  match a, b with
  | 0, 0 =>
    show pSquared sh d _ * (0 : ℂ) = (0 : ℂ) * _
    rw [mul_zero, zero_mul]
  | 1, 1 =>
    show pSquared sh d _ * (0 : ℂ) = (0 : ℂ) * _
    rw [mul_zero, zero_mul]
  | 2, 2 =>
    show pSquared sh d _ * (0 : ℂ) = (0 : ℂ) * _
    rw [mul_zero, zero_mul]
  | 0, 1 =>
    have := B 0 1 2 (by decide) (by decide) (by decide)
    show pSquared sh d _ * (-(derivM sh (fun i => -1 / d.h 2 i) 2 (-1) 0 i j)) =
      (derivM sh (fun i => 1 / d.e 2 i) 2 1 0 j i) * dualVol sh d _
    linear_combination -this
  | 0, 2 =>
    have := B 0 2 1 (by decide) (by decide) (by decide)
    show pSquared sh d _ * (derivM sh (fun i => -1 / d.h 1 i) 1 (-1) 0 i j) =
      (-(derivM sh (fun i => 1 / d.e 1 i) 1 1 0 j i)) * dualVol sh d _
    linear_combination this
  | 1, 0 =>
    have := B 1 0 2 (by decide) (by decide) (by decide)
    show pSquared sh d _ * (derivM sh (fun i => -1 / d.h 2 i) 2 (-1) 0 i j) =
      (-(derivM sh (fun i => 1 / d.e 2 i) 2 1 0 j i)) * dualVol sh d _
    linear_combination this
  | 1, 2 =>
    have := B 1 2 0 (by decide) (by decide) (by decide)
    show pSquared sh d _ * (-(derivM sh (fun i => -1 / d.h 0 i) 0 (-1) 0 i j)) =
      (derivM sh (fun i => 1 / d.e 0 i) 0 1 0 j i) * dualVol sh d _
    linear_combination -this
  | 2, 0 =>
    have := B 2 0 1 (by decide) (by decide) (by decide)
    show pSquared sh d _ * (-(derivM sh (fun i => -1 / d.h 1 i) 1 (-1) 0 i j)) =
      (derivM sh (fun i => 1 / d.e 1 i) 1 1 0 j i) * dualVol sh d _
    linear_combination -this
  | 2, 1 =>
    have := B 2 1 0 (by decide) (by decide) (by decide)
    show pSquared sh d _ * (derivM sh (fun i => -1 / d.h 0 i) 0 (-1) 0 i j) =
      (-(derivM sh (fun i => 1 / d.e 0 i) 0 1 0 j i)) * dualVol sh d _
    linear_combination this

theorem maskMat_diag {n : Nat} (m : Option (Fin 3 × Fin n → Bool)) :
    ∃ f : VField n, maskMat m = Matrix.diagonal f := by
  cases m with
  | none => exact ⟨fun _ => 1, (Matrix.diagonal_one).symm⟩
  | some m => exact ⟨_, rfl⟩

theorem invMat_diag {n : Nat} (m : Option (VField n)) :
    ∃ f : VField n, invMat m = Matrix.diagonal f := by
  cases m with
  | none => exact ⟨fun _ => 1, (Matrix.diagonal_one).symm⟩
  | some m => exact ⟨_, rfl⟩

theorem valMat_diag {n : Nat} (m : Option (VField n)) :
    ∃ f : VField n, valMat m = Matrix.diagonal f := by
  cases m with
  | none => exact ⟨fun _ => 1, (Matrix.diagonal_one).symm⟩
  | some m => exact ⟨_, rfl⟩

theorem npSqrt_sq (x : ℂ) : npSqrt x * npSqrt x = x := by
  have := Complex.cpow_nat_inv_pow x (n := 2) (by decide)
  rw [npSqrt, ← pow_two]
  exact_mod_cast this

theorem npSqrt_ne {x : ℂ} (h : x ≠ 0) : npSqrt x ≠ 0 := by
  intro e
  apply h
  rw [← npSqrt_sq x, e, mul_zero]

theorem pSquared_ne (d : Dxes) (he : ∀ a i, i < sh a → d.e a i ≠ 0)
    (hh : ∀ a i, i < sh a → d.h a i ≠ 0) (p : Fin 3 × Fin sh.size) : pSquared sh d p ≠ 0 := by
  obtain ⟨a, i⟩ := p
  rw [← pos_cellAt i, pSquared_apply]
  apply Finset.prod_ne_zero_iff.2
  intro b _
  split
  · exact he b _ (cellAt i b).isLt
  · exact hh b _ (cellAt i b).isLt

end Verif.Fdfd
