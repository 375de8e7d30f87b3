import Verif.Fdfd.Shift
/-
Lemmas: derivatives and curls without orthogonal shifts.
-/
namespace Verif.Fdfd
open Matrix
set_option linter.unusedSectionVars false
variable {sh : Shape}

def unitDisp (a : Fin 3) (s : Int) : Fin 3 → Int := fun b => if b = a then s else 0

/-- The shift by `s` along `a` with phase `p`. -/
noncomputable def shiftM (sh : Shape) (a : Fin 3) (s : Int) (p : ℂ) : Mat sh.size :=
  cmono (fun c => moveCell c (unitDisp a s)) (fun c => leave (sh a) p ((c a).val + s))

theorem leave_inside (n : Nat) (p : ℂ) (i : Nat) (h : i < n) : leave n p i = 1 := by
  rw [leave, if_neg (by omega), if_neg (by omega)]

theorem rotation_zero (a : Fin 3) (s : Int) (phase : Fin 3 → ℂ) :
    rotationBlochShift a sh s phase 0 = some (shiftM sh a s (phase a)) := by
  rw [rotation_eq a s phase 0 rfl, shiftM]
  have hd : ∀ c : Cell sh, disp sh a s 0 c = unitDisp a s := by
    intro c; funext b; simp [disp, unitDisp]
  simp only [hd]
  congr 2
  funext c
  rw [Finset.prod_eq_single a]
  · rw [unitDisp, if_pos rfl]
  · intro b _ hb
    rw [unitDisp, if_neg hb, Int.add_zero, leave_inside _ _ _ (c b).isLt]
  · intro h; exact absurd (Finset.mem_univ _) h

theorem moveCell_ne (c : Cell sh) (a b : Fin 3) (s : Int) (h : b ≠ a) :
    moveCell c (unitDisp a s) b = c b := by
  apply Fin.ext
  rw [moveCell]
  simp only [unitDisp, if_neg h, Int.add_zero]
  rw [Int.emod_eq_of_lt (by omega) (by have := (c b).isLt; omega)]
  rfl

theorem moveCell_self (c : Cell sh) (a : Fin 3) (s : Int) :
    (moveCell c (unitDisp a s) a).val = (((c a).val + s) % (sh a : Int)).toNat := by
  rw [moveCell]; simp [unitDisp]

theorem moveCell_comm (c : Cell sh) (a b : Fin 3) (s t : Int) (h : a ≠ b) :
    moveCell (moveCell c (unitDisp a s)) (unitDisp b t) =
      moveCell (moveCell c (unitDisp b t)) (unitDisp a s) := by
  funext x
  by_cases hxa : x = a
  · subst hxa
    rw [moveCell_ne _ b x t h]
    apply Fin.ext
    rw [moveCell_self, moveCell_self, moveCell_ne c b x t h]
  · rw [moveCell_ne _ a x s hxa]
    by_cases hxb : x = b
    · subst hxb
      apply Fin.ext
      rw [moveCell_self, moveCell_self, moveCell_ne c a x s hxa]
    · rw [moveCell_ne _ b x t hxb, moveCell_ne _ b x t hxb, moveCell_ne _ a x s hxa]

theorem shiftM_comm (a b : Fin 3) (s t : Int) (p q : ℂ) (h : a ≠ b) :
    shiftM sh a s p * shiftM sh b t q = shiftM sh b t q * shiftM sh a s p := by
  rw [shiftM, shiftM, cmono_mul, cmono_mul]
  congr 1
  · funext c; exact moveCell_comm c a b s t h
  · funext c
    rw [moveCell_ne c a b s (Ne.symm h), moveCell_ne c b a t h, mul_comm]

/-- A function of the cell that does not depend on the coordinate `a`. -/
theorem cdiag_shiftM (f : Cell sh → ℂ) (a : Fin 3) (s : Int) (p : ℂ)
    (h : ∀ c, f (moveCell c (unitDisp a s)) = f c) :
    cdiag f * shiftM sh a s p = shiftM sh a s p * cdiag f := cdiag_cmono_comm f _ _ h

/-- One derivative operator. -/
noncomputable def derivM (sh : Shape) (w : Nat → ℂ) (a : Fin 3) (s : Int) (p : ℂ) : Mat sh.size :=
  cdiag (fun c => w (c a)) * (shiftM sh a s p - 1)

theorem derivM_comm (w w' : Nat → ℂ) (a b : Fin 3) (s t : Int) (p q : ℂ) (h : a ≠ b) :
    derivM sh w a s p * derivM sh w' b t q = derivM sh w' b t q * derivM sh w a s p := by
  unfold derivM
  have h1 : cdiag (fun c => w' (c b)) * (shiftM sh a s p - 1) =
      (shiftM sh a s p - 1) * cdiag (fun c => w' (c b)) := by
    rw [mul_sub, sub_mul, mul_one, one_mul, cdiag_shiftM]
    intro c; rw [moveCell_ne c a b s (Ne.symm h)]
  have h2 : cdiag (fun c => w (c a)) * (shiftM sh b t q - 1) =
      (shiftM sh b t q - 1) * cdiag (fun c => w (c a)) := by
    rw [mul_sub, sub_mul, mul_one, one_mul, cdiag_shiftM]
    intro c; rw [moveCell_ne c b a t h]
  have h3 : (shiftM sh a s p - 1) * (shiftM sh b t q - 1) =
      (shiftM sh b t q - 1) * (shiftM sh a s p - 1) := by
    simp only [mul_sub, sub_mul, mul_one, one_mul]
    rw [shiftM_comm a b s t p q h]
    abel
  calc cdiag (fun c => w (c a)) * (shiftM sh a s p - 1) *
        (cdiag (fun c => w' (c b)) * (shiftM sh b t q - 1))
      = cdiag (fun c => w (c a)) * ((shiftM sh a s p - 1) * cdiag (fun c => w' (c b))) *
          (shiftM sh b t q - 1) := by simp only [Matrix.mul_assoc]
    _ = cdiag (fun c => w (c a)) * cdiag (fun c => w' (c b)) *
          ((shiftM sh a s p - 1) * (shiftM sh b t q - 1)) := by
        rw [← h1]; simp only [Matrix.mul_assoc]
    _ = cdiag (fun c => w' (c b)) * (cdiag (fun c => w (c a)) * (shiftM sh b t q - 1)) *
          (shiftM sh a s p - 1) := by
        rw [h3, cdiag_mul]
        simp only [mul_comm (w _) (w' _)]
        rw [← cdiag_mul]; simp only [Matrix.mul_assoc]
    _ = _ := by rw [h2]; simp only [Matrix.mul_assoc]

theorem blochPhase_zero (dx : Fin 3 → Nat → ℂ) (k : Fin 3 → ℂ) (a : Fin 3) :
    blochPhase sh dx k 0 a = ((List.range (sh a)).map (dx a)).sum * k a := by
  unfold blochPhase
  simp only [List.foldl_cons, List.foldl_nil, Pi.zero_apply, Int.cast_zero, zero_mul, sub_zero,
    zero_add]
  match a with
  | 0 => simp
  | 1 => simp
  | 2 => simp

/-- The phase along axis `a`. -/
noncomputable def axisPhase (sh : Shape) (dx : Fin 3 → Nat → ℂ) (k : Fin 3 → ℂ) (a : Fin 3) : ℂ :=
  ((List.range (sh a)).map (dx a)).sum * k a

theorem derivForward_zero (dx : Fin 3 → Nat → ℂ) (k : Fin 3 → ℂ) :
    derivForwardShift sh dx k 0 = some (fun a =>
      derivM sh (fun i => 1 / dx a i) a 1 (axisPhase sh dx k a)) := by
  unfold derivForwardShift forAxes
  have h0 : ∀ a : Fin 3, (0 : Fin 3 → Fin 3 → Int) a = 0 := fun _ => rfl
  simp only [h0, rotation_zero, Option.map_some, Option.bind_some, blochPhase_zero, diags_mesh]
  congr 1
  funext a
  match a with
  | 0 => rfl
  | 1 => rfl
  | 2 => rfl

theorem derivBack_zero (dx : Fin 3 → Nat → ℂ) (k : Fin 3 → ℂ) :
    derivBackShift sh dx k 0 = some (fun a =>
      derivM sh (fun i => -1 / dx a i) a (-1) (axisPhase sh dx k a)) := by
  unfold derivBackShift forAxes
  have h0 : ∀ a : Fin 3, (0 : Fin 3 → Fin 3 → Int) a = 0 := fun _ => rfl
  simp only [h0, rotation_zero, Option.map_some, Option.bind_some, blochPhase_zero, diags_mesh]
  congr 1
  funext a
  match a with
  | 0 => rfl
  | 1 => rfl
  | 2 => rfl

theorem derivM_mulVec (w : Nat → ℂ) (a : Fin 3) (s : Int) (p : ℂ) (v : Fin sh.size → ℂ) (c : Cell sh) :
    (derivM sh w a s p *ᵥ v) (pos c) = w (c a) *
      (leave (sh a) p ((c a).val + s) * v (pos (moveCell c (unitDisp a s))) - v (pos c)) := by
  rw [derivM, ← Matrix.mulVec_mulVec, cdiag_mulVec, Matrix.sub_mulVec, Pi.sub_apply,
    Matrix.one_mulVec, shiftM, cmono_mulVec]

/-- Component `c` of a vectorised field. -/
def comp {n : Nat} (v : VField n) (c : Fin 3) : Fin n → ℂ := fun i => v (c, i)

theorem bmat_mulVec {n : Nat} (B : Fin 3 → Fin 3 → Mat n) (v : VField n) (a : Fin 3) (i : Fin n) :
    (bmat B *ᵥ v) (a, i) = ∑ q, (B a q *ᵥ comp v q) i := by
  simp only [Matrix.mulVec, dotProduct, bmat, comp]
  rw [Fintype.sum_prod_type]

theorem cross_comp {n : Nat} (B : Fin 3 → Mat n) (v : VField n) :
    comp (cross B *ᵥ v) 0 = B 1 *ᵥ comp v 2 - B 2 *ᵥ comp v 1 ∧
    comp (cross B *ᵥ v) 1 = B 2 *ᵥ comp v 0 - B 0 *ᵥ comp v 2 ∧
    comp (cross B *ᵥ v) 2 = B 0 *ᵥ comp v 1 - B 1 *ᵥ comp v 0 := by
  refine ⟨?_, ?_, ?_⟩
  all_goals
    funext i
    rw [comp, cross, bmat_mulVec, Fin.sum_univ_three]
    simp [Matrix.neg_mulVec]
    try ring

end Verif.Fdfd
