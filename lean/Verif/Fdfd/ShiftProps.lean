import Verif.Fdfd.Shift
/-
Property C25: shifts along one axis.
-/
namespace Verif.Fdfd
open Matrix
variable {sh : Shape}

/-! ### Specification -/

/-- Integer remainder in `0, ..., n - 1`. -/
def wrap (n : Nat) (x : Int) : Nat := (x % (n : Int)).toNat

/-- How many times, up to one, `x` is beyond the upper end (`1`) or below the lower end (`-1`) of a
grid of `n` cells. -/
def beyond (n : Nat) (x : Int) : Int := if (n : Int) ≤ x then 1 else if x < 0 then -1 else 0

/-! ### Theorems -/

/-- C25: the shift exists exactly if no orthogonal shift is given along its own axis. -/
theorem rotation_defined (axis : Fin 3) (sh : Shape) (s : Int) (phase : Fin 3 → ℂ)
    (so : Fin 3 → Int) : (rotationBlochShift axis sh s phase so).isSome ↔ so axis = 0 := by
  constructor
  · intro h
    apply Classical.byContradiction
    intro hn
    rw [rotationBlochShift, if_pos hn] at h
    cases h
  · intro h
    rw [rotation_eq axis s phase so h]; rfl

/-- C25: what the shift does. The value at the cell `c` is taken from the cell displaced by `s` along
the axis and by the orthogonal shifts where the boundary is crossed, wrapped periodically, times
`exp(-i phase)` for each axis that is left upwards and `exp(i phase)` for each left downwards. -/
theorem rotation_action (axis : Fin 3) (s : Int) (phase : Fin 3 → ℂ) (so : Fin 3 → Int)
    (F : Mat sh.size) (hF : rotationBlochShift axis sh s phase so = some F)
    (v : Fin sh.size → ℂ) (c c' : Cell sh) (o : Fin 3 → Int)
    (ho : ∀ b, o b = if b = axis then s else beyond (sh axis) ((c axis).val + s) * so b)
    (hc' : ∀ b, (c' b).val = wrap (sh b) ((c b).val + o b)) :
    (F *ᵥ v) (pos c) =
      Complex.exp (-Complex.I * ∑ b, (beyond (sh b) ((c b).val + o b) : ℂ) * phase b) * v (pos c') := by
  have h : so axis = 0 := (rotation_defined axis sh s phase so).1 (by rw [hF]; rfl)
  rw [rotation_eq axis s phase so h] at hF
  cases hF
  have hod : ∀ b, disp sh axis s so c b = o b := by
    intro b
    rw [ho, disp]
    by_cases hb : b = axis
    · subst hb; rw [if_pos rfl, if_pos rfl, h, mul_zero, add_zero]
    · rw [if_neg hb, if_neg hb, Int.zero_add]; rfl
  have hcc : moveCell c (disp sh axis s so c) = c' := by
    funext b
    apply Fin.ext
    rw [hc', moveCell]
    show wrap (sh b) ((c b).val + disp sh axis s so c b) = _
    rw [hod]
  rw [cmono_mulVec, hcc]
  congr 1
  rw [Finset.mul_sum, Complex.exp_sum]
  apply Finset.prod_congr rfl
  intro b _
  rw [hod, leave, beyond]
  split
  · simp
  · split
    · simp
    · simp

/-- C25: shifting by `s` and by `-s` are inverse to each other, for every shift, phase (complex ones
included) and orthogonal shift. -/
theorem rotation_inverse (axis : Fin 3) (s : Int) (phase : Fin 3 → ℂ) (so : Fin 3 → Int)
    (F B : Mat sh.size) (hF : rotationBlochShift axis sh s phase so = some F)
    (hB : rotationBlochShift axis sh (-s) phase so = some B) : F * B = 1 ∧ B * F = 1 := by
  have h : so axis = 0 := (rotation_defined axis sh s phase so).1 (by rw [hF]; rfl)
  rw [rotation_eq axis _ phase so h] at hF hB
  cases hF; cases hB
  have key : ∀ s : Int, (cmono (fun c => moveCell c (disp sh axis s so c))
        (fun c => ∏ a, leave (sh a) (phase a) ((c a).val + disp sh axis s so c a)) : Mat sh.size) *
      cmono (fun c => moveCell c (disp sh axis (-s) so c))
        (fun c => ∏ a, leave (sh a) (phase a) ((c a).val + disp sh axis (-s) so c a)) = 1 := by
    intro s
    rw [cmono_mul, one_eq_cmono]
    congr 1
    · funext c; exact move_back axis s so h c
    · funext c; exact leave_move_back axis s so h phase c
  refine ⟨key s, ?_⟩
  have := key (-s)
  rwa [Int.neg_neg] at this

/-- C25: for real phases the backward shift is the conjugate transpose of the forward shift. -/
theorem rotation_conjTranspose (axis : Fin 3) (s : Int) (phase : Fin 3 → ℂ) (so : Fin 3 → Int)
    (hreal : ∀ a, (phase a).im = 0)
    (F B : Mat sh.size) (hF : rotationBlochShift axis sh s phase so = some F)
    (hB : rotationBlochShift axis sh (-s) phase so = some B) : B = Fᴴ := by
  have h : so axis = 0 := (rotation_defined axis sh s phase so).1 (by rw [hF]; rfl)
  have hinv := (rotation_inverse axis s phase so F B hF hB).2
  rw [rotation_eq axis _ phase so h] at hF hB
  cases hF; cases hB
  have hconj : ∀ a, (starRingEnd ℂ) (phase a) = phase a := fun a => Complex.conj_eq_iff_im.2 (hreal a)
  have hl : ∀ a x, leave (sh a) (phase a) x * (starRingEnd ℂ) (leave (sh a) (phase a) x) = 1 := by
    intro a x
    unfold leave
    split
    · rw [← Complex.exp_conj, map_mul, map_neg, Complex.conj_I, hconj, ← Complex.exp_add,
        ← Complex.exp_zero]
      congr 1; ring
    · split
      · rw [← Complex.exp_conj, map_mul, map_neg, map_neg, Complex.conj_I, hconj, ← Complex.exp_add,
          ← Complex.exp_zero]
        congr 1; ring
      · simp
  -- The rows of the forward shift have a single entry of modulus one.
  have hu : (cmono (fun c => moveCell c (disp sh axis s so c))
        (fun c => ∏ a, leave (sh a) (phase a) ((c a).val + disp sh axis s so c a)) : Mat sh.size) *
      (cmono (fun c => moveCell c (disp sh axis s so c))
        (fun c => ∏ a, leave (sh a) (phase a) ((c a).val + disp sh axis s so c a)))ᴴ = 1 := by
    have hinj : Function.Injective (fun c : Cell sh => moveCell c (disp sh axis s so c)) := by
      intro c c' e
      dsimp only at e
      have h1 := move_back axis s so h c
      rw [e, move_back axis s so h c'] at h1
      exact h1.symm
    apply mat_ext
    intro c c'
    rw [Matrix.mul_apply, sum_pos, Finset.sum_eq_single (moveCell c (disp sh axis s so c))]
    · rw [Matrix.conjTranspose_apply, cmono_apply, cmono_apply, if_pos rfl, one_eq_cmono, cmono_apply]
      by_cases hc : c' = c
      · subst hc
        rw [if_pos rfl, if_pos rfl]
        show _ * (starRingEnd ℂ) _ = _
        rw [map_prod, ← Finset.prod_mul_distrib]
        exact Finset.prod_eq_one (fun a _ => hl a _)
      · rw [if_neg (fun e => hc (hinj e).symm), if_neg hc, star_zero, mul_zero]
    · intro b _ hb
      rw [cmono_apply, if_neg hb, zero_mul]
    · intro hh; exact absurd (Finset.mem_univ _) hh
  exact left_inv_eq_right_inv hinv hu

/-- Hypotheses of the theorems: a skewed boundary on a 2 by 3 by 1 grid. -/
example : ∃ F B, rotationBlochShift 0 (fun a => a.val + 2) 1 (fun _ => 1) (fun a => 2 * a.val) = some F ∧
    rotationBlochShift 0 (fun a => a.val + 2) (-1) (fun _ => 1) (fun a => 2 * a.val) = some B :=
  ⟨_, _, rotation_eq _ _ _ _ rfl, rotation_eq _ _ _ _ rfl⟩

/-- The forward shift by one of the last cell along x reads the first one, shifted along y by the
orthogonal shift, with the phase of the x axis. -/
example : let sh : Shape := ![2, 3, 1]
    let c : Cell sh := fun a => match a with | 0 => (1 : Fin 2) | 1 => (0 : Fin 3) | 2 => (0 : Fin 1)
    let c' : Cell sh := fun a => match a with | 0 => (0 : Fin 2) | 1 => (2 : Fin 3) | 2 => (0 : Fin 1)
    ∀ F, rotationBlochShift 0 sh 1 ![5, 7, 9] ![0, 2, 0] = some F → ∀ v,
      (F *ᵥ v) (pos c) = Complex.exp (-Complex.I * 5) * v (pos c') := by
  intro sh c c' F hF v
  have := rotation_action 0 1 ![5, 7, 9] ![0, 2, 0] F hF v c c' ![1, 2, 0]
    (by intro b; match b with | 0 => rfl | 1 => rfl | 2 => rfl)
    (by
      intro b
      match b with
      | 0 => exact (by decide : (0 : Nat) = wrap 2 2)
      | 1 => exact (by decide : (2 : Nat) = wrap 3 2)
      | 2 => exact (by decide : (0 : Nat) = wrap 1 0))
  rw [this, Fin.sum_univ_three]
  have h0 : beyond (sh 0) ((c 0).val + (![1, 2, 0] : Fin 3 → Int) 0) = 1 := rfl
  have h1 : beyond (sh 1) ((c 1).val + (![1, 2, 0] : Fin 3 → Int) 1) = 0 := rfl
  have h2 : beyond (sh 2) ((c 2).val + (![1, 2, 0] : Fin 3 → Int) 2) = 0 := rfl
  rw [h0, h1, h2]
  simp

end Verif.Fdfd
