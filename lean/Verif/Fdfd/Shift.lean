import Verif.Fdfd.Cells
/-
Lemmas: `rotation_bloch_shift` as a matrix with one entry per row.
-/
namespace Verif.Fdfd
open Matrix
set_option linter.unusedSectionVars false
variable {sh : Shape}

theorem maskedAdd_apply (m : Bool) (b : Fin 3) (v : Int) (ind : Fin 3 → Int) (x : Fin 3) :
    maskedAdd m b v ind x = ind x + if x = b ∧ m = true then v else 0 := by
  unfold maskedAdd
  cases m
  · simp
  · by_cases h : x = b
    · subst h; simp
    · simp [h]

theorem cellList_getD (c : Cell sh) (a : Fin 3) : (cellList c).getD a.val 0 = (c a).val := by
  match a with
  | 0 => rfl
  | 1 => rfl
  | 2 => rfl

/-- How often the boundary is crossed: once up, once down or not at all. -/
def crossing (sh : Shape) (axis : Fin 3) (s : Int) (c : Cell sh) : Int :=
  if (sh axis : Int) ≤ (c axis).val + s then 1 else if ((c axis).val : Int) + s < 0 then -1 else 0

theorem rotInd_eq (axis : Fin 3) (s : Int) (so : Fin 3 → Int) (h : so axis = 0) (c : Cell sh)
    (b : Fin 3) : rotInd sh axis s so (cellList c) b =
      (c b).val + ((if b = axis then s else 0) + crossing sh axis s c * so b) := by
  have key : ∀ (ind : Fin 3 → Int) (m : Bool) (b : Fin 3), maskedAdd m b (so b) ind axis = ind axis := by
    intro ind m b
    rw [maskedAdd_apply]
    by_cases hb : axis = b
    · subst hb; simp [h]
    · simp [hb]
  have key' : ∀ (ind : Fin 3 → Int) (m : Bool) (b : Fin 3), maskedAdd m b (-so b) ind axis = ind axis := by
    intro ind m b
    rw [maskedAdd_apply]
    by_cases hb : axis = b
    · subst hb; simp [h]
    · simp [hb]
  unfold rotInd
  simp only [key, key', Function.update_self, cellList_getD]
  simp only [maskedAdd_apply, crossing]
  have hn : (0 : Int) ≤ sh axis := Int.natCast_nonneg _
  have hb : Function.update (fun a => (((c a).val : Nat) : Int)) axis ((c axis).val + s) b =
      (c b).val + if b = axis then s else 0 := by
    by_cases hb : b = axis
    · subst hb; simp
    · simp [hb]
  rw [hb]
  by_cases h1 : (sh axis : Int) ≤ (c axis).val + s
  · have h2 : ¬ (((c axis).val : Int) + s < 0) := by omega
    match b with
    | 0 => simp [h1, h2]; omega
    | 1 => simp [h1, h2]; omega
    | 2 => simp [h1, h2]; omega
  · by_cases h2 : ((c axis).val : Int) + s < 0
    · match b with
      | 0 => simp [h1, h2]; omega
      | 1 => simp [h1, h2]; omega
      | 2 => simp [h1, h2]; omega
    · match b with
      | 0 => simp [h1, h2]
      | 1 => simp [h1, h2]
      | 2 => simp [h1, h2]

/-- The displacement along `b` of the cell read by the shift. -/
def disp (sh : Shape) (axis : Fin 3) (s : Int) (so : Fin 3 → Int) (c : Cell sh) (b : Fin 3) : Int :=
  (if b = axis then s else 0) + crossing sh axis s c * so b

theorem wrap_lt (n : Nat) (x : Int) (h : 0 < n) : (x % (n : Int)).toNat < n := by
  have h1 := Int.emod_nonneg x (b := (n : Int)) (by omega)
  have h2 := Int.emod_lt_of_pos x (b := (n : Int)) (by omega)
  omega

/-- Displacing a cell periodically. -/
def moveCell (c : Cell sh) (o : Fin 3 → Int) : Cell sh := fun b =>
  ⟨(((c b).val + o b) % (sh b : Int)).toNat, wrap_lt _ _ (Nat.lt_of_le_of_lt (Nat.zero_le _) (c b).isLt)⟩

/-- The factor for leaving a grid of `n` cells with phase `p`. -/
noncomputable def leave (n : Nat) (p : ℂ) (x : Int) : ℂ :=
  if (n : Int) ≤ x then Complex.exp (-Complex.I * p)
  else if x < 0 then Complex.exp (-Complex.I * (-p)) else 1

theorem rotData_eq (phase : Fin 3 → ℂ) (ind : Fin 3 → Int) :
    rotData sh phase ind = ∏ a, leave (sh a) (phase a) (ind a) := by
  have step : ∀ (d : ℂ) (a : Fin 3),
      (if ind a < 0 then
        (if (sh a : Int) ≤ ind a then d * Complex.exp (-Complex.I * phase a) else d) *
          Complex.exp (-Complex.I * (-phase a))
       else (if (sh a : Int) ≤ ind a then d * Complex.exp (-Complex.I * phase a) else d)) =
      d * leave (sh a) (phase a) (ind a) := by
    intro d a
    unfold leave
    by_cases h1 : (sh a : Int) ≤ ind a
    · have h2 : ¬ ind a < 0 := by omega
      rw [if_neg h2, if_pos h1, if_pos h1]
    · by_cases h2 : ind a < 0
      · rw [if_pos h2, if_neg h1, if_neg h1, if_pos h2]
      · rw [if_neg h2, if_neg h1, if_neg h1, if_neg h2, mul_one]
  unfold rotData
  simp only [List.foldl_cons, List.foldl_nil, step]
  rw [Fin.prod_univ_three, one_mul]

theorem rotation_eq (axis : Fin 3) (s : Int) (phase : Fin 3 → ℂ) (so : Fin 3 → Int)
    (h : so axis = 0) : rotationBlochShift axis sh s phase so =
      some (cmono (fun c => moveCell c (disp sh axis s so c))
        (fun c => ∏ a, leave (sh a) (phase a) ((c a).val + disp sh axis s so c a))) := by
  unfold rotationBlochShift
  rw [if_neg (by simpa using h)]
  congr 1
  apply mat_ext
  intro c c'
  have hw : ∀ c : Cell sh, wrapIdx sh (rotInd sh axis s so (cellList c)) =
      cellList (moveCell c (disp sh axis s so c)) := by
    intro c
    simp only [wrapIdx, cellList, moveCell, disp]
    rw [← rotInd_eq axis s so h c, ← rotInd_eq axis s so h c, ← rotInd_eq axis s so h c]
    rfl
  have := csr_apply sh.toList (fun c => wrapIdx sh (rotInd sh axis s so c))
    (fun c => rotData sh phase (rotInd sh axis s so c))
    (fun l hl => by
      obtain ⟨c, rfl⟩ := inside_cell hl
      rw [hw c]; exact cellList_inside _)
    (cellList c) (cellList c') (cellList_inside c) (cellList_inside c')
  refine this.trans ?_
  rw [cmono_apply]
  rw [hw c, rotData_eq]
  have hp : (∏ a, leave (sh a) (phase a) (rotInd sh axis s so (cellList c) a)) =
      ∏ a, leave (sh a) (phase a) ((c a).val + disp sh axis s so c a) := by
    apply Finset.prod_congr rfl
    intro a _
    rw [rotInd_eq axis s so h c a]; rfl
  rw [hp]
  by_cases he : c' = moveCell c (disp sh axis s so c)
  · rw [if_pos he, if_pos (by rw [he])]
  · rw [if_neg he, if_neg (fun e => he (cellList_inj e))]

/-! ### Shifts and their inverses -/

/-- One axis: going back from where a displacement leads. -/
theorem back_one (n : Nat) (i : Nat) (hi : i < n) (o : Int) :
    ((((i : Int) + o) % (n : Int)).toNat : Int) - o < 0 ∧ (n : Int) ≤ i + o ∨
    (n : Int) ≤ ((((i : Int) + o) % (n : Int)).toNat : Int) - o ∧ (i : Int) + o < 0 ∨
    ((((i : Int) + o) % (n : Int)).toNat : Int) - o = i ∧ 0 ≤ (i : Int) + o ∧ (i : Int) + o < n := by
  have h1 := Int.emod_nonneg ((i : Int) + o) (b := (n : Int)) (by omega)
  have h2 := Int.emod_lt_of_pos ((i : Int) + o) (b := (n : Int)) (by omega)
  rw [Int.toNat_of_nonneg h1]
  rcases Int.lt_or_le ((i : Int) + o) 0 with h | h
  · right; left
    refine ⟨?_, h⟩
    have h3 := Int.emod_add_mul_ediv ((i : Int) + o) n
    have h4 : ((i : Int) + o) / n < 0 := Int.ediv_neg_of_neg_of_pos h (by omega)
    have h5 : (n : Int) * (((i : Int) + o) / n) ≤ n * (-1) :=
      Int.mul_le_mul_of_nonneg_left (by omega) (by omega)
    omega
  · rcases Int.lt_or_le ((i : Int) + o) n with h' | h'
    · right; right
      rw [Int.emod_eq_of_lt h h']
      omega
    · left
      refine ⟨?_, h'⟩
      have h3 := Int.emod_add_mul_ediv ((i : Int) + o) n
      have h4 : 1 ≤ ((i : Int) + o) / n := by
        rw [Int.le_ediv_iff_mul_le (by omega)]; omega
      have h5 : (n : Int) * 1 ≤ n * (((i : Int) + o) / n) :=
        Int.mul_le_mul_of_nonneg_left h4 (by omega)
      omega

theorem back_idx (n : Nat) (i : Nat) (hi : i < n) (o : Int) :
    ((((((i : Int) + o) % (n : Int)).toNat : Int) - o) % (n : Int)).toNat = i := by
  have h1 := Int.emod_nonneg ((i : Int) + o) (b := (n : Int)) (by omega)
  rw [Int.toNat_of_nonneg h1, Int.emod_sub_emod, Int.add_sub_cancel,
    Int.emod_eq_of_lt (by omega) (by omega)]
  rfl

theorem leave_back (n : Nat) (p : ℂ) (i : Nat) (hi : i < n) (o : Int) :
    leave n p (i + o) * leave n p (((((i : Int) + o) % (n : Int)).toNat : Int) - o) = 1 := by
  have e1 : Complex.exp (-Complex.I * p) * Complex.exp (-Complex.I * (-p)) = 1 := by
    rw [← Complex.exp_add, ← Complex.exp_zero]; congr 1; ring
  unfold leave
  rcases back_one n i hi o with ⟨h1, h2⟩ | ⟨h1, h2⟩ | ⟨h1, h2, h3⟩
  · rw [if_pos h2, if_neg (by omega), if_pos h1, e1]
  · rw [if_neg (by omega), if_pos h2, if_pos h1, mul_comm, e1]
  · rw [if_neg (by omega), if_neg (by omega), if_neg (by omega), if_neg (by omega), mul_one]

theorem crossing_back (axis : Fin 3) (s : Int) (so : Fin 3 → Int) (h : so axis = 0) (c : Cell sh) :
    crossing sh axis (-s) (moveCell c (disp sh axis s so c)) = -crossing sh axis s c := by
  unfold crossing
  have hd : disp sh axis s so c axis = s := by simp [disp, h]
  simp only [moveCell, hd]
  rcases back_one (sh axis) (c axis).val (c axis).isLt s with ⟨h1, h2⟩ | ⟨h1, h2⟩ | ⟨h1, h2, h3⟩
  · rw [if_neg (by omega), if_pos (by omega), if_pos (by omega)]
  · rw [if_pos (by omega), if_neg (by omega), if_pos (by omega)]; rfl
  · rw [if_neg (by omega), if_neg (by omega), if_neg (by omega), if_neg (by omega)]; rfl

theorem disp_back (axis : Fin 3) (s : Int) (so : Fin 3 → Int) (h : so axis = 0) (c : Cell sh)
    (b : Fin 3) :
    disp sh axis (-s) so (moveCell c (disp sh axis s so c)) b = -disp sh axis s so c b := by
  rw [disp, crossing_back axis s so h, disp]
  by_cases hb : b = axis
  · rw [if_pos hb, if_pos hb, Int.neg_mul, Int.neg_add]
  · rw [if_neg hb, if_neg hb, Int.neg_mul, Int.zero_add, Int.zero_add]

theorem move_back (axis : Fin 3) (s : Int) (so : Fin 3 → Int) (h : so axis = 0) (c : Cell sh) :
    moveCell (moveCell c (disp sh axis s so c))
      (disp sh axis (-s) so (moveCell c (disp sh axis s so c))) = c := by
  funext b
  apply Fin.ext
  rw [moveCell]
  dsimp only
  rw [disp_back axis s so h]
  exact back_idx (sh b) (c b).val (c b).isLt _

theorem leave_move_back (axis : Fin 3) (s : Int) (so : Fin 3 → Int) (h : so axis = 0)
    (phase : Fin 3 → ℂ) (c : Cell sh) :
    (∏ a, leave (sh a) (phase a) ((c a).val + disp sh axis s so c a)) *
    (∏ a, leave (sh a) (phase a) ((moveCell c (disp sh axis s so c) a).val +
      disp sh axis (-s) so (moveCell c (disp sh axis s so c)) a)) = 1 := by
  rw [← Finset.prod_mul_distrib]
  apply Finset.prod_eq_one
  intro a _
  rw [disp_back axis s so h]
  exact leave_back (sh a) (phase a) (c a).val (c a).isLt _

end Verif.Fdfd
