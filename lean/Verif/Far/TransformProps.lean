import Verif.Far.Transform
import Verif.Far.MeshSelect
import Verif.Fdfd.PlanePowerProps
/-
Property C96: the near-to-far-field transformation.
-/
namespace Verif.Far
open Matrix Verif.Fdfd
set_option linter.unusedVariables false
set_option linter.unusedSimpArgs false
variable {sh : Shape} {m : Nat}

/-! ### Specification -/

/-- The average over a cell and the next, or the previous one, along an axis. -/
noncomputable def avgNext (a : Fin 3) (f : Cell sh → ℂ) (c : Cell sh) : ℂ := (f c + f (nextCell a c)) / 2
noncomputable def avgPrev (a : Fin 3) (f : Cell sh → ℂ) (c : Cell sh) : ℂ := (f c + f (prevCell a c)) / 2

/-- Along the axis `i`, samples are either at the positions of the grid (`false`) or half a cell further (`true`). The values that
are given at the positions `src` at the positions `dst`. -/
noncomputable def shiftHalf (i : Fin 3) (src dst : Bool) (f : Cell sh → ℂ) : Cell sh → ℂ :=
  match src, dst with
  | false, true => avgNext i f
  | true, false => avgPrev i f
  | _, _ => f

noncomputable def shiftTo (src dst : Fin 3 → Bool) (f : Cell sh → ℂ) : Cell sh → ℂ :=
  shiftHalf 0 (src 0) (dst 0) (shiftHalf 1 (src 1) (dst 1) (shiftHalf 2 (src 2) (dst 2) f))

/-- The positions of the components of the fields in a cell. -/
def atE (b i : Fin 3) : Bool := decide (b = i)
def atH (b i : Fin 3) : Bool := decide (b ≠ i)

/-- The electric and the magnetic field at the positions of the component `axis` of the magnetic field. -/
noncomputable def centredE (axis : Fin 3) (E : FieldT sh) : FieldT sh := fun b => shiftTo (atE b) (atH axis) (E b)
noncomputable def centredH (axis : Fin 3) (H : FieldT sh) : FieldT sh := fun b => shiftTo (atH b) (atH axis) (H b)

/-- The cross product. -/
def crossC (u v : Fin 3 → ℂ) : Fin 3 → ℂ := fun a => u (a + 1) * v (a + 2) - u (a + 2) * v (a + 1)

/-- The position `grid.xyz` of a cell. -/
def gridPos (xyz : Fin 3 → Nat → ℝ) (c : Cell sh) : V3 := fun b => xyz b (c b)

/-- The area of a cell across the axis: the product of the widths `dxes[1]` along the two other axes. -/
noncomputable def cellArea (d : Dxes) (axis : Fin 3) (c : Cell sh) : ℂ := ∏ b ∈ Finset.univ.erase axis, d.h b (c b)

open Classical in
/-- The radiation integral over the plane of a vector field in the direction `r`; `x` are the positions of the samples. -/
noncomputable def radiation (p : Plane) (xyz : Fin 3 → Nat → ℝ) (x : Cell sh → V3) (d : Dxes) (omega : ℂ) (r : V3) (V : FieldT sh) : Fin 3 → ℂ :=
  fun a => ∑ c ∈ Finset.univ.filter (fun c : Cell sh => p.selected xyz c), Complex.exp (Complex.I * omega * (dot r (x c) : ℂ)) * cellArea d p.axis c * V a c

/-- The far field, at the distance one, of the currents `n × H` and `-n × E` on the plane. -/
noncomputable def huygens (p : Plane) (xyz : Fin 3 → Nat → ℝ) (x : Cell sh → V3) (d : Dxes) (omega mu0 : ℂ) (r : V3) (E H : FieldT sh) :
    Fin 3 → ℂ := fun a =>
  Complex.exp (-(Complex.I * omega)) / (4 * Real.pi) *
    (-(Complex.I * omega * mu0) * radiation p xyz x d omega r (fun b c => crossC (fun i => (p.normal i : ℂ)) (fun i => H i c) b) a +
      Complex.I * omega * crossC (fun i => (r i : ℂ)) (radiation p xyz x d omega r
        (fun b c => -crossC (fun i => (p.normal i : ℂ)) (fun i => E i c) b)) a)

/-! ### Averages -/

noncomputable def avgM (sh : Shape) (a : Fin 3) (s : Int) : Mat sh.size := (1 / 2 : ℂ) • (1 + shiftM sh a s 0)

theorem forAxes_some {α : Type} (f : Fin 3 → α) : (forAxes fun a => some (f a)) = some f := by
  unfold forAxes
  simp only [Option.bind_some, Option.map_some]
  congr 1
  funext a
  match a with
  | 0 => rfl
  | 1 => rfl
  | 2 => rfl

theorem avgf_all : (forAxes fun a => avgf a sh) = some fun a => avgM sh a 1 := by
  rw [← forAxes_some]
  congr 1
  funext a
  rw [avgf, rotation_zero]
  rfl

theorem avgb_all : (forAxes fun a => avgb a sh) = some fun a => avgM sh a (-1) := by
  rw [← forAxes_some]
  congr 1
  funext a
  rw [avgb, rotation_zero]
  rfl

theorem avgM_comm {a b : Fin 3} (h : a ≠ b) (s t : Int) : avgM sh a s * avgM sh b t = avgM sh b t * avgM sh a s := by
  have := shiftM_comm (sh := sh) a b s t 0 0 h
  rw [avgM, avgM, Matrix.smul_mul, Matrix.mul_smul, Matrix.smul_mul, Matrix.mul_smul]
  simp only [mul_add, add_mul, mul_one, one_mul, this]
  congr 2
  abel

theorem avgM_next (a : Fin 3) (v : Fin sh.size → ℂ) (c : Cell sh) : (avgM sh a 1 *ᵥ v) (pos c) = avgNext a (fun c => v (pos c)) c := by
  rw [avgM, Matrix.smul_mulVec, Pi.smul_apply, Matrix.add_mulVec, Pi.add_apply, Matrix.one_mulVec, shift_zero_mulVec, avgNext, smul_eq_mul]
  ring

theorem shift_back_mulVec (a : Fin 3) (v : Fin sh.size → ℂ) (c : Cell sh) :
    (shiftM sh a (-1) 0 *ᵥ v) (pos c) = v (pos (prevCell a c)) := by
  rw [shiftM, cmono_mulVec, move_prev]
  have : leave (sh a) 0 (↑(c a).val + -1) = 1 := by
    unfold leave
    simp
  rw [this, one_mul]

theorem avgM_prev (a : Fin 3) (v : Fin sh.size → ℂ) (c : Cell sh) : (avgM sh a (-1) *ᵥ v) (pos c) = avgPrev a (fun c => v (pos c)) c := by
  rw [avgM, Matrix.smul_mulVec, Pi.smul_apply, Matrix.add_mulVec, Pi.add_apply, Matrix.one_mulVec, shift_back_mulVec, avgPrev, smul_eq_mul]
  ring

/-- The values at the cells. -/
def onCells (v : Fin sh.size → ℂ) : Cell sh → ℂ := fun c => v (pos c)

theorem avgM_next_fun (a : Fin 3) (v : Fin sh.size → ℂ) : onCells (avgM sh a 1 *ᵥ v) = avgNext a (onCells v) :=
  funext fun c => avgM_next a v c
theorem avgM_prev_fun (a : Fin 3) (v : Fin sh.size → ℂ) : onCells (avgM sh a (-1) *ᵥ v) = avgPrev a (onCells v) :=
  funext fun c => avgM_prev a v c

theorem diag3_mulVec {n : Nat} (B : Fin 3 → Mat n) (v : VField n) (a : Fin 3) (i : Fin n) :
    (diag3 B *ᵥ v) (a, i) = (B a *ᵥ fun j => v (a, j)) i := by
  obtain ⟨h0, h1, h2⟩ := bmat_diag3 (B 0) (B 1) (B 2) v i
  match a with
  | 0 => exact h0
  | 1 => exact h1
  | 2 => exact h2

theorem moveE_mulVec (axis : Fin 3) (E : VField sh.size) :
    IsVec (centredE axis (asField E)) (moveE (fun a => avgM sh a 1) (fun a => avgM sh a (-1)) axis *ᵥ E) := by
  have c10 : avgM sh 1 1 * avgM sh 0 (-1) = avgM sh 0 (-1) * avgM sh 1 1 := avgM_comm (by decide) _ _
  have c20 : avgM sh 2 1 * avgM sh 0 (-1) = avgM sh 0 (-1) * avgM sh 2 1 := avgM_comm (by decide) _ _
  have c21 : avgM sh 2 1 * avgM sh 1 1 = avgM sh 1 1 * avgM sh 2 1 := avgM_comm (by decide) _ _
  have d20 : avgM sh 2 1 * avgM sh 0 1 = avgM sh 0 1 * avgM sh 2 1 := avgM_comm (by decide) _ _
  have d21 : avgM sh 2 1 * avgM sh 1 (-1) = avgM sh 1 (-1) * avgM sh 2 1 := avgM_comm (by decide) _ _
  have d10 : avgM sh 1 1 * avgM sh 0 1 = avgM sh 0 1 * avgM sh 1 1 := avgM_comm (by decide) _ _
  intro b c
  match axis, b with
  | 0, 0 =>
    rw [moveE, diag3_mulVec]
    show ((avgM sh 2 1 * avgM sh 1 1 * avgM sh 0 (-1)) *ᵥ fun j => E (0, j)) (pos c) = avgPrev 0 (avgNext 1 (avgNext 2 (asField E 0))) c
    rw [c21, mul_assoc, c20, ← mul_assoc, c10, mul_assoc, ← Matrix.mulVec_mulVec, ← Matrix.mulVec_mulVec]
    exact congrFun ((avgM_prev_fun _ _).trans (congrArg _ ((avgM_next_fun _ _).trans (congrArg _ (avgM_next_fun _ _))))) c
  | 0, 1 => rw [moveE, diag3_mulVec]; exact avgM_next 2 _ c
  | 0, 2 => rw [moveE, diag3_mulVec]; exact avgM_next 1 _ c
  | 1, 0 => rw [moveE, diag3_mulVec]; exact avgM_next 2 _ c
  | 1, 1 =>
    rw [moveE, diag3_mulVec]
    show ((avgM sh 2 1 * avgM sh 0 1 * avgM sh 1 (-1)) *ᵥ fun j => E (1, j)) (pos c) = avgNext 0 (avgPrev 1 (avgNext 2 (asField E 1))) c
    rw [d20, mul_assoc, d21, ← Matrix.mulVec_mulVec, ← Matrix.mulVec_mulVec]
    exact congrFun ((avgM_next_fun _ _).trans (congrArg _ ((avgM_prev_fun _ _).trans (congrArg _ (avgM_next_fun _ _))))) c
  | 1, 2 => rw [moveE, diag3_mulVec]; exact avgM_next 0 _ c
  | 2, 0 => rw [moveE, diag3_mulVec]; exact avgM_next 1 _ c
  | 2, 1 => rw [moveE, diag3_mulVec]; exact avgM_next 0 _ c
  | 2, 2 =>
    rw [moveE, diag3_mulVec]
    show ((avgM sh 1 1 * avgM sh 0 1 * avgM sh 2 (-1)) *ᵥ fun j => E (2, j)) (pos c) = avgNext 0 (avgNext 1 (avgPrev 2 (asField E 2))) c
    rw [d10, mul_assoc, ← Matrix.mulVec_mulVec, ← Matrix.mulVec_mulVec]
    exact congrFun ((avgM_next_fun _ _).trans (congrArg _ ((avgM_next_fun _ _).trans (congrArg _ (avgM_prev_fun _ _))))) c

theorem moveH_mulVec (axis : Fin 3) (H : VField sh.size) :
    IsVec (centredH axis (asField H)) (moveH (fun a => avgM sh a 1) (fun a => avgM sh a (-1)) axis *ᵥ H) := by
  have c10 : avgM sh 1 1 * avgM sh 0 (-1) = avgM sh 0 (-1) * avgM sh 1 1 := avgM_comm (by decide) _ _
  have c20 : avgM sh 2 1 * avgM sh 0 (-1) = avgM sh 0 (-1) * avgM sh 2 1 := avgM_comm (by decide) _ _
  have c21 : avgM sh 2 1 * avgM sh 1 (-1) = avgM sh 1 (-1) * avgM sh 2 1 := avgM_comm (by decide) _ _
  have pn : ∀ (a b : Fin 3) (v : Fin sh.size → ℂ) (c : Cell sh), ((avgM sh a (-1) * avgM sh b 1) *ᵥ v) (pos c) = avgPrev a (avgNext b (onCells v)) c := by
    intro a b v c
    rw [← Matrix.mulVec_mulVec]
    exact congrFun ((avgM_prev_fun _ _).trans (congrArg _ (avgM_next_fun _ _))) c
  have np : ∀ (a b : Fin 3) (v : Fin sh.size → ℂ) (c : Cell sh), ((avgM sh a 1 * avgM sh b (-1)) *ᵥ v) (pos c) = avgNext a (avgPrev b (onCells v)) c := by
    intro a b v c
    rw [← Matrix.mulVec_mulVec]
    exact congrFun ((avgM_next_fun _ _).trans (congrArg _ (avgM_prev_fun _ _))) c
  intro b c
  match axis, b with
  | 0, 0 => rw [moveH, diag3_mulVec]; exact congrFun (Matrix.one_mulVec _) _
  | 0, 1 =>
    rw [moveH, diag3_mulVec]
    show ((avgM sh 1 1 * avgM sh 0 (-1)) *ᵥ _) (pos c) = _
    rw [c10, pn]; rfl
  | 0, 2 =>
    rw [moveH, diag3_mulVec]
    show ((avgM sh 2 1 * avgM sh 0 (-1)) *ᵥ _) (pos c) = _
    rw [c20, pn]; rfl
  | 1, 0 => rw [moveH, diag3_mulVec]; exact np 0 1 _ c
  | 1, 1 => rw [moveH, diag3_mulVec]; exact congrFun (Matrix.one_mulVec _) _
  | 1, 2 =>
    rw [moveH, diag3_mulVec]
    show ((avgM sh 2 1 * avgM sh 1 (-1)) *ᵥ _) (pos c) = _
    rw [c21, pn]; rfl
  | 2, 0 => rw [moveH, diag3_mulVec]; exact np 0 2 _ c
  | 2, 1 => rw [moveH, diag3_mulVec]; exact np 1 2 _ c
  | 2, 2 => rw [moveH, diag3_mulVec]; exact congrFun (Matrix.one_mulVec _) _

/-! ### The moved fields are at one position -/

/-- The cell has neighbours on both sides along every axis. -/
def Interior (c : Cell sh) : Prop := ∀ b, 0 < (c b).val ∧ (c b).val + 1 < sh b

/-- A quantity that varies linearly with the position, sampled at the positions `off`. -/
noncomputable def affine (α : ℂ) (β : Fin 3 → ℂ) (off : Fin 3 → Bool) : Cell sh → ℂ := fun c =>
  α + ∑ b, β b * (((c b).val : ℂ) + if off b then 1 / 2 else 0)

theorem affine_split (α : ℂ) (β : Fin 3 → ℂ) (off : Fin 3 → Bool) (c : Cell sh) : affine α β off c =
    α + β 0 * (((c 0).val : ℂ) + if off 0 then 1 / 2 else 0) + β 1 * (((c 1).val : ℂ) + if off 1 then 1 / 2 else 0) +
      β 2 * (((c 2).val : ℂ) + if off 2 then 1 / 2 else 0) := by
  rw [affine, Fin.sum_univ_three]; ring

theorem nextCell_val {c : Cell sh} {a : Fin 3} (h : (c a).val + 1 < sh a) (b : Fin 3) :
    ((nextCell a c b).val : ℂ) = ((c b).val : ℂ) + if b = a then 1 else 0 := by
  by_cases hb : b = a
  · subst hb
    rw [nextCell, if_pos rfl, if_pos rfl]
    simp only []
    rw [Nat.mod_eq_of_lt h]
    push_cast; rfl
  · rw [nextCell, if_neg hb, if_neg hb, add_zero]

theorem prevCell_val {c : Cell sh} {a : Fin 3} (h : 0 < (c a).val) (b : Fin 3) :
    ((prevCell a c b).val : ℂ) = ((c b).val : ℂ) - if b = a then 1 else 0 := by
  by_cases hb : b = a
  · subst hb
    rw [prevCell, if_pos rfl, if_pos rfl]
    simp only []
    have hl := (c b).isLt
    have : ((c b).val + (sh b - 1)) % sh b = (c b).val - 1 := by
      rw [show (c b).val + (sh b - 1) = ((c b).val - 1) + sh b by omega, Nat.add_mod_right, Nat.mod_eq_of_lt (by omega)]
    rw [this, Nat.cast_sub (by omega)]
    push_cast; rfl
  · rw [prevCell, if_neg hb, if_neg hb, sub_zero]

/-- C96: a quantity that varies linearly is moved exactly to the new position: at a cell that is not on the border of the grid the moved value is
the value of the quantity there. -/
theorem moved_exact (α : ℂ) (β : Fin 3 → ℂ) (src dst : Fin 3 → Bool) (c : Cell sh) (hc : Interior c) :
    shiftTo src dst (affine α β src) c = affine α β dst c := by
  have key : ∀ (i : Fin 3) (s t : Bool) (off : Fin 3 → Bool) (f : Cell sh → ℂ) (P : Cell sh → Prop),
      off i = s → (∀ c, P c → f c = affine α β off c) → ∀ c : Cell sh, 0 < (c i).val ∧ (c i).val + 1 < sh i → P c →
        P (nextCell i c) → P (prevCell i c) → shiftHalf i s t f c = affine α β (Function.update off i t) c := by
    intro i s t off f P hs hf c hc h0 h1 h2
    have e1 : ∀ b, ((nextCell i c b).val : ℂ) = ((c b).val : ℂ) + if b = i then 1 else 0 := nextCell_val hc.2
    have e2 : ∀ b, ((prevCell i c b).val : ℂ) = ((c b).val : ℂ) - if b = i then 1 else 0 := prevCell_val hc.1
    cases s <;> cases t
    · show f c = _
      rw [hf c h0]
      congr 1
      rw [← hs, Function.update_eq_self]
    · show (f c + f (nextCell i c)) / 2 = _
      rw [hf c h0, hf _ h1, affine_split, affine_split, affine_split]
      simp only [e1]
      match i, hs with
      | 0, hs => simp [Function.update, hs]; ring
      | 1, hs => simp [Function.update, hs]; ring
      | 2, hs => simp [Function.update, hs]; ring
    · show (f c + f (prevCell i c)) / 2 = _
      rw [hf c h0, hf _ h2, affine_split, affine_split, affine_split]
      simp only [e2]
      match i, hs with
      | 0, hs => simp [Function.update, hs]; ring
      | 1, hs => simp [Function.update, hs]; ring
      | 2, hs => simp [Function.update, hs]; ring
    · show f c = _
      rw [hf c h0]
      congr 1
      rw [← hs, Function.update_eq_self]
  have hn : ∀ (a b : Fin 3) (c : Cell sh), b ≠ a → nextCell a c b = c b := fun a b c h => by rw [nextCell, if_neg h]
  have hp : ∀ (a b : Fin 3) (c : Cell sh), b ≠ a → prevCell a c b = c b := fun a b c h => by rw [prevCell, if_neg h]
  have step2 : ∀ c : Cell sh, 0 < (c 2).val ∧ (c 2).val + 1 < sh 2 → shiftHalf 2 (src 2) (dst 2) (affine α β src) c =
      affine α β (Function.update src 2 (dst 2)) c := fun c hc =>
    key 2 (src 2) (dst 2) src (affine α β src) (fun _ => True) rfl (fun _ _ => rfl) c hc trivial trivial trivial
  have step1 : ∀ c : Cell sh, 0 < (c 2).val ∧ (c 2).val + 1 < sh 2 → 0 < (c 1).val ∧ (c 1).val + 1 < sh 1 →
      shiftHalf 1 (src 1) (dst 1) (shiftHalf 2 (src 2) (dst 2) (affine α β src)) c =
      affine α β (Function.update (Function.update src 2 (dst 2)) 1 (dst 1)) c := fun c h2 h1 =>
    key 1 (src 1) (dst 1) _ _ (fun c => 0 < (c 2).val ∧ (c 2).val + 1 < sh 2) (by simp [Function.update]) (fun c hc => step2 c hc) c h1 h2
      (by rw [hn 1 2 c (by decide)]; exact h2) (by rw [hp 1 2 c (by decide)]; exact h2)
  have step0 := key 0 (src 0) (dst 0) _ _ (fun c => (0 < (c 2).val ∧ (c 2).val + 1 < sh 2) ∧ (0 < (c 1).val ∧ (c 1).val + 1 < sh 1))
    (by simp [Function.update]) (fun c hc => step1 c hc.1 hc.2) c (hc 0) ⟨hc 2, hc 1⟩
    (by rw [hn 0 2 c (by decide), hn 0 1 c (by decide)]; exact ⟨hc 2, hc 1⟩) (by rw [hp 0 2 c (by decide), hp 0 1 c (by decide)]; exact ⟨hc 2, hc 1⟩)
  rw [shiftTo, step0]
  congr 1
  funext b
  match b with
  | 0 => simp [Function.update]
  | 1 => simp [Function.update]
  | 2 => simp [Function.update]

/-! ### The transformation -/

theorem vecCross_mulVec {n : Nat} (b V : VField n) (a : Fin 3) (i : Fin n) :
    (vecCross b *ᵥ V) (a, i) = crossC (fun j => b (j, i)) (fun j => V (j, i)) a := by
  rw [vecCross, cross, bmat_mulVec, Fin.sum_univ_three]
  match a with
  | 0 =>
    show ((0 : Mat n) *ᵥ comp V 0) i + ((-Matrix.diagonal fun i => b (2, i)) *ᵥ comp V 1) i + ((Matrix.diagonal fun i => b (1, i)) *ᵥ comp V 2) i =
      b (1, i) * V (2, i) - b (2, i) * V (1, i)
    rw [Matrix.zero_mulVec, Matrix.neg_mulVec, Pi.neg_apply, Matrix.mulVec_diagonal, Matrix.mulVec_diagonal, Fdfd.comp, Fdfd.comp]
    simp only [Pi.zero_apply]; ring
  | 1 =>
    show ((Matrix.diagonal fun i => b (2, i)) *ᵥ comp V 0) i + ((0 : Mat n) *ᵥ comp V 1) i + ((-Matrix.diagonal fun i => b (0, i)) *ᵥ comp V 2) i =
      b (2, i) * V (0, i) - b (0, i) * V (2, i)
    rw [Matrix.zero_mulVec, Matrix.neg_mulVec, Pi.neg_apply, Matrix.mulVec_diagonal, Matrix.mulVec_diagonal, Fdfd.comp, Fdfd.comp]
    simp only [Pi.zero_apply]; ring
  | 2 =>
    show ((-Matrix.diagonal fun i => b (1, i)) *ᵥ comp V 0) i + ((Matrix.diagonal fun i => b (0, i)) *ᵥ comp V 1) i + ((0 : Mat n) *ᵥ comp V 2) i =
      b (0, i) * V (1, i) - b (1, i) * V (0, i)
    rw [Matrix.zero_mulVec, Matrix.neg_mulVec, Pi.neg_apply, Matrix.mulVec_diagonal, Matrix.mulVec_diagonal, Fdfd.comp, Fdfd.comp]
    simp only [Pi.zero_apply]; ring

theorem waveK_unit {omega : ℂ} {r : V3} (hr : dot r r = 1) (b : Fin 3) : waveK omega r b = omega * r b := by
  have h : r 0 ^ 2 + r 1 ^ 2 + r 2 ^ 2 = 1 := by rw [dot] at hr; linarith
  rw [waveK, h, Real.sqrt_one]
  simp

theorem area_eq (p : Plane) (d : Dxes) (c : Cell sh) : p.area d c = cellArea d p.axis c := by
  rw [Plane.area, cellArea]
  generalize p.axis = b
  have h0 : (Finset.univ.erase (0 : Fin 3)) = {1, 2} := by decide
  have h1 : (Finset.univ.erase (1 : Fin 3)) = {0, 2} := by decide
  have h2 : (Finset.univ.erase (2 : Fin 3)) = {0, 1} := by decide
  match b with
  | 0 => rw [h0, Finset.prod_pair (by decide)]; simp
  | 1 => rw [h1, Finset.prod_pair (by decide)]; simp
  | 2 => rw [h2, Finset.prod_pair (by decide)]; simp

theorem fourier_mulVec (p : Plane) (xyz : Fin 3 → Nat → ℝ) (d : Dxes) (points : Fin m → V3) (omega : ℂ) (V : VField sh.size) (a : Fin 3)
    (i : Fin m) (hr : dot (points i) (points i) = 1) :
    (fourier p xyz d points omega *ᵥ V) (a, i) = radiation p xyz (gridPos xyz) d omega (points i) (asField V) a := by
  classical
  rw [Matrix.mulVec, dotProduct, Fintype.sum_prod_type, Finset.sum_eq_single a]
  · rw [sum_pos, radiation, Finset.sum_filter]
    refine Finset.sum_congr rfl fun c _ => ?_
    simp only [fourier, if_true, cellAt_pos]
    by_cases h : p.selected xyz c
    · rw [if_pos h, if_pos h, area_eq, waveK_unit hr, waveK_unit hr, waveK_unit hr]
      congr 3
      simp only [dot, gridPos]
      push_cast; ring
    · rw [if_neg h, if_neg h, zero_mul]
  · intro b _ hb
    refine Finset.sum_eq_zero fun j _ => ?_
    simp only [fourier]
    rw [if_neg (Ne.symm hb), zero_mul]
  · intro h; exact absurd (Finset.mem_univ _) h

theorem cart2spheric_mulVec (axis : Fin 3) (points : Fin m → V3) (V : VField m) (a : Fin 3) (i : Fin m) :
    (cart2spheric axis points *ᵥ V) (a, i) = ∑ b, (toSpherical axis (points i) a b : ℂ) * V (b, i) := by
  rw [cart2spheric, bmat_mulVec]
  refine Finset.sum_congr rfl fun b _ => ?_
  rw [Matrix.mulVec_diagonal]
  rfl

theorem radiation_congr (p : Plane) (xyz : Fin 3 → Nat → ℝ) (x : Cell sh → V3) (d : Dxes) (omega : ℂ) (r : V3) {V W : FieldT sh}
    (h : ∀ a c, V a c = W a c) : radiation p xyz x d omega r V = radiation p xyz x d omega r W := by
  have : V = W := by funext a c; exact h a c
  rw [this]

/-- C96: the matrix exists; it has no radial part, and its other parts are the components along two unit vectors of the far field of the currents on
the plane, with both fields taken at the position of the magnetic component along the normal, and their positions taken from the grid. -/
theorem far_field (points : Fin m → V3) (hr : ∀ i, dot (points i) (points i) = 1) (omega : ℂ) (xyz : Fin 3 → Nat → ℝ) (d : Dxes) (p : Plane)
    (eps0 mu0 : ℂ) (he : eps0 ≠ 0) (axis : Fin 3) : ∃ t : ToFar m sh.size, nearToFar points omega xyz d p eps0 mu0 axis = some t ∧
      ∀ (E : VField sh.size) (i : Fin m), (t *ᵥ E) (0, i) = 0 ∧ ∀ a : Fin 3, a ≠ 0 → (t *ᵥ E) (a, i) =
        ∑ b, (toSpherical axis (points i) a b : ℂ) * huygens p xyz (gridPos xyz) d omega mu0 (points i) (centredE p.axis (asField E))
          (centredH p.axis (magneticOf d omega (asField E))) b := by
  obtain ⟨C, eh, hC, heh, _⟩ := e2h_exists (sh := sh) d omega
  refine ⟨_, by rw [nearToFar, heh, Option.bind_some, avgf_all, Option.bind_some, avgb_all, Option.map_some], fun E i => ⟨?_, fun a ha => ?_⟩⟩
  · rw [← Matrix.mulVec_mulVec, diag3_mulVec]
    show ((0 : Mat m) *ᵥ _) i = 0
    rw [Matrix.zero_mulVec]; rfl
  · rw [← Matrix.mulVec_mulVec, diag3_mulVec]
    have h1 : (![0, 1, 1] : Fin 3 → Mat m) a = 1 := by
      match a, ha with
      | 0, h => exact absurd rfl h
      | 1, _ => rfl
      | 2, _ => rfl
    rw [h1, Matrix.one_mulVec, ← Matrix.mulVec_mulVec, cart2spheric_mulVec]
    refine Finset.sum_congr rfl fun b _ => ?_
    congr 1
    have hmag := e2h_magnetic heh E
    have hA : ∀ b : Fin 3, (fourier p xyz d points omega *ᵥ (vecCross (fun q : Fin 3 × Fin sh.size => (p.normal q.1 : ℂ)) *ᵥ
        (moveH (fun a => avgM sh a 1) (fun a => avgM sh a (-1)) p.axis *ᵥ (eh *ᵥ E)))) (b, i) =
        radiation p xyz (gridPos xyz) d omega (points i) (fun b c => crossC (fun i => (p.normal i : ℂ))
          (fun i => centredH p.axis (magneticOf d omega (asField E)) i c) b) b := by
      intro b
      rw [fourier_mulVec p xyz d points omega _ b i (hr i)]
      refine congrFun (radiation_congr _ _ _ _ _ _ fun a c => ?_) b
      rw [asField, vecCross_mulVec]
      congr 1
      funext j
      rw [moveH_mulVec p.axis (eh *ᵥ E) j c]
      have : asField (eh *ᵥ E) = magneticOf d omega (asField E) := by funext a c; exact hmag a c
      rw [this]
    have hF : ∀ b : Fin 3, (fourier p xyz d points omega *ᵥ ((-(vecCross (fun q : Fin 3 × Fin sh.size => (p.normal q.1 : ℂ)))) *ᵥ
        (moveE (fun a => avgM sh a 1) (fun a => avgM sh a (-1)) p.axis *ᵥ E))) (b, i) =
        radiation p xyz (gridPos xyz) d omega (points i) (fun b c => -crossC (fun i => (p.normal i : ℂ))
          (fun i => centredE p.axis (asField E) i c) b) b := by
      intro b
      rw [fourier_mulVec p xyz d points omega _ b i (hr i)]
      refine congrFun (radiation_congr _ _ _ _ _ _ fun a c => ?_) b
      rw [asField, Matrix.neg_mulVec, Pi.neg_apply, vecCross_mulVec]
      congr 2
      funext j
      rw [moveE_mulVec p.axis E j c]
    simp only [Matrix.sub_mulVec, Pi.sub_apply, Matrix.smul_mulVec, Pi.smul_apply, smul_eq_mul, ← Matrix.mulVec_mulVec]
    rw [hA b, vecCross_mulVec, huygens]
    have hc : ∀ G : Fin 3 → ℂ, crossC (fun j => omega * (points i j : ℂ)) G b = omega * crossC (fun j => (points i j : ℂ)) G b := by
      intro G; simp only [crossC]; ring
    rw [hc, show (fun j => (fourier p xyz d points omega *ᵥ ((-(vecCross (fun q : Fin 3 × Fin sh.size => (p.normal q.1 : ℂ)))) *ᵥ
        (moveE (fun a => avgM sh a 1) (fun a => avgM sh a (-1)) p.axis *ᵥ E))) (j, i)) = _ from funext hF,
      show -Complex.I * omega * 1 = -(Complex.I * omega) by ring, div_mul_cancel₀ _ he]
    field_simp
    ring

/-! ### The components -/

/-- The unit vectors of the spherical coordinates about z. -/
noncomputable def thetaHat (θ φ : ℝ) : V3 := ![Real.cos θ * Real.cos φ, Real.cos θ * Real.sin φ, -Real.sin θ]
noncomputable def phiHat (φ : ℝ) : V3 := ![-Real.sin φ, Real.cos φ, 0]

theorem toSpherical_two (x : V3) (i j : Fin 3) : toSpherical 2 x i j = t3d (thOf 2 x) (phOf 2 x) i j := by
  rw [toSpherical, sub_self, sub_zero]

/-- C96: for the spherical coordinates about z the components are those along the polar and the azimuthal unit vector. -/
theorem components_z (θ φ : ℝ) (h0 : 0 < θ) (h1 : θ < Real.pi) (p0 : -Real.pi < φ) (p1 : φ ≤ Real.pi) (b : Fin 3) :
    toSpherical 2 (spherical 1 θ φ) 1 b = thetaHat θ φ b ∧ toSpherical 2 (spherical 1 θ φ) 2 b = phiHat φ b := by
  have hs : 0 < Real.sin θ := Real.sin_pos_of_pos_of_lt_pi h0 h1
  have hr : Real.sqrt (spherical 1 θ φ 0 ^ 2 + spherical 1 θ φ 1 ^ 2 + spherical 1 θ φ 2 ^ 2) = 1 := by
    rw [show spherical 1 θ φ 0 ^ 2 + spherical 1 θ φ 1 ^ 2 + spherical 1 θ φ 2 ^ 2 = 1 by
      simp [spherical]
      linear_combination Real.sin θ ^ 2 * Real.sin_sq_add_cos_sq φ + Real.sin_sq_add_cos_sq θ, Real.sqrt_one]
  have ht : thOf 2 (spherical 1 θ φ) = θ := by
    rw [thOf, hr]
    simp [spherical, Real.arccos_cos h0.le h1.le]
  have hp : phOf 2 (spherical 1 θ φ) = φ := by
    have hz : ((spherical 1 θ φ (2 + 1) : ℝ) : ℂ) + Complex.I * ((spherical 1 θ φ (2 + 2) : ℝ) : ℂ) =
        ((Real.sin θ : ℝ) : ℂ) * (Complex.cos φ + Complex.sin φ * Complex.I) := by
      show ((1 * (Real.sin θ * Real.cos φ) : ℝ) : ℂ) + Complex.I * ((1 * (Real.sin θ * Real.sin φ) : ℝ) : ℂ) = _
      push_cast; ring
    rw [phOf, hz, npAngle, Complex.arg_mul_cos_add_sin_mul_I hs ⟨p0, p1⟩]
  rw [toSpherical_two, toSpherical_two, ht, hp]
  fin_cases b <;> simp [t3d, thetaHat, phiHat]

theorem spherical_sq {x : V3} (hx : dot x x = 1) : x 2 ^ 2 ≤ 1 := by
  rw [dot] at hx; nlinarith [sq_nonneg (x 0), sq_nonneg (x 1)]

/-- The first row is the direction itself. -/
theorem radial_row {x : V3} (hx : dot x x = 1) (b : Fin 3) : toSpherical 2 x 0 b = x b := by
  have hr : Real.sqrt (x 0 ^ 2 + x 1 ^ 2 + x 2 ^ 2) = 1 := by
    rw [show x 0 ^ 2 + x 1 ^ 2 + x 2 ^ 2 = 1 by rw [dot] at hx; linarith, Real.sqrt_one]
  have hz := spherical_sq hx
  have hcos : Real.cos (thOf 2 x) = x 2 := by
    rw [thOf, hr, div_one, Real.cos_arccos (by nlinarith) (by nlinarith)]
  have hsin : Real.sin (thOf 2 x) = ‖((x 0 : ℂ) + Complex.I * (x 1 : ℂ))‖ := by
    rw [thOf, hr, div_one, Real.sin_arccos, mul_comm, Complex.norm_add_mul_I]
    congr 1
    rw [dot] at hx; linarith
  have k1 : ‖(x 0 : ℂ) + Complex.I * (x 1 : ℂ)‖ * Real.cos (phOf 2 x) = x 0 := by
    rw [phOf, npAngle]
    exact (Complex.norm_mul_cos_arg _).trans (by simp)
  have k2 : ‖(x 0 : ℂ) + Complex.I * (x 1 : ℂ)‖ * Real.sin (phOf 2 x) = x 1 := by
    rw [phOf, npAngle]
    exact (Complex.norm_mul_sin_arg _).trans (by simp)
  rw [toSpherical_two]
  fin_cases b
  · show Real.sin _ * Real.cos _ = x 0
    rw [hsin, k1]
  · show Real.sin _ * Real.sin _ = x 1
    rw [hsin, k2]
  · exact hcos

/-- The squares of the three components add up to those of the vector. -/
theorem t3d_isometry (θ φ : ℝ) (V : Fin 3 → ℂ) : (∑ a, ‖∑ b, (t3d θ φ a b : ℂ) * V b‖ ^ 2) = ∑ b, ‖V b‖ ^ 2 := by
  have hn : ∀ z : ℂ, ‖z‖ ^ 2 = z.re ^ 2 + z.im ^ 2 := fun z => by rw [← Complex.normSq_eq_norm_sq, Complex.normSq_apply]; ring
  simp only [hn, Fin.sum_univ_three, Complex.add_re, Complex.add_im, Complex.re_ofReal_mul, Complex.im_ofReal_mul]
  simp only [t3d, Matrix.of_apply, Matrix.cons_val', Matrix.cons_val_zero, Matrix.cons_val_one, Matrix.cons_val, Matrix.cons_val_fin_one]
  have hs := Real.sin_sq_add_cos_sq θ
  have hp := Real.sin_sq_add_cos_sq φ
  have key : ∀ x y z : ℝ, (Real.sin θ * Real.cos φ * x + Real.sin θ * Real.sin φ * y + Real.cos θ * z) ^ 2 +
      (Real.cos θ * Real.cos φ * x + Real.cos θ * Real.sin φ * y + -Real.sin θ * z) ^ 2 + (-Real.sin φ * x + Real.cos φ * y + 0 * z) ^ 2 =
      x ^ 2 + y ^ 2 + z ^ 2 := by
    intro x y z
    linear_combination ((Real.cos φ * x + Real.sin φ * y) ^ 2 + z ^ 2) * hs + (x ^ 2 + y ^ 2) * hp
  linear_combination key (V 0).re (V 1).re (V 2).re + key (V 0).im (V 1).im (V 2).im

/-- C96: for the spherical coordinates about z the intensity of the two components is that of the part of the far field across the direction, in every
direction, also along the axis. -/
theorem transverse_intensity {x : V3} (hx : dot x x = 1) (V : Fin 3 → ℂ) :
    ‖∑ b, (toSpherical 2 x 1 b : ℂ) * V b‖ ^ 2 + ‖∑ b, (toSpherical 2 x 2 b : ℂ) * V b‖ ^ 2 = (∑ b, ‖V b‖ ^ 2) - ‖∑ b, (x b : ℂ) * V b‖ ^ 2 := by
  have h := t3d_isometry (thOf 2 x) (phOf 2 x) V
  rw [Fin.sum_univ_three] at h
  simp only [← toSpherical_two, radial_row hx] at h
  linarith

/-- C96, where it fails: for the spherical coordinates about y (and about x) the columns of the transformation are rolled the wrong way: in the direction
of x (of y) the component that is dropped as the radial one is the one along z. -/
theorem spherical_axis_false : (∀ b, toSpherical 1 ![1, 0, 0] 0 b = ![0, 0, 1] b) ∧ ∀ b, toSpherical 0 ![0, 1, 0] 0 b = ![0, 0, 1] b := by
  have hI : npAngle Complex.I = Real.pi / 2 := Complex.arg_I
  have h1 : npAngle (1 : ℂ) = 0 := Complex.arg_one
  constructor
  · have ht : thOf 1 ![1, 0, 0] = Real.pi / 2 := by simp [thOf]
    have hp : phOf 1 ![1, 0, 0] = Real.pi / 2 := by
      rw [phOf]
      show npAngle (((0 : ℝ) : ℂ) + Complex.I * ((1 : ℝ) : ℂ)) = _
      simp [hI]
    intro b
    rw [toSpherical, ht, hp]
    match b with
    | 0 => show Real.cos _ = 0; exact Real.cos_pi_div_two
    | 1 => show Real.sin _ * Real.cos _ = 0; rw [Real.cos_pi_div_two, mul_zero]
    | 2 => show Real.sin _ * Real.sin _ = 1; rw [Real.sin_pi_div_two, mul_one]
  · have ht : thOf 0 ![0, 1, 0] = Real.pi / 2 := by simp [thOf]
    have hp : phOf 0 ![0, 1, 0] = 0 := by
      rw [phOf]
      show npAngle (((1 : ℝ) : ℂ) + Complex.I * ((0 : ℝ) : ℂ)) = _
      simp [h1]
    intro b
    rw [toSpherical, ht, hp]
    match b with
    | 0 => show Real.sin _ * Real.sin _ = 0; rw [Real.sin_zero, mul_zero]
    | 1 => show Real.cos _ = 0; exact Real.cos_pi_div_two
    | 2 => show Real.sin _ * Real.cos _ = 1; rw [Real.sin_pi_div_two, Real.cos_zero, mul_one]

/-! ### The cells of a plane -/

/-- `i` is the first of the positions closest to `x`. -/
def Nearest (n : Nat) (xs : Nat → ℝ) (x : ℝ) (i : Nat) : Prop :=
  i < n ∧ (∀ j, j < n → |x - xs i| ≤ |x - xs j|) ∧ ∀ j, j < i → |x - xs i| < |x - xs j|

theorem argmin_range (f : Nat → ℝ) : ∀ n, ∃ i, (List.range (n + 1)).argmin f = some i ∧ i < n + 1 ∧ (∀ j, j < n + 1 → f i ≤ f j) ∧
    ∀ j, j < i → f i < f j
  | 0 => ⟨0, rfl, by omega, fun j hj => by rw [show j = 0 by omega], fun j hj => by omega⟩
  | n + 1 => by
    obtain ⟨i, hi, h1, h2, h3⟩ := argmin_range f n
    rw [List.range_succ, List.argmin_concat, hi]
    by_cases h : f (n + 1) < f i
    · refine ⟨n + 1, by simp only [if_pos h], by omega, fun j hj => ?_, fun j hj => lt_of_lt_of_le h (h2 j hj)⟩
      rcases Nat.lt_succ_iff_lt_or_eq.1 hj with hj | rfl
      · exact h.le.trans (h2 j hj)
      · exact le_refl _
    · refine ⟨i, by simp only [if_neg h], by omega, fun j hj => ?_, h3⟩
      rcases Nat.lt_succ_iff_lt_or_eq.1 hj with hj | rfl
      · exact h2 j hj
      · exact not_lt.1 h

theorem findInd_nearest (n : Nat) (hn : 0 < n) (xs : Nat → ℝ) (x : ℝ) : Nearest n xs x (findInd n xs x) := by
  obtain ⟨k, rfl⟩ : ∃ k, n = k + 1 := ⟨n - 1, by omega⟩
  obtain ⟨i, hi, h⟩ := argmin_range (fun i => |x - xs i|) k
  rw [findInd, hi]
  exact h

/-- C96: the plane consists of the cells of one layer, the closest to its position, and across it of the cells from the one closest to the lower bound
up to, and without, the one closest to the upper bound. -/
theorem plane_cells (p : Plane) (hp : p.polarity = 1 ∨ p.polarity = -1) (hw : p.width p.axis = 0) (xyz : Fin 3 → Nat → ℝ) (c : Cell sh) :
    p.selected xyz c ↔ Nearest (sh p.axis) (xyz p.axis) (p.pos p.axis) (c p.axis).val ∧ ∀ b, b ≠ p.axis → ∃ lo hi,
      Nearest (sh b) (xyz b) (p.pos b - p.width b / 2) lo ∧ Nearest (sh b) (xyz b) (p.pos b + p.width b / 2) hi ∧ lo ≤ (c b).val ∧ (c b).val < hi := by
  have hsh : ∀ b, 0 < sh b := fun b => lt_of_le_of_lt (Nat.zero_le _) (c b).isLt
  have huniq : ∀ {n xs x i j}, Nearest n xs x i → Nearest n xs x j → i = j := by
    intro n xs x i j hi hj
    rcases Nat.lt_trichotomy i j with h | h | h
    · exact absurd (hi.2.1 j hj.1) (not_le.2 (hj.2.2 i h))
    · exact h
    · exact absurd (hj.2.1 i hi.1) (not_le.2 (hi.2.2 j h))
  have hax : p.lo sh xyz p.axis = findInd (sh p.axis) (xyz p.axis) (p.pos p.axis) ∧
      p.hi sh xyz p.axis = findInd (sh p.axis) (xyz p.axis) (p.pos p.axis) + 1 := by
    constructor
    · rw [Plane.lo, hw, zero_div, sub_zero]
    · rw [Plane.hi, hw, zero_div, add_zero, Plane.normal, if_pos rfl]
      rcases hp with h | h <;> rw [h] <;> rfl
  have hoff : ∀ b, b ≠ p.axis → p.hi sh xyz b = findInd (sh b) (xyz b) (p.pos b + p.width b / 2) := by
    intro b hb
    rw [Plane.hi, Plane.normal, if_neg hb]; rfl
  constructor
  · intro h
    refine ⟨?_, fun b hb => ⟨_, _, findInd_nearest _ (hsh b) _ _, findInd_nearest _ (hsh b) _ _, (h b).1, by rw [← hoff b hb]; exact (h b).2⟩⟩
    have h1 := h p.axis
    rw [hax.1, hax.2] at h1
    have : (c p.axis).val = findInd (sh p.axis) (xyz p.axis) (p.pos p.axis) := by omega
    rw [this]
    exact findInd_nearest _ (hsh _) _ _
  · rintro ⟨h1, h2⟩ b
    by_cases hb : b = p.axis
    · subst hb
      have := huniq h1 (findInd_nearest _ (hsh _) _ _)
      rw [hax.1, hax.2, ← this]
      exact ⟨le_refl _, Nat.lt_succ_self _⟩
    · obtain ⟨lo, hi, hl, hh, a, b'⟩ := h2 b hb
      rw [hoff b hb, Plane.lo, ← huniq hl (findInd_nearest _ (hsh b) _ _), ← huniq hh (findInd_nearest _ (hsh b) _ _)]
      exact ⟨a, b'⟩

/-! ### The positions of the samples -/

/-- The positions of the samples of a plane on an even grid of widths `h`: those of the magnetic component along the axis. -/
noncomputable def samplePos (xyz : Fin 3 → Nat → ℝ) (h : V3) (axis : Fin 3) (c : Cell sh) : V3 := fun b =>
  gridPos xyz c b + if b = axis then 0 else h b / 2

/-- The phase of half a cell across the axis. -/
noncomputable def halfCell (h : V3) (axis : Fin 3) (r : V3) : ℝ := ∑ b, if b = axis then 0 else r b * h b / 2

/-- C96: on an even grid the far field of one plane has the phase of a plane half a cell away, and otherwise is that of the samples at their own
positions. -/
theorem plane_offset (p : Plane) (xyz : Fin 3 → Nat → ℝ) (d : Dxes) (omega mu0 : ℂ) (h r : V3) (axis : Fin 3) (E H : FieldT sh) (a : Fin 3) :
    huygens p xyz (samplePos xyz h axis) d omega mu0 r E H a =
      Complex.exp (Complex.I * omega * (halfCell h axis r : ℂ)) * huygens p xyz (gridPos xyz) d omega mu0 r E H a := by
  have hd : ∀ c : Cell sh, dot r (samplePos xyz h axis c) = halfCell h axis r + dot r (gridPos xyz c) := by
    intro c
    rw [halfCell, Fin.sum_univ_three]
    simp only [dot, samplePos]
    match axis with
    | 0 => simp; ring
    | 1 => simp; ring
    | 2 => simp; ring
  have hr : ∀ (V : FieldT sh) (a : Fin 3), radiation p xyz (samplePos xyz h axis) d omega r V a =
      Complex.exp (Complex.I * omega * (halfCell h axis r : ℂ)) * radiation p xyz (gridPos xyz) d omega r V a := by
    intro V a
    rw [radiation, radiation, Finset.mul_sum]
    refine Finset.sum_congr rfl fun c _ => ?_
    rw [hd c, Complex.ofReal_add, mul_add, Complex.exp_add]
    ring
  rw [huygens, huygens, hr]
  simp only [crossC, hr]
  ring

/-- C96: so the intensity of one plane is right for a real frequency. -/
theorem plane_offset_intensity (p : Plane) (xyz : Fin 3 → Nat → ℝ) (d : Dxes) (omega : ℝ) (mu0 : ℂ) (h r : V3) (axis : Fin 3) (E H : FieldT sh)
    (a : Fin 3) : ‖huygens p xyz (samplePos xyz h axis) d omega mu0 r E H a‖ = ‖huygens p xyz (gridPos xyz) d omega mu0 r E H a‖ := by
  rw [plane_offset, norm_mul, show Complex.I * (omega : ℂ) * (halfCell h axis r : ℂ) = ((omega * halfCell h axis r : ℝ) : ℂ) * Complex.I by
    push_cast; ring, Complex.norm_exp_ofReal_mul_I, one_mul]

/-- C96, where it fails: the sides of a box have phases of different planes; in the direction of z the sides across z and across x differ by half a cell. -/
theorem box_offset_false (h : V3) : halfCell h 2 ![0, 0, 1] = 0 ∧ halfCell h 0 ![0, 0, 1] = h 2 / 2 := by
  constructor <;> simp [halfCell, Fin.sum_univ_three]

/-! ### Boxes -/

/-- The far field of the box: the sum over its six sides. -/
theorem sumPlanes_eq (points : Fin m → V3) (hr : ∀ i, dot (points i) (points i) = 1) (omega : ℂ) (xyz : Fin 3 → Nat → ℝ) (d : Dxes)
    (eps0 : ℂ) (he : eps0 ≠ 0) (axis : Fin 3) (l : List Plane) : ∃ t : ToFar m sh.size, sumPlanes points omega xyz d eps0 axis l = some t ∧
      ∀ (E : VField sh.size) (i : Fin m), (t *ᵥ E) (0, i) = 0 ∧ ∀ a : Fin 3, a ≠ 0 → (t *ᵥ E) (a, i) =
        ∑ b, (toSpherical axis (points i) a b : ℂ) * (l.map fun p => huygens p xyz (gridPos xyz) d omega 1 (points i) (centredE p.axis (asField E))
          (centredH p.axis (magneticOf d omega (asField E))) b).sum := by
  induction l with
  | nil => exact ⟨0, rfl, fun E i => ⟨by simp, fun a _ => by simp⟩⟩
  | cons p l ih =>
    obtain ⟨s, hs, hs'⟩ := ih
    obtain ⟨t, ht, ht'⟩ := far_field points hr omega xyz d p eps0 1 he axis
    refine ⟨t + s, by rw [sumPlanes, ht, Option.bind_some, hs, Option.map_some], fun E i => ⟨?_, fun a ha => ?_⟩⟩
    · rw [Matrix.add_mulVec, Pi.add_apply, (ht' E i).1, (hs' E i).1, add_zero]
    · rw [Matrix.add_mulVec, Pi.add_apply, (ht' E i).2 a ha, (hs' E i).2 a ha, ← Finset.sum_add_distrib]
      refine Finset.sum_congr rfl fun b _ => ?_
      rw [List.map_cons, List.sum_cons, mul_add]

/-- C96: the far field of a box is the sum of those of its six sides, whose normals point outwards; the permeability that is given to it is not used. -/
theorem box_far_field (points : Fin m → V3) (hr : ∀ i, dot (points i) (points i) = 1) (omega : ℂ) (xyz : Fin 3 → Nat → ℝ) (d : Dxes)
    (center size : V3) (eps0 mu0 : ℂ) (he : eps0 ≠ 0) (axis : Fin 3) : ∃ t : ToFar m sh.size,
      boxToFar points omega xyz d center size eps0 mu0 axis = some t ∧
      ∀ (E : VField sh.size) (i : Fin m), (t *ᵥ E) (0, i) = 0 ∧ ∀ a : Fin 3, a ≠ 0 → (t *ᵥ E) (a, i) =
        ∑ b, (toSpherical axis (points i) a b : ℂ) * ((boxPlanes center size).map fun p => huygens p xyz (gridPos xyz) d omega 1 (points i)
          (centredE p.axis (asField E)) (centredH p.axis (magneticOf d omega (asField E))) b).sum :=
  sumPlanes_eq points hr omega xyz d eps0 he axis _

/-- C96: the sides of a box of positive size: for each axis one with the normal against and one with the normal along the axis. -/
theorem box_normals (center size : V3) (hs : ∀ b, 0 < size b) : (boxPlanes center size).map Plane.normal =
    [![-1, 0, 0], ![1, 0, 0], ![0, -1, 0], ![0, 1, 0], ![0, 0, -1], ![0, 0, 1]] := by
  have h0 := hs 0
  have h1 := hs 1
  have h2 := hs 2
  have n0 : ∀ (x : V3) (k : ℤ), (⟨x, ![0, size 1, size 2], k⟩ : Plane).normal = ![k, 0, 0] := by
    intro x k
    have : (⟨x, ![0, size 1, size 2], k⟩ : Plane).axis = 0 := by
      rw [Plane.axis, argminAbs]
      simp
    funext b; rw [Plane.normal, this]; fin_cases b <;> rfl
  have n1 : ∀ (x : V3) (k : ℤ), (⟨x, ![size 0, 0, size 2], k⟩ : Plane).normal = ![0, k, 0] := by
    intro x k
    have : (⟨x, ![size 0, 0, size 2], k⟩ : Plane).axis = 1 := by
      rw [Plane.axis, argminAbs]
      simp [h0.ne']
    funext b; rw [Plane.normal, this]; fin_cases b <;> rfl
  have n2 : ∀ (x : V3) (k : ℤ), (⟨x, ![size 0, size 1, 0], k⟩ : Plane).normal = ![0, 0, k] := by
    intro x k
    have : (⟨x, ![size 0, size 1, 0], k⟩ : Plane).axis = 2 := by
      rw [Plane.axis, argminAbs]
      simp [h0.ne', h1.ne']
    funext b; rw [Plane.normal, this]; fin_cases b <;> rfl
  simp only [boxPlanes, List.map_cons, List.map_nil, n0, n1, n2]

/-- C96: the sides of a box: for each axis the two planes at half the size from the centre along it, of the size of the box across it. -/
theorem box_sides (center size : V3) : boxPlanes center size = (List.finRange 3).flatMap fun a =>
    [⟨fun b => if b = a then center b - size b / 2 else center b, fun b => if b = a then 0 else size b, -1⟩,
      ⟨fun b => if b = a then center b + size b / 2 else center b, fun b => if b = a then 0 else size b, 1⟩] := by
  have h : List.finRange 3 = [0, 1, 2] := by decide
  rw [h]
  simp only [boxPlanes, List.flatMap_cons, List.flatMap_nil, List.cons_append, List.nil_append, List.cons.injEq, Plane.mk.injEq, and_true]
  refine ⟨⟨?_, ?_⟩, ⟨?_, ?_⟩, ⟨?_, ?_⟩, ⟨?_, ?_⟩, ⟨?_, ?_⟩, ?_, ?_⟩ <;> funext b <;> fin_cases b <;> simp

/-- The hypotheses are met by the points of the meshes. -/
example (n : Nat) : ∀ i : Fin (sphere n).points.length, dot ((sphere n).points.get i) ((sphere n).points.get i) = 1 := fun i =>
  sphere_unit n _ (List.get_mem _ _)

end Verif.Far
