import Verif.Fdfd.AdjointProps
import Verif.Fdfd.ConjProps
/-
Lemmas for property C124: the curls with Bloch phases under transposition, conjugation, scaling and translation, and the
absorbing layers of a scaled grid.
-/
namespace Verif.Fdfd.Laws
open Matrix
set_option linter.unusedSectionVars false
variable {sh : Shape}

/-! ### Transposition -/

theorem derivM_entry (w : Nat → ℂ) (a : Fin 3) (s : Int) (p : ℂ) (c c' : Cell sh) :
    derivM sh w a s p (pos c) (pos c') = w (c a) *
      ((if c' = moveCell c (unitDisp a s) then leave (sh a) p ((c a).val + s) else 0) - if c' = c then 1 else 0) := by
  have : derivM sh w a s p = cmono (fun c => moveCell c (unitDisp a s)) (fun c => w (c a) * leave (sh a) p ((c a).val + s)) -
      cdiag (fun c => w (c a)) := by
    rw [derivM, mul_sub, mul_one, shiftM, cdiag_mul_cmono]
  rw [this, Matrix.sub_apply, cmono_apply, cdiag_apply]
  split <;> split <;> ring

theorem leave_swap (x : Fin 3) (p : ℂ) (c c' : Cell sh) (h : c' = prevCell x c) :
    leave (sh x) p ((c x).val + (-1)) = leave (sh x) (-p) ((c' x).val + 1) := by
  have hc := (c x).isLt
  have hv : (c' x).val = ((c x).val + (sh x - 1)) % sh x := by rw [h, prevCell, if_pos rfl]
  by_cases h0 : (c x).val = 0
  · have hv' : (c' x).val = sh x - 1 := by rw [hv, h0, Nat.zero_add, Nat.mod_eq_of_lt (by omega)]
    rw [leave, leave, if_neg (by omega), if_pos (by omega), if_pos (by omega)]
  · have hv' : (c' x).val = (c x).val - 1 := by
      rw [hv, show (c x).val + (sh x - 1) = (c x).val - 1 + sh x by omega, Nat.add_mod_right, Nat.mod_eq_of_lt (by omega)]
    rw [leave, leave, if_neg (by omega), if_neg (by omega), if_neg (by omega), if_neg (by omega)]

theorem block_adjoint (d : Dxes) (a b x : Fin 3) (hab : a ≠ b) (hax : a ≠ x) (hbx : b ≠ x) (p : ℂ)
    (he : ∀ a i, i < sh a → d.e a i ≠ 0) (hh : ∀ a i, i < sh a → d.h a i ≠ 0) (i j : Fin sh.size) :
    pSquared sh d (a, i) * derivM sh (fun i => -1 / d.h x i) x (-1) p i j =
      -(derivM sh (fun i => 1 / d.e x i) x 1 (-p) j i * dualVol sh d (b, j)) := by
  obtain ⟨c, rfl⟩ : ∃ c, i = pos c := ⟨cellAt i, (pos_cellAt i).symm⟩
  obtain ⟨c', rfl⟩ : ∃ c, j = pos c := ⟨cellAt j, (pos_cellAt j).symm⟩
  rw [derivM_entry, derivM_entry, pSquared_apply, dualVol, cellAt_pos, move_next, move_prev]
  have huniv : (Finset.univ : Finset (Fin 3)) = {a, b, x} := by
    revert a b x; decide
  have hprod : ∀ f : Fin 3 → ℂ, ∏ y, f y = f a * (f b * f x) := by
    intro f
    rw [huniv, Finset.prod_insert (by simp [hab, hax]), Finset.prod_insert (by simp [hbx]),
      Finset.prod_singleton]
  rw [hprod, hprod, if_pos rfl, if_neg (Ne.symm hab), if_neg (Ne.symm hax), if_neg hab, if_pos rfl,
    if_neg (Ne.symm hbx)]
  have hx := hh x (c x) (c x).isLt
  have hx' := he x (c' x) (c' x).isLt
  have h1 : ∀ y : ℂ, d.e a (c a) * (d.h b (c b) * d.h x (c x)) * (-1 / d.h x (c x) * y) =
      -(d.e a (c a) * d.h b (c b) * y) := by
    intro y; field_simp
  have h2 : ∀ y : ℂ, 1 / d.e x (c' x) * y * (d.e a (c' a) * (d.h b (c' b) * d.e x (c' x))) =
      d.e a (c' a) * d.h b (c' b) * y := by
    intro y; field_simp
  rw [h1, h2]
  congr 1
  by_cases hp : c' = prevCell x c
  · have hn := (next_prev x c c').1 hp
    rw [if_pos hp, if_pos hn, leave_swap x p c c' hp]
    have ha : c' a = c a := by rw [hp, prevCell, if_neg hax]
    have hb : c' b = c b := by rw [hp, prevCell, if_neg hbx]
    rw [ha, hb]
    have : (c' = c) ↔ (c = c') := eq_comm
    simp only [this]
  · rw [if_neg hp, if_neg (fun e => hp ((next_prev x c c').2 e))]
    by_cases hc : c' = c
    · subst hc; rfl
    · rw [if_neg hc, if_neg (show ¬ c = c' from fun e => hc e.symm), sub_self, mul_zero, mul_zero]

/-- The curl of the electric field with the opposite Bloch vector is the transpose of the curl of the magnetic field, with
respect to the cell volumes. -/
theorem curl_transpose (d : Dxes) (k : Fin 3 → ℂ) (he : ∀ a i, i < sh a → d.e a i ≠ 0)
    (hh : ∀ a i, i < sh a → d.h a i ≠ 0) (hk : ∀ a, axisPhase sh d.e k a = axisPhase sh d.h k a) (ce ch : Mat3 sh.size)
    (hce : curlE sh d (-k) 0 = some ce) (hch : curlH sh d k 0 = some ch) :
    Matrix.diagonal (pSquared sh d) * ch = ceᵀ * Matrix.diagonal (dualVol sh d) := by
  rw [curlE, derivForward_zero, Option.map_some, Option.some.injEq] at hce
  rw [curlH, derivBack_zero, Option.map_some, Option.some.injEq] at hch
  subst hce hch
  have hneg : ∀ a, axisPhase sh d.e (-k) a = -axisPhase sh d.h k a := by
    intro a
    rw [← hk, axisPhase, axisPhase, Pi.neg_apply, mul_neg]
  simp only [hneg]
  ext ⟨a, i⟩ ⟨b, j⟩
  rw [Matrix.diagonal_mul, Matrix.mul_diagonal, Matrix.transpose_apply]
  have B := fun a b x h1 h2 h3 => block_adjoint d a b x h1 h2 h3 (axisPhase sh d.h k x) he hh i j
  match a, b with
  | 0, 0 =>
    show pSquared sh d _ * (0 : ℂ) = (0 : ℂ) * _
    rw [mul_zero, zero_mul]
  | 1, 1 =>
    show pSquared sh d _ * (0 : ℂ) = (0 : ℂ) * _
    rw [mul_zero, zero_mul]
  | 2, 2 =>
    show pSquared sh d _ * (0 : ℂ) = (0 : ℂ) * _
    rw [mul_zero, zero_mul]
  | 0, 1 =>
    have := B 0 1 2 (by decide) (by decide) (by decide)
    show pSquared sh d _ * (-(derivM sh (fun i => -1 / d.h 2 i) 2 (-1) _ i j)) =
      (derivM sh (fun i => 1 / d.e 2 i) 2 1 _ j i) * dualVol sh d _
    linear_combination -this
  | 0, 2 =>
    have := B 0 2 1 (by decide) (by decide) (by decide)
    show pSquared sh d _ * (derivM sh (fun i => -1 / d.h 1 i) 1 (-1) _ i j) =
      (-(derivM sh (fun i => 1 / d.e 1 i) 1 1 _ j i)) * dualVol sh d _
    linear_combination this
  | 1, 0 =>
    have := B 1 0 2 (by decide) (by decide) (by decide)
    show pSquared sh d _ * (derivM sh (fun i => -1 / d.h 2 i) 2 (-1) _ i j) =
      (-(derivM sh (fun i => 1 / d.e 2 i) 2 1 _ j i)) * dualVol sh d _
    linear_combination this
  | 1, 2 =>
    have := B 1 2 0 (by decide) (by decide) (by decide)
    show pSquared sh d _ * (-(derivM sh (fun i => -1 / d.h 0 i) 0 (-1) _ i j)) =
      (derivM sh (fun i => 1 / d.e 0 i) 0 1 _ j i) * dualVol sh d _
    linear_combination -this
  | 2, 0 =>
    have := B 2 0 1 (by decide) (by decide) (by decide)
    show pSquared sh d _ * (-(derivM sh (fun i => -1 / d.h 1 i) 1 (-1) _ i j)) =
      (derivM sh (fun i => 1 / d.e 1 i) 1 1 _ j i) * dualVol sh d _
    linear_combination -this
  | 2, 1 =>
    have := B 2 1 0 (by decide) (by decide) (by decide)
    show pSquared sh d _ * (derivM sh (fun i => -1 / d.h 0 i) 0 (-1) _ i j) =
      (-(derivM sh (fun i => 1 / d.e 0 i) 0 1 _ j i)) * dualVol sh d _
    linear_combination this

/-! ### Conjugation -/

theorem leave_star (n : Nat) (p : ℂ) (x : Int) : star (leave n p x) = leave n (-star p) x := by
  have hI : star Complex.I = -Complex.I := Complex.conj_I
  have he : ∀ z : ℂ, star (Complex.exp z) = Complex.exp (star z) := fun z => (Complex.exp_conj z).symm
  unfold leave
  split
  · rw [he]; congr 1; rw [star_mul', star_neg, hI]; ring
  · split
    · rw [he]; congr 1; rw [star_mul', star_neg, star_neg, hI]; ring
    · exact star_one ℂ

theorem derivM_conj (w : Nat → ℂ) (a : Fin 3) (s : Int) (p : ℂ) :
    (derivM sh w a s p).map star = derivM sh (fun i => star (w i)) a s (-star p) := by
  apply mat_ext
  intro c c'
  rw [Matrix.map_apply, derivM_entry, derivM_entry, star_mul', star_sub]
  congr 2
  · split
    · rw [leave_star]
    · exact star_zero ℂ
  · split <;> simp

theorem axisPhase_conj (dx : Fin 3 → Nat → ℂ) (hd : ∀ a i, star (dx a i) = dx a i) (k : Fin 3 → ℂ) (a : Fin 3) :
    -star (axisPhase sh dx k a) = axisPhase sh dx (fun b => -star (k b)) a := by
  have hs : ∀ l : List Nat, star ((l.map (dx a)).sum) = (l.map (dx a)).sum := by
    intro l
    induction l with
    | nil => exact star_zero ℂ
    | cons x l ih => rw [List.map_cons, List.sum_cons, star_add, hd, ih]
  rw [axisPhase, axisPhase, star_mul', hs]
  ring

/-- On a real grid, conjugating the wave operator conjugates the permittivity and reverses the Bloch vector. -/
theorem eFull_real_conj (w : ℂ) (hw : star w = w) (d : Dxes) (he : ∀ a i, star (d.e a i) = d.e a i)
    (hh : ∀ a i, star (d.h a i) = d.h a i) (k : Fin 3 → ℂ) (eps : VField sh.size) {A : Mat3 sh.size}
    (hA : eFull sh w d eps none none none k 0 = some A) :
    eFull sh w d (fun p => star (eps p)) none none none (fun b => -star (k b)) 0 = some (A.map star) := by
  have hE : curlE sh d (fun b => -star (k b)) 0 = (curlE sh d k 0).map (fun C => C.map star) := by
    rw [curlE, curlE, derivForward_zero, derivForward_zero]
    simp only [Option.map_some, cross_star, derivM_conj, star_div₀, star_one, he, axisPhase_conj d.e he]
  have hH : curlH sh d (fun b => -star (k b)) 0 = (curlH sh d k 0).map (fun C => C.map star) := by
    rw [curlH, curlH, derivBack_zero, derivBack_zero]
    simp only [Option.map_some, cross_star, derivM_conj, star_div₀, star_one, star_neg, hh, axisPhase_conj d.h hh]
  obtain ⟨⟨ce, hce⟩, ⟨ch, hch⟩⟩ := curl_defined sh d k
  rw [eFull, hce, hch] at hA
  rw [eFull, hE, hH, hce, hch]
  simp only [Option.bind_some, Option.map_some, Option.some.injEq, maskMat, invMat, Matrix.mul_one, Matrix.one_mul] at hA ⊢
  subst hA
  have hs : ∀ M N : Mat3 sh.size, (M - N).map star = M.map star - N.map star := by
    intro M N; ext p q; exact star_sub _ _
  have hsm : ∀ (a : ℂ) (M : Mat3 sh.size), (a • M).map star = star a • M.map star := by
    intro a M; ext p q; exact star_mul' _ _
  rw [hs, hsm, map_star_mul, map_star_diagonal, star_pow, hw]

/-! ### Scaling -/

/-- All the widths multiplied by a factor. -/
noncomputable def _root_.Verif.Fdfd.Dxes.scale (s : ℂ) (d : Dxes) : Dxes := ⟨fun a i => s * d.e a i, fun a i => s * d.h a i⟩

theorem cross_smul (s : ℂ) (B : Fin 3 → Mat sh.size) : cross (fun a => s • B a) = s • cross B := by
  ext ⟨a, i⟩ ⟨b, j⟩
  match a, b with
  | 0, 0 => exact (mul_zero s).symm
  | 0, 1 => exact (mul_neg s _).symm
  | 0, 2 => rfl
  | 1, 0 => rfl
  | 1, 1 => exact (mul_zero s).symm
  | 1, 2 => exact (mul_neg s _).symm
  | 2, 0 => exact (mul_neg s _).symm
  | 2, 1 => rfl
  | 2, 2 => exact (mul_zero s).symm

theorem derivM_smul (s : ℂ) (w : Nat → ℂ) (a : Fin 3) (t : Int) (p : ℂ) :
    derivM sh (fun i => s * w i) a t p = s • derivM sh w a t p := by
  apply mat_ext
  intro c c'
  rw [Matrix.smul_apply, derivM_entry, derivM_entry, smul_eq_mul, mul_assoc]

theorem axisPhase_scale {s : ℂ} (hs : s ≠ 0) (dx : Fin 3 → Nat → ℂ) (k : Fin 3 → ℂ) (a : Fin 3) :
    axisPhase sh (fun a i => s * dx a i) (fun b => k b / s) a = axisPhase sh dx k a := by
  have h : ∀ l : List Nat, (l.map fun i => s * dx a i).sum = s * (l.map (dx a)).sum := by
    intro l
    induction l with
    | nil => simp
    | cons x l ih => rw [List.map_cons, List.sum_cons, ih, List.map_cons, List.sum_cons, mul_add]
  rw [axisPhase, axisPhase, h]
  field_simp

/-- Scaling all the lengths by `s` divides the wave operator by `s²`. -/
theorem eFull_scale {s : ℂ} (hs : s ≠ 0) (w : ℂ) (d : Dxes) (k : Fin 3 → ℂ) (eps : VField sh.size) {A : Mat3 sh.size}
    (hA : eFull sh w d eps none none none k 0 = some A) :
    eFull sh (w / s) (d.scale s) eps none none none (fun b => k b / s) 0 = some ((s⁻¹ ^ 2) • A) := by
  have hw : ∀ (z : ℂ) (x : ℂ), z / (s * x) = s⁻¹ * (z / x) := by
    intro z x
    rw [div_mul_eq_div_div_swap, div_eq_mul_inv, mul_comm]
  have hE : curlE sh (d.scale s) (fun b => k b / s) 0 = (curlE sh d k 0).map (fun C => s⁻¹ • C) := by
    rw [curlE, curlE, derivForward_zero, derivForward_zero]
    simp only [Option.map_some, Dxes.scale, axisPhase_scale hs, hw, derivM_smul, cross_smul]
  have hH : curlH sh (d.scale s) (fun b => k b / s) 0 = (curlH sh d k 0).map (fun C => s⁻¹ • C) := by
    rw [curlH, curlH, derivBack_zero, derivBack_zero]
    simp only [Option.map_some, Dxes.scale, axisPhase_scale hs, hw, derivM_smul, cross_smul]
  obtain ⟨⟨ce, hce⟩, ⟨ch, hch⟩⟩ := curl_defined sh d k
  rw [eFull, hce, hch] at hA
  rw [eFull, hE, hH, hce, hch]
  simp only [Option.bind_some, Option.map_some, Option.some.injEq, maskMat, invMat, Matrix.mul_one, Matrix.one_mul] at hA ⊢
  subst hA
  rw [Matrix.smul_mul, Matrix.mul_smul, smul_smul, smul_sub, smul_smul, div_pow, pow_two s⁻¹]
  congr 2
  field_simp

/-- A heap whose arrays are all multiplied by a factor. -/
def _root_.Verif.Fdfd.GHeap.scale (s : ℂ) (hp : GHeap) : GHeap := ⟨hp.arrays.map fun v => v.map (s * ·), hp.rows⟩

theorem read_scale (s : ℂ) (hp : GHeap) (row : Nat) (a : Fin 3) : (hp.scale s).read row a = (hp.read row a).map (s * ·) := by
  show (hp.arrays.map fun v => v.map (s * ·)).getD ((hp.rows.getD row fun _ => 0) a) [] =
    (hp.arrays.getD ((hp.rows.getD row fun _ => 0) a) []).map (s * ·)
  generalize (hp.rows.getD row fun _ => 0) a = i
  rw [List.getD_eq_getElem?_getD, List.getElem?_map, List.getD_eq_getElem?_getD]
  cases hp.arrays[i]? <;> rfl

theorem newArray_scale (s : ℂ) (hp : GHeap) (v : List ℂ) :
    (hp.scale s).newArray (v.map (s * ·)) = ((hp.newArray v).1.scale s, (hp.newArray v).2) := by
  simp [GHeap.newArray, GHeap.scale]

theorem newRow_scale (s : ℂ) (hp : GHeap) (r : Fin 3 → Nat) :
    (hp.scale s).newRow r = ((hp.newRow r).1.scale s, (hp.newRow r).2) := rfl

theorem copyRow_scale (s : ℂ) (hp : GHeap) (row : Nat) :
    copyRow (hp.scale s) row = ((copyRow hp row).1.scale s, (copyRow hp row).2) := by
  simp only [copyRow, read_scale, newArray_scale, newRow_scale]

theorem posAt_scale (s : ℂ) (v : List ℂ) (i : Nat) : posAt (v.map (s * ·)) i = s * posAt v i := by
  have h : ∀ l : List ℂ, (l.map (s * ·)).sum = s * l.sum := by
    intro l
    induction l with
    | nil => simp
    | cons x l ih => rw [List.map_cons, List.sum_cons, ih, List.sum_cons, mul_add]
  rw [posAt, posAt, ← List.map_take, h]

theorem posA_scale (s : ℂ) (v : List ℂ) (i : Nat) : posA (v.map (s * ·)) i = s * posA v i := by
  rw [posA, posA, posAt_scale, posAt_scale, ← mul_add, mul_div_assoc]

theorem stretchArr_scale (s : ℂ) (v : List ℂ) (slc : Nat → Bool) (f : Nat → ℂ) :
    stretchArr (v.map (s * ·)) slc f = (stretchArr v slc f).map (s * ·) := by
  apply List.ext_getElem?
  intro i
  rw [stretchArr, stretchArr, List.getElem?_mapIdx, List.getElem?_map, List.getElem?_map, List.getElem?_mapIdx]
  cases v[i]? with
  | none => rfl
  | some x =>
    simp only [Option.map_some, Option.some.injEq]
    split
    · rw [mul_assoc]
    · rfl

/-- The stretching of a layer does not depend on the unit of length. -/
theorem stretchArrays_scale {s : ℝ} (hs : s ≠ 0) (a b : List ℂ) (front : Bool) (omega : ℂ) (th : Nat) :
    stretchArrays (a.map ((s : ℂ) * ·)) (b.map ((s : ℂ) * ·)) front (omega / (s : ℂ)) th =
      (stretchArrays a b front omega th).map fun ab => (ab.1.map ((s : ℂ) * ·), ab.2.map ((s : ℂ) * ·)) := by
  have hsc : (s : ℂ) ≠ 0 := Complex.ofReal_ne_zero.2 hs
  have hre : (((omega / (s : ℂ)).re : ℝ) : ℂ) = (omega.re : ℂ) / s := by
    rw [Complex.div_ofReal_re, Complex.ofReal_div]
  unfold stretchArrays
  rw [List.length_map]
  by_cases hn : a.length < th
  · simp only [if_pos hn, Option.map_none]
  simp only [if_neg hn, Option.map_some, Option.some.injEq, Prod.mk.injEq, posAt_scale, posA_scale, hre]
  have hfac : ∀ l d : ℂ, 1 + Complex.I * sFunction l / (s * d) / ((omega.re : ℂ) / s) =
      1 + Complex.I * sFunction l / d / (omega.re : ℂ) := by
    intro l d
    congr 1
    rw [div_div, div_div]
    congr 1
    field_simp
  cases front
  · simp only [Bool.false_eq_true, if_false, ← mul_sub, mul_div_mul_left _ _ hsc, hfac, stretchArr_scale]
    exact ⟨trivial, trivial⟩
  · simp only [if_true, ← mul_sub, mul_div_mul_left _ _ hsc, hfac, stretchArr_scale]
    exact ⟨trivial, trivial⟩

theorem stretchWith_scale {s : ℝ} (hs : s ≠ 0) (hp : GHeap) (dx : DxRef) (axis : Fin 3) (front : Bool) (omega : ℂ) (th : Nat) :
    stretchWithScpml (hp.scale s) dx axis front (omega / (s : ℂ)) th =
      (stretchWithScpml hp dx axis front omega th).map (GHeap.scale s) := by
  rw [stretchWithScpml, read_scale, read_scale, stretchArrays_scale hs, stretchWithScpml, Option.map_map, Option.map_map]
  congr 1
  funext ab
  simp only [Function.comp, newArray_scale]
  rfl

theorem loop_scale {s : ℝ} (hs : s ≠ 0) (dx : DxRef) (omega : ℂ) (l : List (Int × Fin 3 × Bool)) :
    ∀ hp : GHeap, scpmlLoop dx (omega / (s : ℂ)) l (hp.scale s) = (scpmlLoop dx omega l hp).map (GHeap.scale s) := by
  induction l with
  | nil => intro hp; rfl
  | cons x l ih =>
    intro hp
    obtain ⟨p, axis, front⟩ := x
    simp only [scpmlLoop]
    by_cases h : 0 < p
    · rw [if_pos h, if_pos h, stretchWith_scale hs]
      cases stretchWithScpml hp dx axis front omega p.toNat with
      | none => rfl
      | some hp' => exact ih hp'
    · rw [if_neg h, if_neg h, ih]

theorem apply_scale {s : ℝ} (hs : s ≠ 0) (hp : GHeap) (dx : DxRef) (pml : Pml) (omega : ℂ) :
    applyScpml (hp.scale s) dx pml (omega / (s : ℂ)) =
      (applyScpml hp dx pml omega).map fun g => (g.1.scale s, g.2) := by
  simp only [applyScpml, copyRow_scale]
  by_cases h : pml.falsy = true
  · simp only [if_pos h, Option.map_some]
  · simp only [if_neg h, loop_scale hs, Option.map_map]
    rfl

theorem gridOf_scale (s : ℂ) (hp : GHeap) (dx : DxRef) : gridOf (hp.scale s) dx = (gridOf hp dx).scale s := by
  have h : ∀ (l : List ℂ) (i : Nat), (l.map (s * ·)).getD i 0 = s * l.getD i 0 := by
    intro l i
    rw [List.getD_eq_getElem?_getD, List.getD_eq_getElem?_getD, List.getElem?_map]
    cases l[i]? with
    | none => exact (mul_zero s).symm
    | some x => rfl
  simp only [gridOf, Dxes.scale, read_scale, h]

/-! ### Translation -/

theorem move_move (c : Cell sh) (o o' : Fin 3 → Int) : moveCell (moveCell c o) o' = moveCell c (fun b => o b + o' b) := by
  funext b
  apply Fin.ext
  have hn : (0 : Int) < sh b := by have := (c b).isLt; omega
  show (((((((c b).val : Int) + o b) % (sh b : Int)).toNat : Int) + o' b) % (sh b : Int)).toNat = _
  rw [Int.toNat_of_nonneg (Int.emod_nonneg _ (by omega)), Int.emod_add_emod, add_assoc]
  rfl

theorem move_zero (c : Cell sh) (o : Fin 3 → Int) (b : Fin 3) (h : o b = 0) : moveCell c o b = c b := by
  apply Fin.ext
  show (((c b).val + o b) % (sh b : Int)).toNat = _
  have := (c b).isLt
  rw [h, Int.add_zero, Int.emod_eq_of_lt (by omega) (by omega)]
  rfl

theorem move_swap (c : Cell sh) (o o' : Fin 3 → Int) : moveCell (moveCell c o) o' = moveCell (moveCell c o') o := by
  rw [move_move, move_move]
  congr 1
  funext b
  exact add_comm _ _

/-- The field moved by `t` cells, periodically. -/
noncomputable def moved (t : Fin 3 → Int) (v : VField sh.size) : VField sh.size := fun p =>
  v (p.1, pos (moveCell (cellAt p.2) t))

theorem moved_moved (t : Fin 3 → Int) (v : VField sh.size) : moved (fun b => -t b) (moved t v) = v := by
  funext p
  obtain ⟨a, i⟩ := p
  show v (a, pos (moveCell (cellAt (pos (moveCell (cellAt i) fun b => -t b))) t)) = _
  rw [cellAt_pos, move_move]
  have : moveCell (cellAt i) (fun b => -t b + t b) = cellAt i := by
    funext b
    exact move_zero _ _ b (by omega)
  rw [this, pos_cellAt]

theorem moved_zero (t : Fin 3 → Int) : moved t (0 : VField sh.size) = 0 := rfl

/-- Moving commutes with a difference along an axis, if the axis is not moved along or is uniform without phase. -/
theorem derivM_moved (w : Nat → ℂ) (a : Fin 3) (s : Int) (p : ℂ) (t : Fin 3 → Int)
    (h : t a = 0 ∨ p = 0 ∧ ∃ w0, ∀ i, i < sh a → w i = w0) (v : VField sh.size) (q : Fin 3) :
    derivM sh w a s p *ᵥ comp (moved t v) q = fun i => (derivM sh w a s p *ᵥ comp v q) (pos (moveCell (cellAt i) t)) := by
  funext i
  obtain ⟨c, rfl⟩ : ∃ c, i = pos c := ⟨cellAt i, (pos_cellAt i).symm⟩
  rw [derivM_mulVec, cellAt_pos, derivM_mulVec]
  have h1 : comp (moved t v) q (pos (moveCell c (unitDisp a s))) = comp v q (pos (moveCell (moveCell c t) (unitDisp a s))) := by
    show v (q, pos (moveCell (cellAt (pos _)) t)) = _
    rw [cellAt_pos, move_swap]
    rfl
  have h2 : comp (moved t v) q (pos c) = comp v q (pos (moveCell c t)) := by
    show v (q, pos (moveCell (cellAt (pos c)) t)) = _
    rw [cellAt_pos]
    rfl
  rw [h1, h2]
  rcases h with h | ⟨rfl, w0, hw⟩
  · rw [move_zero c t a h]
  · rw [leave_zero, leave_zero, hw _ (c a).isLt, hw _ (moveCell c t a).isLt]

theorem cross_moved (B : Fin 3 → Mat sh.size) (t : Fin 3 → Int) (v : VField sh.size)
    (h : ∀ a q, B a *ᵥ comp (moved t v) q = fun i => (B a *ᵥ comp v q) (pos (moveCell (cellAt i) t))) :
    cross B *ᵥ moved t v = moved t (cross B *ᵥ v) := by
  obtain ⟨h0, h1, h2⟩ := cross_comp B (moved t v)
  obtain ⟨g0, g1, g2⟩ := cross_comp B v
  funext p
  obtain ⟨a, i⟩ := p
  show comp (cross B *ᵥ moved t v) a i = comp (cross B *ᵥ v) a (pos (moveCell (cellAt i) t))
  match a with
  | 0 => rw [h0, g0, h, h]; rfl
  | 1 => rw [h1, g1, h, h]; rfl
  | 2 => rw [h2, g2, h, h]; rfl

/-- Moving the permittivity and the field moves what the wave operator returns. -/
theorem eFull_moved (w : ℂ) (d : Dxes) (k : Fin 3 → ℂ) (t : Fin 3 → Int)
    (h : ∀ a, t a = 0 ∨ k a = 0 ∧ ∃ we wh, ∀ i, i < sh a → d.e a i = we ∧ d.h a i = wh) (eps : VField sh.size)
    {A A' : Mat3 sh.size} (hA : eFull sh w d eps none none none k 0 = some A)
    (hA' : eFull sh w d (moved t eps) none none none k 0 = some A') (v : VField sh.size) :
    A' *ᵥ moved t v = moved t (A *ᵥ v) := by
  obtain ⟨⟨ce, hce⟩, ⟨ch, hch⟩⟩ := curl_defined sh d k
  rw [eFull, hce, hch] at hA hA'
  simp only [Option.bind_some, Option.map_some, Option.some.injEq, maskMat, invMat, Matrix.mul_one, Matrix.one_mul] at hA hA'
  subst hA hA'
  rw [curlE, derivForward_zero, Option.map_some, Option.some.injEq] at hce
  rw [curlH, derivBack_zero, Option.map_some, Option.some.injEq] at hch
  have hp : ∀ (dx : Fin 3 → Nat → ℂ) a, k a = 0 → axisPhase sh dx k a = 0 := by
    intro dx a h; rw [axisPhase, h, mul_zero]
  have hE : ∀ v, ce *ᵥ moved t v = moved t (ce *ᵥ v) := by
    intro v
    rw [← hce]
    refine cross_moved _ t v fun a q => derivM_moved _ a 1 _ t ?_ v q
    rcases h a with h0 | ⟨hk, we, wh, hw⟩
    · exact Or.inl h0
    · exact Or.inr ⟨hp _ a hk, 1 / we, fun i hi => by rw [(hw i hi).1]⟩
  have hH : ∀ v, ch *ᵥ moved t v = moved t (ch *ᵥ v) := by
    intro v
    rw [← hch]
    refine cross_moved _ t v fun a q => derivM_moved _ a (-1) _ t ?_ v q
    rcases h a with h0 | ⟨hk, we, wh, hw⟩
    · exact Or.inl h0
    · exact Or.inr ⟨hp _ a hk, -1 / wh, fun i hi => by rw [(hw i hi).2]⟩
  rw [Matrix.sub_mulVec, ← Matrix.mulVec_mulVec, hE, hH, Matrix.sub_mulVec, ← Matrix.mulVec_mulVec, Matrix.smul_mulVec,
    Matrix.smul_mulVec]
  funext p
  show moved t (ch *ᵥ ce *ᵥ v) p - w ^ 2 * (Matrix.diagonal (moved t eps) *ᵥ moved t v) p =
    (ch *ᵥ ce *ᵥ v) _ - w ^ 2 * (Matrix.diagonal eps *ᵥ v) _
  rw [Matrix.mulVec_diagonal, Matrix.mulVec_diagonal]
  rfl

end Verif.Fdfd.Laws
