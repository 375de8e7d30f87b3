import Verif.Fdfd.Operators
import Verif.Fdfd.VecProps
/-
Lemmas: matrices built from one entry per row, in terms of grid cells.
-/
namespace Verif.Fdfd
open Matrix
set_option linter.unusedSectionVars false

/-- A grid cell. -/
abbrev Cell (sh : Shape) := (a : Fin 3) → Fin (sh a)

variable {sh : Shape}

def cellList (c : Cell sh) : List Nat := [(c 0).val, (c 1).val, (c 2).val]

theorem cellList_inside (c : Cell sh) : Inside sh.toList (cellList c) :=
  .cons (c 0).isLt (.cons (c 1).isLt (.cons (c 2).isLt .nil))

theorem cellList_inj {c c' : Cell sh} (h : cellList c = cellList c') : c = c' := by
  simp only [cellList, List.cons.injEq, and_true] at h
  funext a
  match a with
  | 0 => exact Fin.ext h.1
  | 1 => exact Fin.ext h.2.1
  | 2 => exact Fin.ext h.2.2

theorem inside_cell {idx : List Nat} (h : Inside sh.toList idx) : ∃ c : Cell sh, cellList c = idx := by
  unfold Shape.toList at h
  cases h with
  | cons h0 h => cases h with
    | cons h1 h => cases h with
      | cons h2 h => cases h with
        | nil =>
          exact ⟨fun a => match a with | 0 => ⟨_, h0⟩ | 1 => ⟨_, h1⟩ | 2 => ⟨_, h2⟩, rfl⟩

/-- The flat position of a cell. -/
def pos (c : Cell sh) : Fin sh.size := ⟨ravelF sh.toList (cellList c), ravelF_lt _ _ (cellList_inside c)⟩

theorem pos_bijective : Function.Bijective (pos : Cell sh → Fin sh.size) := by
  refine ⟨fun c c' h => cellList_inj ((ravelF_bijective _).2.1 _ _ (cellList_inside c)
    (cellList_inside c') (congrArg Fin.val h)), fun i => ?_⟩
  obtain ⟨idx, hi, hr⟩ := (ravelF_bijective _).2.2 i.val i.isLt
  obtain ⟨c, rfl⟩ := inside_cell hi
  exact ⟨c, Fin.ext hr⟩

noncomputable def cellEquiv (sh : Shape) : Cell sh ≃ Fin sh.size := Equiv.ofBijective pos pos_bijective

theorem cellEquiv_apply (c : Cell sh) : cellEquiv sh c = pos c := rfl

/-- The cell at a flat position. -/
noncomputable def cellAt (i : Fin sh.size) : Cell sh := (cellEquiv sh).symm i

@[simp] theorem cellAt_pos (c : Cell sh) : cellAt (pos c) = c := (cellEquiv sh).symm_apply_apply c
@[simp] theorem pos_cellAt (i : Fin sh.size) : pos (cellAt i) = i := (cellEquiv sh).apply_symm_apply i

theorem pos_inj {c c' : Cell sh} : pos c = pos c' ↔ c = c' :=
  ⟨fun h => pos_bijective.1 h, fun h => by rw [h]⟩

theorem eq_pos_iff {i : Fin sh.size} {c : Cell sh} : i = pos c ↔ cellAt i = c :=
  ⟨fun h => by rw [h, cellAt_pos], fun h => by rw [← h, pos_cellAt]⟩

/-! ### Lists -/

theorem idxF_nodup (s : List Nat) : (idxF s).Nodup := by
  have hinj : ∀ (i j : Nat) (x : List Nat), (idxF s)[i]? = some x → (idxF s)[j]? = some x → i = j := by
    intro i j x hi hj
    have hil : i < numel s := by
      rw [← idxF_length]; exact (List.getElem?_eq_some_iff.1 hi).1
    have hjl : j < numel s := by
      rw [← idxF_length]; exact (List.getElem?_eq_some_iff.1 hj).1
    obtain ⟨a, h1, _, h2⟩ := ravelF_idxF s i hil
    obtain ⟨b, h3, _, h4⟩ := ravelF_idxF s j hjl
    rw [h1] at hi; rw [h3] at hj
    cases hi; cases hj
    rw [← h2, ← h4]
  refine List.nodup_iff_getElem?_ne_getElem?.2 (fun i j hij hj h => ?_)
  have := hinj i j (idxF s)[j] (h.trans (List.getElem?_eq_getElem hj)) (List.getElem?_eq_getElem hj)
  omega

theorem sum_single {β : Type} (l : List β) (f : β → ℂ) (x : β) (hx : x ∈ l) (hn : l.Nodup)
    (h : ∀ y ∈ l, y ≠ x → f y = 0) : (l.map f).sum = f x := by
  induction l with
  | nil => cases hx
  | cons y l ih =>
    rw [List.map_cons, List.sum_cons]
    rw [List.nodup_cons] at hn
    rcases List.mem_cons.1 hx with rfl | hx'
    · have : ((l.map f).sum) = 0 := by
        apply List.sum_eq_zero
        intro z hz
        obtain ⟨w, hw, rfl⟩ := List.mem_map.1 hz
        exact h w (List.mem_cons_of_mem _ hw) (fun e => hn.1 (e ▸ hw))
      rw [this, add_zero]
    · rw [h y (by simp) (fun e => hn.1 (e ▸ hx')), zero_add]
      exact ih hx' hn.2 (fun z hz => h z (List.mem_cons_of_mem _ hz))

/-- A matrix with one triplet per cell. -/
theorem csr_apply (s : List Nat) (g : List Nat → List Nat) (d : List Nat → ℂ)
    (hg : ∀ c, Inside s c → Inside s (g c)) (c c' : List Nat) (hc : Inside s c) (hc' : Inside s c') :
    csr (numel s) ((idxF s).map fun c => (d c, ravelF s c, ravelF s (g c)))
      ⟨ravelF s c, ravelF_lt s c hc⟩ ⟨ravelF s c', ravelF_lt s c' hc'⟩ =
    if c' = g c then d c else 0 := by
  unfold csr
  rw [List.map_map, sum_single (idxF s) _ c ((mem_idxF s c).2 hc) (idxF_nodup s)]
  · simp only [Function.comp, true_and]
    by_cases h : c' = g c
    · rw [if_pos h, if_pos (by rw [h])]
    · rw [if_neg h, if_neg]
      intro e
      exact h ((ravelF_bijective s).2.1 _ _ hc' (hg c hc) e.symm)
  · intro y hy hyc
    simp only [Function.comp]
    rw [if_neg]
    intro e
    exact hyc ((ravelF_bijective s).2.1 _ _ ((mem_idxF s y).1 hy) hc e.1)

/-! ### Monomial matrices -/

/-- The matrix whose row `c` has the single entry `d c` in column `g c`. -/
noncomputable def cmono (g : Cell sh → Cell sh) (d : Cell sh → ℂ) : Mat sh.size :=
  fun i j => if cellAt j = g (cellAt i) then d (cellAt i) else 0

/-- Diagonal matrix of a function of the cell. -/
noncomputable def cdiag (f : Cell sh → ℂ) : Mat sh.size := Matrix.diagonal (fun i => f (cellAt i))

theorem mat_ext {A B : Mat sh.size} (h : ∀ c c', A (pos c) (pos c') = B (pos c) (pos c')) : A = B := by
  ext i j
  have := h (cellAt i) (cellAt j)
  rwa [pos_cellAt, pos_cellAt] at this

theorem cmono_apply (g : Cell sh → Cell sh) (d : Cell sh → ℂ) (c c' : Cell sh) :
    cmono g d (pos c) (pos c') = if c' = g c then d c else 0 := by
  rw [cmono, cellAt_pos, cellAt_pos]

theorem cdiag_apply (f : Cell sh → ℂ) (c c' : Cell sh) :
    cdiag f (pos c) (pos c') = if c' = c then f c else 0 := by
  rw [cdiag, Matrix.diagonal_apply, cellAt_pos]
  by_cases h : c = c'
  · rw [if_pos (by rw [h]), if_pos h.symm]
  · rw [if_neg (fun e => h (pos_inj.1 e)), if_neg (fun e => h e.symm)]

theorem sum_pos (f : Fin sh.size → ℂ) : ∑ i, f i = ∑ c : Cell sh, f (pos c) :=
  ((cellEquiv sh).sum_comp f).symm

theorem cmono_mulVec (g : Cell sh → Cell sh) (d : Cell sh → ℂ) (v : Fin sh.size → ℂ) (c : Cell sh) :
    (cmono g d *ᵥ v) (pos c) = d c * v (pos (g c)) := by
  rw [Matrix.mulVec, dotProduct, sum_pos]
  simp only [cmono_apply, ite_mul, zero_mul, Finset.sum_ite_eq', Finset.mem_univ, if_true]

theorem cdiag_mulVec (f : Cell sh → ℂ) (v : Fin sh.size → ℂ) (c : Cell sh) :
    (cdiag f *ᵥ v) (pos c) = f c * v (pos c) := by
  rw [cdiag, Matrix.mulVec_diagonal, cellAt_pos]

theorem cmono_mul (g g' : Cell sh → Cell sh) (d d' : Cell sh → ℂ) :
    cmono g d * cmono g' d' = cmono (fun c => g' (g c)) (fun c => d c * d' (g c)) := by
  apply mat_ext
  intro c c'
  rw [Matrix.mul_apply, sum_pos, Finset.sum_eq_single (g c)]
  · rw [cmono_apply, cmono_apply, cmono_apply, if_pos rfl, mul_ite, mul_zero]
  · intro b _ hb
    rw [cmono_apply, if_neg hb, zero_mul]
  · intro h; exact absurd (Finset.mem_univ _) h

theorem cdiag_eq_cmono (f : Cell sh → ℂ) : cdiag f = cmono (fun c => c) f :=
  mat_ext fun c c' => by rw [cdiag_apply, cmono_apply]

theorem one_eq_cmono : (1 : Mat sh.size) = cmono (fun c => c) (fun _ => 1) := by
  rw [← cdiag_eq_cmono, cdiag, Matrix.diagonal_one]

theorem cdiag_mul_cmono (f : Cell sh → ℂ) (g : Cell sh → Cell sh) (d : Cell sh → ℂ) :
    cdiag f * cmono g d = cmono g (fun c => f c * d c) := by
  rw [cdiag_eq_cmono, cmono_mul]

theorem cmono_mul_cdiag (f : Cell sh → ℂ) (g : Cell sh → Cell sh) (d : Cell sh → ℂ) :
    cmono g d * cdiag f = cmono g (fun c => d c * f (g c)) := by
  rw [cdiag_eq_cmono, cmono_mul]

theorem cdiag_mul (f f' : Cell sh → ℂ) : cdiag f * cdiag f' = cdiag (fun c => f c * f' c) := by
  rw [cdiag_eq_cmono, cdiag_eq_cmono, cmono_mul, cdiag_eq_cmono]

/-- A diagonal matrix commutes with a shift that keeps its entries. -/
theorem cdiag_cmono_comm (f : Cell sh → ℂ) (g : Cell sh → Cell sh) (d : Cell sh → ℂ)
    (h : ∀ c, f (g c) = f c) : cdiag f * cmono g d = cmono g d * cdiag f := by
  rw [cdiag_mul_cmono, cmono_mul_cdiag]
  congr 1
  funext c
  rw [h, mul_comm]

theorem cmono_transpose (g g' : Cell sh → Cell sh) (d : Cell sh → ℂ)
    (h1 : ∀ c, g' (g c) = c) (h2 : ∀ c, g (g' c) = c) :
    (cmono g d)ᵀ = cmono g' (fun c => d (g' c)) := by
  apply mat_ext
  intro c c'
  rw [Matrix.transpose_apply, cmono_apply, cmono_apply]
  by_cases h : c' = g' c
  · subst h; rw [if_pos (h2 c).symm, if_pos rfl]
  · rw [if_neg h, if_neg (fun e => h (by rw [e, h1]))]

/-! ### The pieces of the operators -/

theorem meshFlat_get (dx : Fin 3 → Nat → ℂ) (a : Fin 3) (c : Cell sh) :
    (meshFlat sh dx a)[(pos c).val]? = some (dx a (c a)) := by
  rw [meshFlat, pos, flattenF_get _ _ _ (cellList_inside c)]
  match a with
  | 0 => rfl
  | 1 => rfl
  | 2 => rfl

theorem diags_mesh (dx : Fin 3 → Nat → ℂ) (a : Fin 3) (f : ℂ → ℂ) :
    diags sh.size ((meshFlat sh dx a).map f) = cdiag (fun c => f (dx a (c a))) := by
  unfold diags cdiag
  congr 1
  funext i
  rw [List.getD_eq_getElem?_getD, List.getElem?_map, ← pos_cellAt i, meshFlat_get, cellAt_pos]
  rfl

theorem diags_mesh' (dx : Fin 3 → Nat → ℂ) (a : Fin 3) :
    diags sh.size (meshFlat sh dx a) = cdiag (fun c => dx a (c a)) := by
  have := diags_mesh (sh := sh) dx a id
  rwa [List.map_id] at this

theorem pSquared_apply (d : Dxes) (c : Cell sh) (a : Fin 3) :
    pSquared sh d (a, pos c) = ∏ b, (if b = a then d.e b (c b) else d.h b (c b)) := by
  unfold pSquared
  simp only [List.getD_eq_getElem?_getD]
  rw [pos, flattenF_get _ _ _ (cellList_inside c), Fin.prod_univ_three]
  match a with
  | 0 => rfl
  | 1 => rfl
  | 2 => rfl

end Verif.Fdfd
