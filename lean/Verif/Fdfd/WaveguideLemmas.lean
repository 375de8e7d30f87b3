import Verif.Fdfd.Waveguide
import Verif.Fdfd.RotationProps
/-
Lemmas: the derivatives on a cross-section are periodic differences; the waveguide operator in terms of them.
-/
namespace Verif.Fdfd
open Matrix

/-- The next index, periodically. -/
def nextIx {m : Nat} (i : Fin m) : Fin m := ⟨(i.val + 1) % m, Nat.mod_lt _ (Nat.lt_of_le_of_lt (Nat.zero_le _) i.isLt)⟩

/-- The previous index, periodically. -/
def prevIx {m : Nat} (i : Fin m) : Fin m :=
  ⟨(i.val + (m - 1)) % m, Nat.mod_lt _ (Nat.lt_of_le_of_lt (Nat.zero_le _) i.isLt)⟩

theorem nextIx_prevIx {m : Nat} (i : Fin m) : nextIx (prevIx i) = i := by
  apply Fin.ext
  have hi := i.isLt
  simp only [nextIx, prevIx, Nat.mod_add_mod]
  rw [show i.val + (m - 1) + 1 = i.val + m by omega, Nat.add_mod_right, Nat.mod_eq_of_lt hi]

theorem prevIx_nextIx {m : Nat} (i : Fin m) : prevIx (nextIx i) = i := by
  apply Fin.ext
  have hi := i.isLt
  simp only [nextIx, prevIx, Nat.mod_add_mod]
  rw [show i.val + 1 + (m - 1) = i.val + m by omega, Nat.add_mod_right, Nat.mod_eq_of_lt hi]

variable {n0 n1 : Nat}

theorem inside2 (i : Fin n0) (j : Fin n1) : Inside (Sec n0 n1) [i.val, j.val] :=
  .cons i.isLt (.cons j.isLt .nil)

/-- The flat position of a cell. -/
def pos2 (i : Fin n0) (j : Fin n1) : Fin (numel (Sec n0 n1)) :=
  ⟨ravelF (Sec n0 n1) [i.val, j.val], ravelF_lt _ _ (inside2 i j)⟩

theorem pos2_surj (p : Fin (numel (Sec n0 n1))) : ∃ i j, pos2 (n0 := n0) (n1 := n1) i j = p := by
  obtain ⟨idx, hi, hr⟩ := (ravelF_bijective (Sec n0 n1)).2.2 p.val p.isLt
  cases hi with
  | cons h0 h => cases h with
    | cons h1 h => cases h with
      | nil => exact ⟨⟨_, h0⟩, ⟨_, h1⟩, Fin.ext hr⟩

theorem pos2_inj {i i' : Fin n0} {j j' : Fin n1} (h : pos2 i j = pos2 i' j') : i = i' ∧ j = j' := by
  have := (ravelF_bijective (Sec n0 n1)).2.1 _ _ (inside2 i j) (inside2 i' j') (congrArg Fin.val h)
  simp only [List.cons.injEq, and_true] at this
  exact ⟨Fin.ext this.1, Fin.ext this.2⟩

theorem unvec2_eq (f : VField (numel (Sec n0 n1))) (a : Fin 3) (i : Fin n0) (j : Fin n1) :
    unvec2 f a i j = f (a, pos2 i j) := by
  rw [unvec2, dif_pos (ravelF_lt _ _ (inside2 i j))]; rfl

/-- The cell one step up along an axis. -/
def upPos (axis : Nat) (i : Fin n0) (j : Fin n1) : Fin (numel (Sec n0 n1)) :=
  if axis = 0 then pos2 (nextIx i) j else pos2 i (nextIx j)

/-- The cell one step down along an axis. -/
def downPos (axis : Nat) (i : Fin n0) (j : Fin n1) : Fin (numel (Sec n0 n1)) :=
  if axis = 0 then pos2 (prevIx i) j else pos2 i (prevIx j)

theorem mulVec_single {m : Nat} (M : Mat m) (v : Fin m → ℂ) (p q : Fin m) (h : M p q = 1)
    (h' : ∀ r, r ≠ q → M p r = 0) : (M *ᵥ v) p = v q := by
  rw [Matrix.mulVec, dotProduct, Finset.sum_eq_single q]
  · rw [h, one_mul]
  · intro r _ hr; rw [h' r hr, zero_mul]
  · intro hq; exact absurd (Finset.mem_univ _) hq

/-- Without a phase `rotation_bloch` is a periodic shift. -/
theorem rotationBloch_sec (axis : Nat) (ha : axis < 2) :
    ∃ U L : Mat (numel (Sec n0 n1)), rotationBloch axis (Sec n0 n1) 0 1 = some U ∧
      rotationBloch axis (Sec n0 n1) 0 (-1) = some L ∧
      (∀ v i j, (U *ᵥ v) (pos2 i j) = v (upPos axis i j)) ∧
      (∀ v i j, (L *ᵥ v) (pos2 i j) = v (downPos axis i j)) ∧
      U.map star = U ∧ L.map star = L := by
  obtain ⟨M, h1, h2, h3⟩ := rotationBloch_up axis (Sec n0 n1) (Or.inl rfl) ha 0
  have h3' : ∀ (i i' : Fin n0) (j j' : Fin n1), M (pos2 i j) (pos2 i' j') =
      if pos2 i' j' = upPos axis i j then 1 else 0 := by
    intro i i' j j'
    refine (h3 _ _ (inside2 i j) (inside2 i' j')).trans ?_
    rw [mul_zero, Complex.exp_zero, ite_self]
    have : [i'.val, j'.val] = stepUp (Sec n0 n1) axis [i.val, j.val] ↔ pos2 i' j' = upPos axis i j := by
      obtain h | h : axis = 0 ∨ axis = 1 := by omega
      · subst h
        rw [upPos, if_pos rfl]
        constructor
        · intro e
          have e' : [i'.val, j'.val] = [(i.val + 1) % n0, j.val] := e
          simp only [List.cons.injEq, and_true] at e'
          rw [show i' = nextIx i from Fin.ext e'.1, show j' = j from Fin.ext e'.2]
        · intro e
          obtain ⟨rfl, rfl⟩ := pos2_inj e
          rfl
      · subst h
        rw [upPos, if_neg (by decide)]
        constructor
        · intro e
          have e' : [i'.val, j'.val] = [i.val, (j.val + 1) % n1] := e
          simp only [List.cons.injEq, and_true] at e'
          rw [show i' = i from Fin.ext e'.1, show j' = nextIx j from Fin.ext e'.2]
        · intro e
          obtain ⟨rfl, rfl⟩ := pos2_inj e
          rfl
    by_cases h : pos2 i' j' = upPos axis i j
    · rw [if_pos h, if_pos (this.2 h)]
    · rw [if_neg h, if_neg (fun e => h (this.1 e))]
  have hup : ∀ p i j, M (pos2 i j) p = if p = upPos axis i j then 1 else 0 := by
    intro p i j
    obtain ⟨i', j', rfl⟩ := pos2_surj p
    exact h3' i i' j j'
  have hud : ∀ i j i' j', pos2 (n0 := n0) (n1 := n1) i j = upPos axis i' j' ↔ pos2 i' j' = downPos axis i j := by
    intro i j i' j'
    unfold upPos downPos
    by_cases h : axis = 0
    · rw [if_pos h, if_pos h]
      constructor
      · intro e; obtain ⟨rfl, rfl⟩ := pos2_inj e; rw [prevIx_nextIx]
      · intro e; obtain ⟨rfl, rfl⟩ := pos2_inj e; rw [nextIx_prevIx]
    · rw [if_neg h, if_neg h]
      constructor
      · intro e; obtain ⟨rfl, rfl⟩ := pos2_inj e; rw [prevIx_nextIx]
      · intro e; obtain ⟨rfl, rfl⟩ := pos2_inj e; rw [nextIx_prevIx]
  have hreal : M.map star = M := by
    ext p q
    obtain ⟨i, j, rfl⟩ := pos2_surj p
    rw [Matrix.map_apply, hup]
    by_cases h : q = upPos axis i j
    · rw [if_pos h, star_one]
    · rw [if_neg h, star_zero]
  have hT : Mᴴ = Mᵀ := by
    rw [Matrix.conjTranspose, Matrix.transpose_map, hreal]
  refine ⟨M, Mᴴ, h1, h2, fun v i j => ?_, fun v i j => ?_, hreal, ?_⟩
  · exact mulVec_single M v _ _ (by rw [hup, if_pos rfl]) (fun r hr => by rw [hup, if_neg hr])
  · rw [hT]
    obtain ⟨i', j', hd⟩ := pos2_surj (downPos axis i j)
    refine mulVec_single _ v _ _ ?_ (fun r hr => ?_)
    · rw [Matrix.transpose_apply, ← hd, hup, if_pos ((hud i j i' j').2 hd)]
    · obtain ⟨a, b, rfl⟩ := pos2_surj r
      rw [Matrix.transpose_apply, hup, if_neg (fun e => hr ((hud i j a b).1 e))]
  · rw [hT, Matrix.transpose_map, hreal]

theorem diags_sec (dx : Nat → Nat → ℂ) (a : Nat) (f : ℂ → ℂ) (v : Fin (numel (Sec n0 n1)) → ℂ) (i : Fin n0) (j : Fin n1) :
    (diags (numel (Sec n0 n1)) ((flattenF (Sec n0 n1) fun idx => dx a (idx.getD a 0)).map f) *ᵥ v) (pos2 i j) =
      f (dx a ([i.val, j.val].getD a 0)) * v (pos2 i j) := by
  rw [diags, Matrix.mulVec_diagonal, List.getD_eq_getElem?_getD, List.getElem?_map, pos2,
    flattenF_get _ _ _ (inside2 i j)]
  rfl

theorem diags_sec_real (dx : Nat → Nat → ℂ) (a : Nat) (f : ℂ → ℂ) (hf : ∀ z, star z = z → star (f z) = f z)
    (hd : ∀ (i : Fin n0) (j : Fin n1), star (dx a ([i.val, j.val].getD a 0)) = dx a ([i.val, j.val].getD a 0)) :
    (diags (numel (Sec n0 n1)) ((flattenF (Sec n0 n1) fun idx => dx a (idx.getD a 0)).map f)).map star =
      diags (numel (Sec n0 n1)) ((flattenF (Sec n0 n1) fun idx => dx a (idx.getD a 0)).map f) := by
  rw [diags, Matrix.diagonal_map (star_zero _)]
  congr 1
  funext p
  obtain ⟨i, j, rfl⟩ := pos2_surj p
  simp only [List.getD_eq_getElem?_getD]
  rw [List.getElem?_map, pos2, flattenF_get _ _ _ (inside2 i j)]
  exact hf _ (hd i j)

theorem wg_map_star_mul {l m k : Type} [Fintype m] (A : Matrix l m ℂ) (B : Matrix m k ℂ) :
    (A * B).map star = A.map star * B.map star := by
  ext i j
  simp only [Matrix.map_apply, Matrix.mul_apply, star_sum, star_mul']

/-- The derivatives exist, are the periodic differences, and have real entries on a grid with real cell sizes. -/
theorem derivs_spec (d : Dxes2) : ∃ D, derivs n0 n1 d = some D ∧
    (∀ v i j, (D.fx *ᵥ v) (pos2 i j) = (v (pos2 (nextIx i) j) - v (pos2 i j)) / d.e 0 i) ∧
    (∀ v i j, (D.fy *ᵥ v) (pos2 i j) = (v (pos2 i (nextIx j)) - v (pos2 i j)) / d.e 1 j) ∧
    (∀ v i j, (D.bx *ᵥ v) (pos2 i j) = (v (pos2 i j) - v (pos2 (prevIx i) j)) / d.h 0 i) ∧
    (∀ v i j, (D.bY *ᵥ v) (pos2 i j) = (v (pos2 i j) - v (pos2 i (prevIx j))) / d.h 1 j) ∧
    ((∀ i : Fin n0, star (d.e 0 i) = d.e 0 i ∧ star (d.h 0 i) = d.h 0 i) →
      (∀ j : Fin n1, star (d.e 1 j) = d.e 1 j ∧ star (d.h 1 j) = d.h 1 j) →
      D.fx.map star = D.fx ∧ D.fy.map star = D.fy ∧ D.bx.map star = D.bx ∧ D.bY.map star = D.bY) := by
  obtain ⟨U0, L0, hU0, hL0, u0, l0, ur0, lr0⟩ := rotationBloch_sec (n0 := n0) (n1 := n1) 0 (by decide)
  obtain ⟨U1, L1, hU1, hL1, u1, l1, ur1, lr1⟩ := rotationBloch_sec (n0 := n0) (n1 := n1) 1 (by decide)
  have hp : ∀ (dx : Nat → Nat → ℂ) a, axisBloch (Sec n0 n1) dx 0 a = 0 := by
    intro dx a; rw [axisBloch, Pi.zero_apply, zero_mul]
  unfold derivs derivForward derivBack
  simp only [hp, hU0, hL0, hU1, hL1, Option.map_some, Option.bind_some]
  refine ⟨_, rfl, fun v i j => ?_, fun v i j => ?_, fun v i j => ?_, fun v i j => ?_, fun h0 h1 => ?_⟩
  · rw [← Matrix.mulVec_mulVec, diags_sec, Matrix.sub_mulVec, Matrix.one_mulVec, Pi.sub_apply, u0]
    simp only [upPos, if_true, List.getD_cons_zero]
    ring
  · rw [← Matrix.mulVec_mulVec, diags_sec, Matrix.sub_mulVec, Matrix.one_mulVec, Pi.sub_apply, u1]
    simp only [upPos, one_ne_zero, if_false, List.getD_cons_succ, List.getD_cons_zero]
    ring
  · rw [← Matrix.mulVec_mulVec, diags_sec, Matrix.sub_mulVec, Matrix.one_mulVec, Pi.sub_apply, l0]
    simp only [downPos, if_true, List.getD_cons_zero]
    ring
  · rw [← Matrix.mulVec_mulVec, diags_sec, Matrix.sub_mulVec, Matrix.one_mulVec, Pi.sub_apply, l1]
    simp only [downPos, one_ne_zero, if_false, List.getD_cons_succ, List.getD_cons_zero]
    ring
  · have one_real : (1 : Mat (numel (Sec n0 n1))).map star = 1 := by
      rw [Matrix.map_one _ (star_zero _) (star_one _)]
    have sub_real : ∀ A : Mat (numel (Sec n0 n1)), A.map star = A → (A - 1).map star = A - 1 := by
      intro A hA
      rw [Matrix.map_sub _ (fun a b => star_sub a b), hA, one_real]
    refine ⟨?_, ?_, ?_, ?_⟩
    · rw [wg_map_star_mul, sub_real _ ur0, diags_sec_real]
      · intro z hz; simp only [one_div, star_inv₀, hz]
      · intro i j; exact (h0 i).1
    · rw [wg_map_star_mul, sub_real _ ur1, diags_sec_real]
      · intro z hz; simp only [one_div, star_inv₀, hz]
      · intro i j; exact (h1 j).1
    · rw [wg_map_star_mul, sub_real _ lr0, diags_sec_real]
      · intro z hz; rw [star_div₀, star_neg, star_one, hz]
      · intro i j; exact (h0 i).2
    · rw [wg_map_star_mul, sub_real _ lr1, diags_sec_real]
      · intro z hz; rw [star_div₀, star_neg, star_one, hz]
      · intro i j; exact (h1 j).2

/-! ### The operator -/

variable {n : Nat}

/-- Component `a` of `[H_x, H_y]`. -/
def comp2 (v : VField2 n) (a : Fin 2) : Fin n → ℂ := fun i => v (a, i)

theorem vstack_mulVec (A B : Mat n) (v : Fin n → ℂ) (i : Fin n) :
    (vstack A B *ᵥ v) (0, i) = (A *ᵥ v) i ∧ (vstack A B *ᵥ v) (1, i) = (B *ᵥ v) i := ⟨rfl, rfl⟩

theorem hstack_mulVec (A B : Mat n) (v : VField2 n) (i : Fin n) :
    (hstack A B *ᵥ v) i = (A *ᵥ comp2 v 0) i + (B *ᵥ comp2 v 1) i := by
  simp only [Matrix.mulVec, dotProduct, hstack, comp2]
  rw [Fintype.sum_prod_type, Fin.sum_univ_two]
  rfl

theorem hstack_mulVec' (A B : Mat n) (v : VField2 n) :
    hstack A B *ᵥ v = A *ᵥ comp2 v 0 + B *ᵥ comp2 v 1 := by
  funext i; rw [hstack_mulVec]; rfl

/-- `1/eps_z (-Dby H_x + Dbx H_y)`. -/
noncomputable def wgK (D : Derivs n) (eps : VField n) (v : VField2 n) : Fin n → ℂ := fun i =>
  1 / eps (2, i) * (-(D.bY *ᵥ comp2 v 0) i + (D.bx *ᵥ comp2 v 1) i)

/-- `1/mu_z (Dfx mu_x H_x + Dfy mu_y H_y)`. -/
noncomputable def wgG (D : Derivs n) (mu : VField n) (v : VField2 n) : Fin n → ℂ := fun i =>
  1 / mu (2, i) * ((D.fx *ᵥ fun i => mu (0, i) * v (0, i)) i + (D.fy *ᵥ fun i => mu (1, i) * v (1, i)) i)

theorem wgFull_mulVec (D : Derivs n) (omega : ℂ) (eps : VField n) (mu : Option (VField n)) (v : VField2 n) (i : Fin n) :
    (wgFull D omega eps mu *ᵥ v) (0, i) = omega ^ 2 * eps (1, i) * muOf mu (0, i) * v (0, i) -
      eps (1, i) * (D.fy *ᵥ wgK D eps v) i + (D.bx *ᵥ wgG D (muOf mu) v) i ∧
    (wgFull D omega eps mu *ᵥ v) (1, i) = omega ^ 2 * eps (0, i) * muOf mu (1, i) * v (1, i) +
      eps (0, i) * (D.fx *ᵥ wgK D eps v) i + (D.bY *ᵥ wgG D (muOf mu) v) i := by
  have hK : (Matrix.diagonal fun i => 1 / eps (2, i)) *ᵥ (hstack (-D.bY) D.bx *ᵥ v) = wgK D eps v := by
    funext i
    rw [Matrix.mulVec_diagonal, hstack_mulVec, Matrix.neg_mulVec, Pi.neg_apply, wgK]
  have hG : (Matrix.diagonal fun i => 1 / muOf mu (2, i)) *ᵥ (hstack D.fx D.fy *ᵥ
      ((Matrix.diagonal fun p : Fin 2 × Fin n => ![muOf mu (0, p.2), muOf mu (1, p.2)] p.1) *ᵥ v)) =
      wgG D (muOf mu) v := by
    funext i
    rw [Matrix.mulVec_diagonal, hstack_mulVec, wgG]
    have h0 : comp2 ((Matrix.diagonal fun p : Fin 2 × Fin n => ![muOf mu (0, p.2), muOf mu (1, p.2)] p.1) *ᵥ v) 0 =
        fun i => muOf mu (0, i) * v (0, i) := by
      funext i; rw [comp2, Matrix.mulVec_diagonal]; rfl
    have h1 : comp2 ((Matrix.diagonal fun p : Fin 2 × Fin n => ![muOf mu (0, p.2), muOf mu (1, p.2)] p.1) *ᵥ v) 1 =
        fun i => muOf mu (1, i) * v (1, i) := by
      funext i; rw [comp2, Matrix.mulVec_diagonal]; rfl
    rw [h0, h1]
  unfold wgFull
  simp only [Matrix.add_mulVec, Pi.add_apply, ← Matrix.mulVec_mulVec, hK, hG, Matrix.smul_mulVec, Pi.smul_apply,
    smul_eq_mul, Matrix.mulVec_diagonal, (vstack_mulVec _ _ _ _).1, (vstack_mulVec _ _ _ _).2, Matrix.neg_mulVec,
    Pi.neg_apply, Matrix.cons_val_zero, Matrix.cons_val_one]
  constructor <;> ring

end Verif.Fdfd
