import Verif.Fdfd.PhcLemmas
import Mathlib.LinearAlgebra.Eigenspace.Triangularizable
import Mathlib.Analysis.Complex.Polynomial.Basic
/-
Property C97: the modes of a photonic crystal (`mode_solver` of `spins/fdfd_solvers/phc_mode_solver.py`).
-/
namespace Verif.Fdfd
open Matrix
set_option linter.unusedVariables false
variable {sh : Shape}

/-! ### Specification: fields on the infinite lattice -/

/-- A cell of the infinite grid. -/
abbrev Site := Fin 3 → Int

/-- The site `s` cells further along `a`. -/
def Site.step (n : Site) (a : Fin 3) (s : Int) : Site := Function.update n a (n a + s)

/-- The site of a cell of the unit cell. -/
def siteOf (c : Cell sh) : Site := fun a => ((c a).val : Int)

/-- Bloch's condition: one unit cell further along `a` the field is multiplied by `exp(-i k_a L_a)`. -/
def IsBloch (sh : Shape) (L k : Fin 3 → ℂ) (F : Site → ℂ) : Prop :=
  ∀ n a, F (n.step a (sh a)) = Complex.exp (-(Complex.I * (k a * L a))) * F n

/-- `F` is the field on the infinite lattice with Bloch vector `k` that the vectorised field `v` of the unit cell
stands for. -/
def Continues (L k : Fin 3 → ℂ) (v : VField sh.size) (F : Fin 3 → Site → ℂ) : Prop :=
  (∀ a, IsBloch sh L k (F a)) ∧ ∀ a c, F a (siteOf c) = v (a, pos c)

/-- The width along `a` of the cell at the site `n`, repeated periodically. -/
def siteWidth (sh : Shape) (dx : Fin 3 → Nat → ℂ) (a : Fin 3) (n : Site) : ℂ := dx a (n a % (sh a : Int)).toNat

/-- Forward difference on the infinite lattice. -/
noncomputable def latFwd (sh : Shape) (dx : Fin 3 → Nat → ℂ) (a : Fin 3) (F : Site → ℂ) (n : Site) : ℂ :=
  (F (n.step a 1) - F n) / siteWidth sh dx a n

/-- Backward difference on the infinite lattice. -/
noncomputable def latBack (sh : Shape) (dx : Fin 3 → Nat → ℂ) (a : Fin 3) (F : Site → ℂ) (n : Site) : ℂ :=
  (F n - F (n.step a (-1))) / siteWidth sh dx a n

/-- The curl of an electric field on the infinite lattice. -/
noncomputable def latCurlE (sh : Shape) (d : Dxes) (F : Fin 3 → Site → ℂ) (a : Fin 3) (n : Site) : ℂ :=
  latFwd sh d.e (a + 1) (F (a + 2)) n - latFwd sh d.e (a + 2) (F (a + 1)) n

/-- The curl of a magnetic field on the infinite lattice. -/
noncomputable def latCurlH (sh : Shape) (d : Dxes) (F : Fin 3 → Site → ℂ) (a : Fin 3) (n : Site) : ℂ :=
  latBack sh d.h (a + 1) (F (a + 2)) n - latBack sh d.h (a + 2) (F (a + 1)) n

/-- What `eigs` returns: eigenvalues with nonzero eigenvectors. -/
def EigsCorrect (eigs : Eigs sh) : Prop :=
  ∀ op n s v0, ∀ x ∈ eigs op n s v0, op *ᵥ x.2 = x.1 • x.2 ∧ x.2 ≠ 0

/-- Permittivity without loss: real and positive. -/
def Lossless (eps : VField sh.size) : Prop := ∀ p, (eps p).im = 0 ∧ 0 < (eps p).re

/-! ### Lemmas: the lattice -/

theorem step_comm (n : Site) (a b : Fin 3) (s t : Int) : (n.step a s).step b t = (n.step b t).step a s := by
  funext x
  unfold Site.step
  by_cases h : a = b
  · subst h
    by_cases hx : x = a
    · subst hx; simp only [Function.update_self]; ring
    · simp only [Function.update_of_ne hx]
  · by_cases hxa : x = a
    · subst hxa
      rw [Function.update_of_ne h, Function.update_self, Function.update_self, Function.update_of_ne h]
    · by_cases hxb : x = b
      · subst hxb
        rw [Function.update_self, Function.update_of_ne hxa, Function.update_of_ne hxa, Function.update_self]
      · rw [Function.update_of_ne hxb, Function.update_of_ne hxa, Function.update_of_ne hxa, Function.update_of_ne hxb]

theorem step_step (n : Site) (a : Fin 3) (s t : Int) : (n.step a s).step a t = n.step a (s + t) := by
  funext x
  unfold Site.step
  by_cases hx : x = a
  · subst hx; simp only [Function.update_self]; ring
  · simp only [Function.update_of_ne hx]

theorem step_zero (n : Site) (a : Fin 3) : n.step a 0 = n := by
  unfold Site.step; rw [add_zero, Function.update_eq_self]

theorem step_self (n : Site) (a : Fin 3) (s : Int) : n.step a s a = n a + s := Function.update_self ..
theorem step_ne (n : Site) (a b : Fin 3) (s : Int) (h : b ≠ a) : n.step a s b = n b := Function.update_of_ne h ..

theorem siteWidth_step (dx : Fin 3 → Nat → ℂ) (a b : Fin 3) (n : Site) :
    siteWidth sh dx a (n.step b (sh b)) = siteWidth sh dx a n := by
  unfold siteWidth
  by_cases h : a = b
  · subst h; rw [step_self, Int.add_emod_right]
  · rw [step_ne n b a _ h]

theorem bloch_fwd (L k : Fin 3 → ℂ) (dx : Fin 3 → Nat → ℂ) (a : Fin 3) (F : Site → ℂ) (h : IsBloch sh L k F) :
    IsBloch sh L k (latFwd sh dx a F) := by
  intro n b
  rw [latFwd, latFwd, siteWidth_step, step_comm, h, h]; ring

theorem bloch_back (L k : Fin 3 → ℂ) (dx : Fin 3 → Nat → ℂ) (a : Fin 3) (F : Site → ℂ) (h : IsBloch sh L k F) :
    IsBloch sh L k (latBack sh dx a F) := by
  intro n b
  rw [latBack, latBack, siteWidth_step, step_comm, h, h]; ring

theorem bloch_sub (L k : Fin 3 → ℂ) (F G : Site → ℂ) (hF : IsBloch sh L k F) (hG : IsBloch sh L k G) :
    IsBloch sh L k (fun n => F n - G n) := by
  intro n b
  simp only []
  rw [hF, hG]; ring

theorem bloch_smul (L k : Fin 3 → ℂ) (F : Site → ℂ) (z : ℂ) (hF : IsBloch sh L k F) :
    IsBloch sh L k (fun n => z * F n) := by
  intro n b
  simp only []
  rw [hF]; ring

theorem bloch_mul (L k : Fin 3 → ℂ) (F G : Site → ℂ) (hF : IsBloch sh L k F) (hG : IsBloch sh L 0 G) :
    IsBloch sh L k (fun n => G n * F n) := by
  intro n b
  simp only []
  rw [hF, hG]; simp; ring

/-- Zero one period further along an axis is zero everywhere along it. -/
theorem zero_along (L k : Fin 3 → ℂ) (F : Site → ℂ) (h : IsBloch sh L k F) (a : Fin 3) (n : Site) (m : Int)
    (h0 : F n = 0) : F (n.step a (m * sh a)) = 0 := by
  induction m using Int.induction_on with
  | zero => rw [zero_mul, step_zero, h0]
  | succ i ih =>
    have : n.step a (((i : Int) + 1) * sh a) = (n.step a (i * sh a)).step a (sh a) := by
      rw [step_step]; congr 1; ring
    rw [this, h, ih, mul_zero]
  | pred i ih =>
    have e : n.step a (-(i : Int) * sh a) = (n.step a ((-(i : Int) - 1) * sh a)).step a (sh a) := by
      rw [step_step]; congr 1; ring
    rw [e, h] at ih
    exact (mul_eq_zero.1 ih).resolve_left (Complex.exp_ne_zero _)

/-- A Bloch field that vanishes in the unit cell vanishes. -/
theorem bloch_zero (L k : Fin 3 → ℂ) (F : Site → ℂ) (h : IsBloch sh L k F) (hn : ∀ a, 0 < sh a)
    (h0 : ∀ c : Cell sh, F (siteOf c) = 0) (n : Site) : F n = 0 := by
  have hp : ∀ a, (0 : Int) < sh a := fun a => by exact_mod_cast hn a
  set c : Cell sh := fun a => ⟨(n a % (sh a : Int)).toNat, by
    have h1 := Int.emod_nonneg (n a) (hp a).ne'
    have h2 := Int.emod_lt_of_pos (n a) (hp a)
    omega⟩ with hc
  have hs : ∀ a, siteOf c a = n a % (sh a : Int) := by
    intro a
    have h1 := Int.emod_nonneg (n a) (hp a).ne'
    show (((n a % (sh a : Int)).toNat : Nat) : Int) = _
    omega
  have e : n = (((siteOf c).step 0 (n 0 / sh 0 * sh 0)).step 1 (n 1 / sh 1 * sh 1)).step 2 (n 2 / sh 2 * sh 2) := by
    funext x
    have hx := Int.emod_add_mul_ediv (n x) (sh x)
    match x with
    | 0 =>
      rw [step_ne _ 2 0 _ (by decide), step_ne _ 1 0 _ (by decide), step_self, hs]
      linarith
    | 1 =>
      rw [step_ne _ 2 1 _ (by decide), step_self, step_ne _ 0 1 _ (by decide), hs]
      linarith
    | 2 =>
      rw [step_self, step_ne _ 1 2 _ (by decide), step_ne _ 0 2 _ (by decide), hs]
      linarith
  rw [e]
  exact zero_along L k F h 2 _ _ (zero_along L k F h 1 _ _ (zero_along L k F h 0 _ _ (h0 c)))

theorem bloch_ext (L k : Fin 3 → ℂ) (F G : Site → ℂ) (hF : IsBloch sh L k F) (hG : IsBloch sh L k G)
    (hn : ∀ a, 0 < sh a) (h0 : ∀ c : Cell sh, F (siteOf c) = G (siteOf c)) (n : Site) : F n = G n :=
  sub_eq_zero.1 (bloch_zero L k _ (bloch_sub L k F G hF hG) hn (fun c => sub_eq_zero.2 (h0 c)) n)

theorem siteWidth_cell (dx : Fin 3 → Nat → ℂ) (a : Fin 3) (c : Cell sh) :
    siteWidth sh dx a (siteOf c) = dx a (c a) := by
  unfold siteWidth siteOf
  rw [toNat_emod, Nat.mod_eq_of_lt (c a).isLt]

theorem step_up (L k : Fin 3 → ℂ) (dx : Fin 3 → Nat → ℂ) (hL : ∀ a, L a = gridLength sh dx a) (a : Fin 3)
    (F : Site → ℂ) (h : IsBloch sh L k F) (c : Cell sh) :
    F ((siteOf c).step a 1) = upPhase dx k a c * F (siteOf (nextCell a c)) := by
  have hc := (c a).isLt
  unfold upPhase
  by_cases e : (c a).val + 1 = sh a
  · rw [if_pos e, ← hL, ← h]
    congr 1
    funext b
    by_cases hb : b = a
    · subst hb
      rw [step_self, step_self, siteOf, siteOf, nextCell, if_pos rfl]
      simp only [e, Nat.mod_self]
      omega
    · rw [step_ne _ a b _ hb, step_ne _ a b _ hb, siteOf, siteOf, nextCell, if_neg hb]
  · rw [if_neg e, one_mul]
    congr 1
    funext b
    by_cases hb : b = a
    · subst hb
      rw [step_self, siteOf, siteOf, nextCell, if_pos rfl]
      simp only []
      rw [Nat.mod_eq_of_lt (by omega)]
      push_cast; rfl
    · rw [step_ne _ a b _ hb, siteOf, siteOf, nextCell, if_neg hb]

theorem step_down (L k : Fin 3 → ℂ) (dx : Fin 3 → Nat → ℂ) (hL : ∀ a, L a = gridLength sh dx a) (a : Fin 3)
    (F : Site → ℂ) (h : IsBloch sh L k F) (c : Cell sh) :
    F ((siteOf c).step a (-1)) = downPhase dx k a c * F (siteOf (prevCell a c)) := by
  have hc := (c a).isLt
  unfold downPhase
  by_cases e : (c a).val = 0
  · rw [if_pos e, ← hL]
    have e2 : siteOf (prevCell a c) = ((siteOf c).step a (-1)).step a (sh a) := by
      funext b
      by_cases hb : b = a
      · subst hb
        rw [step_self, step_self, siteOf, siteOf, prevCell, if_pos rfl]
        simp only []
        rw [e, Nat.zero_add, Nat.mod_eq_of_lt (by omega)]
        omega
      · rw [step_ne _ a b _ hb, step_ne _ a b _ hb, siteOf, siteOf, prevCell, if_neg hb]
    rw [e2, h, ← mul_assoc, ← Complex.exp_add, add_neg_cancel, Complex.exp_zero, one_mul]
  · rw [if_neg e, one_mul]
    congr 1
    funext b
    by_cases hb : b = a
    · subst hb
      rw [step_self, siteOf, siteOf, prevCell, if_pos rfl]
      simp only []
      have : (c b).val + (sh b - 1) = ((c b).val - 1) + sh b := by omega
      rw [this, Nat.add_mod_right, Nat.mod_eq_of_lt (by omega)]
      omega
    · rw [step_ne _ a b _ hb, siteOf, siteOf, prevCell, if_neg hb]

theorem latFwd_cell (L k : Fin 3 → ℂ) (dx : Fin 3 → Nat → ℂ) (hL : ∀ a, L a = gridLength sh dx a) (a : Fin 3)
    (F : Site → ℂ) (h : IsBloch sh L k F) (c : Cell sh) :
    latFwd sh dx a F (siteOf c) = fwdDiff dx k a (fun c => F (siteOf c)) c := by
  rw [latFwd, fwdDiff, siteWidth_cell, step_up L k dx hL a F h]

theorem latBack_cell (L k : Fin 3 → ℂ) (dx : Fin 3 → Nat → ℂ) (hL : ∀ a, L a = gridLength sh dx a) (a : Fin 3)
    (F : Site → ℂ) (h : IsBloch sh L k F) (c : Cell sh) :
    latBack sh dx a F (siteOf c) = backDiff dx k a (fun c => F (siteOf c)) c := by
  rw [latBack, backDiff, siteWidth_cell, step_down L k dx hL a F h]

/-- The curl on the lattice continues the curl of the unit cell. -/
theorem continues_curlE (d : Dxes) (k : Fin 3 → ℂ) (ce : Mat3 sh.size) (hce : curlE sh d k 0 = some ce)
    (v : VField sh.size) (F : Fin 3 → Site → ℂ) (h : Continues (gridLength sh d.e) k v F) :
    Continues (gridLength sh d.e) k (ce *ᵥ v) (latCurlE sh d F) := by
  refine ⟨fun a => bloch_sub _ _ _ _ (bloch_fwd _ _ _ _ _ (h.1 _)) (bloch_fwd _ _ _ _ _ (h.1 _)), fun a c => ?_⟩
  obtain ⟨h0, h1, h2⟩ := curl_e_pointwise d k ce hce (fun a c => v (a, pos c)) v (fun _ _ => rfl) c
  have hf : ∀ a, (fun c : Cell sh => F a (siteOf c)) = fun c => v (a, pos c) := fun a => funext (h.2 a)
  rw [latCurlE, latFwd_cell _ k d.e (fun _ => rfl) _ _ (h.1 _), latFwd_cell _ k d.e (fun _ => rfl) _ _ (h.1 _), hf, hf]
  match a with
  | 0 => exact h0.symm
  | 1 => exact h1.symm
  | 2 => exact h2.symm

theorem continues_curlH (d : Dxes) (k : Fin 3 → ℂ) (ch : Mat3 sh.size) (hch : curlH sh d k 0 = some ch)
    (v : VField sh.size) (F : Fin 3 → Site → ℂ) (h : Continues (gridLength sh d.h) k v F) :
    Continues (gridLength sh d.h) k (ch *ᵥ v) (latCurlH sh d F) := by
  refine ⟨fun a => bloch_sub _ _ _ _ (bloch_back _ _ _ _ _ (h.1 _)) (bloch_back _ _ _ _ _ (h.1 _)), fun a c => ?_⟩
  obtain ⟨h0, h1, h2⟩ := curl_h_pointwise d k ch hch (fun a c => v (a, pos c)) v (fun _ _ => rfl) c
  have hf : ∀ a, (fun c : Cell sh => F a (siteOf c)) = fun c => v (a, pos c) := fun a => funext (h.2 a)
  rw [latCurlH, latBack_cell _ k d.h (fun _ => rfl) _ _ (h.1 _), latBack_cell _ k d.h (fun _ => rfl) _ _ (h.1 _), hf, hf]
  match a with
  | 0 => exact h0.symm
  | 1 => exact h1.symm
  | 2 => exact h2.symm

/-! ### Lemmas: the result of `mode_solver` -/

theorem runEigs_correct {eigs : Eigs sh} (he : EigsCorrect eigs) (a : PhcArgs sh) (op : Mat3 sh.size)
    (start : VField sh.size → Option (VField sh.size)) (fdfd : VField sh.size → VField sh.size)
    (r : List (ℂ × VField sh.size)) (h : runEigs eigs a op start fdfd = some r) :
    ∀ x ∈ r, op *ᵥ x.2 = x.1 • x.2 ∧ x.2 ≠ 0 := by
  unfold runEigs at h
  split at h
  · cases h; exact he _ _ _ _
  · split at h
    · obtain ⟨v, _, rfl⟩ := Option.map_eq_some_iff.1 h
      exact he _ _ _ _
    · cases h; exact he _ _ _ _

/-- One mode returned for `'efield'`. -/
theorem efield_result {eigs : Eigs sh} (he : EigsCorrect eigs) (fdfd : VField sh.size → VField sh.size)
    (a : PhcArgs sh) (ht : a.opType = "efield") (ws : List ℂ) (fs : List (VField sh.size))
    (h : phcModeSolver eigs fdfd a = some (ws, fs)) (i : Nat) (w : ℂ) (f : VField sh.size)
    (hw : ws[i]? = some w) (hf : fs[i]? = some f) :
    ∃ ce ch, curlE sh a.d a.bloch a.so = some ce ∧ curlH sh a.d a.bloch a.so = some ch ∧
      ∃ l v, v ≠ 0 ∧ w = npSqrt l ∧
        f = (Matrix.diagonal (fun p => 1 / npSqrt (a.eps p)) : Mat3 sh.size) *ᵥ v ∧
        (Matrix.diagonal (fun p => 1 / npSqrt (a.eps p)) : Mat3 sh.size) *ᵥ (ch *ᵥ (ce *ᵥ f)) = l • v := by
  unfold phcModeSolver at h
  simp only [ht, if_true] at h
  obtain ⟨t, ht', h⟩ := Option.bind_eq_some_iff.1 h
  obtain ⟨r, hr, h⟩ := Option.bind_eq_some_iff.1 h
  unfold efieldOperator at ht'
  obtain ⟨ce, hce, ht'⟩ := Option.bind_eq_some_iff.1 ht'
  obtain ⟨ch, hch, rfl⟩ := Option.map_eq_some_iff.1 ht'
  refine ⟨ce, ch, hce, hch, ?_⟩
  have hg := runEigs_correct he a _ _ _ r hr
  unfold finishE at h
  split at h
  · simp only [Option.some.injEq, Prod.mk.injEq] at h
    obtain ⟨rfl, rfl⟩ := h
    rw [List.getElem?_map] at hw hf
    obtain ⟨x, hx, rfl⟩ := Option.map_eq_some_iff.1 hw
    rw [hx, Option.map_some, Option.some.injEq] at hf
    obtain ⟨h1, h2⟩ := hg x (List.mem_of_getElem? hx)
    refine ⟨x.1, x.2, h2, rfl, hf.symm, ?_⟩
    rw [← h1, ← hf]
    simp only [Matrix.mulVec_mulVec, Matrix.mul_assoc]
  · cases h

/-- One mode returned for `'hfield'`. -/
theorem hfield_result {eigs : Eigs sh} (he : EigsCorrect eigs) (fdfd : VField sh.size → VField sh.size)
    (a : PhcArgs sh) (ht : a.opType = "hfield") (ws : List ℂ) (fs : List (VField sh.size))
    (h : phcModeSolver eigs fdfd a = some (ws, fs)) (i : Nat) (w : ℂ) (f : VField sh.size)
    (hw : ws[i]? = some w) (hf : fs[i]? = some f) :
    ∃ ce ch, curlE sh a.d a.bloch a.so = some ce ∧ curlH sh a.d a.bloch a.so = some ch ∧ f ≠ 0 ∧
      ∃ l, w = npSqrt l ∧
        ce *ᵥ ((Matrix.diagonal (fun p => 1 / a.eps p) : Mat3 sh.size) *ᵥ (ch *ᵥ f)) = l • f := by
  unfold phcModeSolver at h
  simp only [ht, if_neg (show ¬ ("hfield" = "efield") by decide), if_true] at h
  obtain ⟨op, ht', h1⟩ := Option.bind_eq_some_iff.1 h
  obtain ⟨r, hr, h2⟩ := Option.bind_eq_some_iff.1 h1
  unfold hfieldOperator at ht'
  obtain ⟨ce, hce, ht'⟩ := Option.bind_eq_some_iff.1 ht'
  obtain ⟨ch, hch, rfl⟩ := Option.map_eq_some_iff.1 ht'
  refine ⟨ce, ch, hce, hch, ?_⟩
  have hg := runEigs_correct he a _ _ _ r hr
  have h' : (r.map (fun x => npSqrt x.1), r.map (fun x => x.2)) = (ws, fs) := Option.some.inj h2
  rw [Prod.mk.injEq] at h'
  obtain ⟨rfl, rfl⟩ := h'
  rw [List.getElem?_map] at hw hf
  obtain ⟨x, hx, rfl⟩ := Option.map_eq_some_iff.1 hw
  rw [hx, Option.map_some, Option.some.injEq] at hf
  obtain ⟨h1, h2⟩ := hg x (List.mem_of_getElem? hx)
  subst hf
  refine ⟨h2, x.1, rfl, ?_⟩
  rw [← h1]
  simp only [Matrix.mulVec_mulVec, Matrix.mul_assoc]

theorem other_type {eigs : Eigs sh} (fdfd : VField sh.size → VField sh.size) (a : PhcArgs sh) (r)
    (h : phcModeSolver eigs fdfd a = some r) : a.opType = "efield" ∨ a.opType = "hfield" := by
  unfold phcModeSolver at h
  split at h
  · left; assumption
  · split at h
    · right; assumption
    · cases h

/-- The electric field returned solves the wave equation of the unit cell. -/
theorem efield_wave {eps v f y : VField sh.size} {l : ℂ} (hε : ∀ p, eps p ≠ 0)
    (hf : f = (Matrix.diagonal (fun p => 1 / npSqrt (eps p)) : Mat3 sh.size) *ᵥ v)
    (h : (Matrix.diagonal (fun p => 1 / npSqrt (eps p)) : Mat3 sh.size) *ᵥ y = l • v) (p : Fin 3 × Fin sh.size) :
    y p = l * (eps p * f p) := by
  have h1 := congrFun h p
  have h2 := congrFun hf p
  rw [Matrix.mulVec_diagonal, Pi.smul_apply, smul_eq_mul] at h1
  rw [Matrix.mulVec_diagonal] at h2
  have hs := npSqrt_ne (hε p)
  have hq := npSqrt_sq (eps p)
  have h3 : y p = npSqrt (eps p) * (1 / npSqrt (eps p) * y p) := by field_simp
  have h4 : eps p * (1 / npSqrt (eps p) * v p) = npSqrt (eps p) * v p := by
    have : eps p * (1 / npSqrt (eps p) * v p) = npSqrt (eps p) * npSqrt (eps p) * (1 / npSqrt (eps p) * v p) := by
      rw [hq]
    rw [this]; field_simp
  rw [h2, h4, h3, h1]; ring

theorem efield_ne {eps v f : VField sh.size} (hv : v ≠ 0) (hε : ∀ p, eps p ≠ 0)
    (hf : f = (Matrix.diagonal (fun p => 1 / npSqrt (eps p)) : Mat3 sh.size) *ᵥ v) : f ≠ 0 := by
  obtain ⟨p, hp⟩ := Function.ne_iff.1 hv
  apply Function.ne_iff.2
  refine ⟨p, ?_⟩
  rw [hf, Matrix.mulVec_diagonal]
  exact mul_ne_zero (one_div_ne_zero (npSqrt_ne (hε p))) hp

theorem Lossless.ne {eps : VField sh.size} (h : Lossless eps) (p : Fin 3 × Fin sh.size) : eps p ≠ 0 := by
  intro e
  have := (h p).2
  rw [e] at this; exact lt_irrefl _ this

/-- The quotient for the electric field. -/
theorem efield_value {d : Dxes} {so : Fin 3 → Fin 3 → Int} (hd : PhcLattice sh d so) {k : Fin 3 → ℂ}
    (hk : ∀ a, (k a).im = 0) {ce ch : Mat3 sh.size} (hce : curlE sh d k so = some ce)
    (hch : curlH sh d k so = some ch) {eps f : VField sh.size} (hε : Lossless eps) (hf : f ≠ 0) {l : ℂ}
    (h : ∀ p, (ch *ᵥ (ce *ᵥ f)) p = l * (eps p * f p)) : ∃ r : ℝ, 0 ≤ r ∧ l = (r : ℂ) := by
  have h1 := wdot_adjoint _ _ ce ch (lattice_adjoint d so hd k hk ce ch hce hch) f (ce *ᵥ f)
  have h2 : ch *ᵥ (ce *ᵥ f) = l • (Matrix.diagonal eps *ᵥ f) := by
    funext p; rw [h p, Pi.smul_apply, Matrix.mulVec_diagonal, smul_eq_mul]
  rw [h2, wdot_smul, wdot_weight] at h1
  have e1 : (fun p => vecE d p * eps p : VField sh.size) =
      fun p => ((volE d p.1 (cellAt p.2) * (eps p).re : ℝ) : ℂ) := by
    funext p; rw [vecE]; push_cast; rw [ofReal_re_of (hε p).1]
  have e2 : (vecH d : VField sh.size) = fun p => ((volH d p.1 (cellAt p.2) : ℝ) : ℂ) := rfl
  rw [e1, e2, wdot_self (fun p => volE d p.1 (cellAt p.2) * (eps p).re), wdot_self (fun p => volH d p.1 (cellAt p.2))] at h1
  have hden := wdot_self_pos (fun p : Fin 3 × Fin sh.size => volE d p.1 (cellAt p.2) * (eps p).re)
    (fun p => mul_pos (volE_pos hd.2.1 _ _) (hε p).2) f hf
  have hnum : 0 ≤ ∑ p : Fin 3 × Fin sh.size, volH d p.1 (cellAt p.2) * Complex.normSq ((ce *ᵥ f) p) :=
    Finset.sum_nonneg (fun p _ => mul_nonneg (volH_pos hd.2.1 _ _).le (Complex.normSq_nonneg _))
  obtain ⟨h3, h4⟩ := eigen_real l _ _ hnum hden h1.symm
  exact ⟨_, h4, h3⟩

/-- The quotient for the magnetic field. -/
theorem hfield_value {d : Dxes} {so : Fin 3 → Fin 3 → Int} (hd : PhcLattice sh d so) {k : Fin 3 → ℂ}
    (hk : ∀ a, (k a).im = 0) {ce ch : Mat3 sh.size} (hce : curlE sh d k so = some ce)
    (hch : curlH sh d k so = some ch) {eps f : VField sh.size} (hε : Lossless eps) (hf : f ≠ 0) {l : ℂ}
    (h : ce *ᵥ ((Matrix.diagonal (fun p => 1 / eps p) : Mat3 sh.size) *ᵥ (ch *ᵥ f)) = l • f) :
    ∃ r : ℝ, 0 ≤ r ∧ l = (r : ℂ) := by
  have h0 := lattice_adjoint d so hd k hk ce ch hce hch
  have hrE : ∀ p : Fin 3 × Fin sh.size, (vecE d p).im = 0 := fun p => Complex.ofReal_im _
  have hrH : ∀ p : Fin 3 × Fin sh.size, (vecH d p).im = 0 := fun p => Complex.ofReal_im _
  set y : VField sh.size := (Matrix.diagonal (fun p => 1 / eps p) : Mat3 sh.size) *ᵥ (ch *ᵥ f) with hy
  have h1 : wdot (vecH d) f (ce *ᵥ y) = wdot (vecE d) (ch *ᵥ f) y := by
    rw [wdot_swap _ (ce *ᵥ y) f hrH, ← wdot_adjoint _ _ ce ch h0, ← wdot_swap _ _ _ hrE]
  rw [h, wdot_smul, hy, wdot_weight] at h1
  have e1 : (fun p => vecE d p * (1 / eps p) : VField sh.size) =
      fun p => ((volE d p.1 (cellAt p.2) * (1 / (eps p).re) : ℝ) : ℂ) := by
    funext p; rw [vecE]; push_cast; rw [ofReal_re_of (hε p).1]
  have e2 : (vecH d : VField sh.size) = fun p => ((volH d p.1 (cellAt p.2) : ℝ) : ℂ) := rfl
  rw [e1, e2, wdot_self (fun p => volE d p.1 (cellAt p.2) * (1 / (eps p).re)),
    wdot_self (fun p => volH d p.1 (cellAt p.2))] at h1
  have hden := wdot_self_pos (fun p : Fin 3 × Fin sh.size => volH d p.1 (cellAt p.2))
    (fun p => volH_pos hd.2.1 _ _) f hf
  have hnum : 0 ≤ ∑ p : Fin 3 × Fin sh.size, volE d p.1 (cellAt p.2) * (1 / (eps p).re) *
      Complex.normSq ((ch *ᵥ f) p) :=
    Finset.sum_nonneg (fun p _ => mul_nonneg (mul_nonneg (volE_pos hd.2.1 _ _).le
      (one_div_nonneg.2 (hε p).2.le)) (Complex.normSq_nonneg _))
  obtain ⟨h3, h4⟩ := eigen_real l _ _ hnum hden h1.symm
  exact ⟨_, h4, h3⟩

/-! ### C97 -/

/-- C97: in a lossless crystal with a real Bloch vector every frequency returned is a real number that is not
negative: for every number of cells, every positive widths (and on uniform grids every shear). -/
theorem phc_frequencies_real {eigs : Eigs sh} (he : EigsCorrect eigs) (fdfd : VField sh.size → VField sh.size)
    (a : PhcArgs sh) (hd : PhcLattice sh a.d a.so) (hk : ∀ x, (a.bloch x).im = 0) (hε : Lossless a.eps)
    (ws : List ℂ) (fs : List (VField sh.size)) (h : phcModeSolver eigs fdfd a = some (ws, fs)) :
    ws.length = fs.length ∧ ∀ w ∈ ws, w.im = 0 ∧ 0 ≤ w.re := by
  have hlen : ws.length = fs.length := by
    unfold phcModeSolver at h
    simp only [] at h
    split at h
    · obtain ⟨t, _, h⟩ := Option.bind_eq_some_iff.1 h
      obtain ⟨r, _, h⟩ := Option.bind_eq_some_iff.1 h
      unfold finishE at h
      split at h
      · simp only [Option.some.injEq, Prod.mk.injEq] at h
        rw [← h.1, ← h.2, List.length_map, List.length_map]
      · cases h
    · split at h
      · obtain ⟨t, _, h⟩ := Option.bind_eq_some_iff.1 h
        obtain ⟨r, _, h⟩ := Option.bind_eq_some_iff.1 h
        unfold finishH at h
        simp only [Option.some.injEq, Prod.mk.injEq] at h
        rw [← h.1, ← h.2, List.length_map, List.length_map]
      · cases h
  refine ⟨hlen, fun w hw => ?_⟩
  obtain ⟨i, hi, rfl⟩ := List.mem_iff_getElem.1 hw
  have hi' : i < fs.length := hlen ▸ hi
  have key : ∃ r : ℝ, 0 ≤ r ∧ ws[i] = npSqrt (r : ℂ) := by
    rcases other_type fdfd a _ h with ht | ht
    · obtain ⟨ce, ch, hce, hch, l, v, hv, hw', hf, hl⟩ := efield_result he fdfd a ht ws fs h i _ _
        (List.getElem?_eq_getElem hi) (List.getElem?_eq_getElem hi')
      obtain ⟨r, hr, rfl⟩ := efield_value hd hk hce hch hε (efield_ne hv hε.ne hf)
        (efield_wave hε.ne hf hl)
      exact ⟨r, hr, hw'⟩
    · obtain ⟨ce, ch, hce, hch, hf, l, hw', hl⟩ := hfield_result he fdfd a ht ws fs h i _ _
        (List.getElem?_eq_getElem hi) (List.getElem?_eq_getElem hi')
      obtain ⟨r, hr, rfl⟩ := hfield_value hd hk hce hch hε hf hl
      exact ⟨r, hr, hw'⟩
  obtain ⟨r, hr, hw'⟩ := key
  rw [hw', npSqrt_real r hr]
  exact ⟨Complex.ofReal_im _, by rw [Complex.ofReal_re]; exact Real.sqrt_nonneg r⟩

/-- C97: the electric field returned, repeated over the infinite crystal with Bloch's phases, is not zero, solves
the wave equation `curl curl E = ω² ε E` at every site and, with the magnetic field that belongs to it, both of
Maxwell's curl equations (with permeability one). For every Bloch vector, complex ones included. -/
theorem phc_efield_maxwell {eigs : Eigs sh} (he : EigsCorrect eigs) (fdfd : VField sh.size → VField sh.size)
    (a : PhcArgs sh) (ht : a.opType = "efield") (hn : ∀ x, 0 < sh x) (hl : SameLength sh a.d) (hso : a.so = 0)
    (hε : ∀ p, a.eps p ≠ 0) (ws : List ℂ) (fs : List (VField sh.size))
    (h : phcModeSolver eigs fdfd a = some (ws, fs)) (i : Nat) (w : ℂ) (f : VField sh.size)
    (hw : ws[i]? = some w) (hf : fs[i]? = some f) (E eps : Fin 3 → Site → ℂ)
    (hE : Continues (gridLength sh a.d.e) a.bloch f E) (heps : Continues (gridLength sh a.d.e) 0 a.eps eps) :
    f ≠ 0 ∧ (∀ b n, latCurlH sh a.d (latCurlE sh a.d E) b n = w ^ 2 * (eps b n * E b n)) ∧
      (w ≠ 0 → ∀ H : Fin 3 → Site → ℂ, (∀ b n, latCurlE sh a.d E b n = -Complex.I * w * H b n) →
        ∀ b n, latCurlH sh a.d H b n = Complex.I * w * (eps b n * E b n)) := by
  obtain ⟨ce, ch, hce, hch, l, v, hv, hw', hf', hl'⟩ := efield_result he fdfd a ht ws fs h i w f hw hf
  rw [hso] at hce hch
  have hL : gridLength sh a.d.h = gridLength sh a.d.e := funext fun x => (hl x).symm
  have h1 := continues_curlE a.d a.bloch ce hce f E hE
  rw [← hL] at h1
  have h2 := continues_curlH a.d a.bloch ch hch _ _ h1
  have hw2 : w ^ 2 = l := by rw [hw', pow_two, npSqrt_sq]
  have main : ∀ b n, latCurlH sh a.d (latCurlE sh a.d E) b n = w ^ 2 * (eps b n * E b n) := by
    intro b
    refine bloch_ext _ a.bloch _ _ (h2.1 b) ?_ hn ?_
    · rw [hL]; exact bloch_smul _ _ _ _ (bloch_mul _ _ _ _ (hE.1 b) (heps.1 b))
    · intro c
      rw [h2.2, efield_wave hε hf' hl', heps.2, hE.2, hw2]
  refine ⟨efield_ne hv hε hf', main, fun hw0 H hH b n => ?_⟩
  have hz : -Complex.I * w ≠ 0 := mul_ne_zero (neg_ne_zero.2 Complex.I_ne_zero) hw0
  have e : ∀ b, H b = fun n => (-Complex.I * w)⁻¹ * latCurlE sh a.d E b n := by
    intro b; funext n; rw [hH, ← mul_assoc, inv_mul_cancel₀ hz, one_mul]
  have e2 : latCurlH sh a.d H b n = (-Complex.I * w)⁻¹ * latCurlH sh a.d (latCurlE sh a.d E) b n := by
    unfold latCurlH latBack
    rw [e, e]; ring
  rw [e2, main]
  field_simp
  linear_combination (-eps b n * E b n) * Complex.I_sq

/-- C97: the magnetic field returned, repeated over the infinite crystal, is not zero and with the electric field
that belongs to it solves both of Maxwell's curl equations. -/
theorem phc_hfield_maxwell {eigs : Eigs sh} (he : EigsCorrect eigs) (fdfd : VField sh.size → VField sh.size)
    (a : PhcArgs sh) (ht : a.opType = "hfield") (hn : ∀ x, 0 < sh x) (hl : SameLength sh a.d) (hso : a.so = 0)
    (hε : ∀ p, a.eps p ≠ 0) (ws : List ℂ) (fs : List (VField sh.size))
    (h : phcModeSolver eigs fdfd a = some (ws, fs)) (i : Nat) (w : ℂ) (f : VField sh.size)
    (hw : ws[i]? = some w) (hf : fs[i]? = some f) (H eps : Fin 3 → Site → ℂ)
    (hH : Continues (gridLength sh a.d.e) a.bloch f H) (heps : Continues (gridLength sh a.d.e) 0 a.eps eps) :
    f ≠ 0 ∧ (w ≠ 0 → ∀ E : Fin 3 → Site → ℂ,
      (∀ b n, latCurlH sh a.d H b n = Complex.I * w * (eps b n * E b n)) →
      ∀ b n, latCurlE sh a.d E b n = -Complex.I * w * H b n) := by
  obtain ⟨ce, ch, hce, hch, hfne, l, hw', hl'⟩ := hfield_result he fdfd a ht ws fs h i w f hw hf
  rw [hso] at hce hch
  have hL : gridLength sh a.d.h = gridLength sh a.d.e := funext fun x => (hl x).symm
  have hw2 : w ^ 2 = l := by rw [hw', pow_two, npSqrt_sq]
  refine ⟨hfne, fun hw0 E hE => ?_⟩
  have hz : Complex.I * w ≠ 0 := mul_ne_zero Complex.I_ne_zero hw0
  rw [← hL] at hH
  have h1 := continues_curlH a.d a.bloch ch hch f H hH
  rw [hL] at h1 hH
  have hε0 : ∀ b n, eps b n ≠ 0 := by
    intro b n
    have := bloch_ext (sh := sh) (gridLength sh a.d.e) 0
      (fun n => if eps b n = 0 then 1 else 0) (fun _ => 0)
      (fun n x => by
        have := heps.1 b n x
        simp only [Pi.zero_apply, zero_mul, mul_zero, neg_zero, Complex.exp_zero, one_mul] at this ⊢
        rw [this])
      (fun n x => by simp) hn
      (fun c => by rw [heps.2, if_neg (hε _)]) n
    intro e0
    rw [if_pos e0] at this
    exact one_ne_zero this
  -- the electric field is the continuation of the unit cell's
  have hEc : Continues (gridLength sh a.d.e) a.bloch
      ((Complex.I * w)⁻¹ • ((Matrix.diagonal (fun p => 1 / a.eps p) : Mat3 sh.size) *ᵥ (ch *ᵥ f))) E := by
    have hEe : ∀ b n, E b n = (Complex.I * w)⁻¹ * ((1 / eps b n) * latCurlH sh a.d H b n) := by
      intro b n
      rw [hE]
      have := hε0 b n
      field_simp
    constructor
    · intro b n x
      have e1 := h1.1 b n x
      have e2 := heps.1 b n x
      simp only [Pi.zero_apply, zero_mul, mul_zero, neg_zero, Complex.exp_zero, one_mul] at e2
      rw [hEe, hEe, e1, e2]; ring
    · intro b c
      rw [hEe, h1.2, heps.2, Pi.smul_apply, Matrix.mulVec_diagonal, smul_eq_mul]
  have h2 := continues_curlE a.d a.bloch ce hce _ E hEc
  intro b n
  refine bloch_ext _ a.bloch _ (fun n => -Complex.I * w * H b n) (h2.1 b) (bloch_smul _ _ _ _ (hH.1 b)) hn
    (fun c => ?_) n
  rw [h2.2, hH.2, Matrix.mulVec_smul, hl', Pi.smul_apply, Pi.smul_apply, smul_eq_mul, smul_eq_mul, ← hw2]
  field_simp
  linear_combination f (b, pos c) * Complex.I_sq

/-- C97: modes of a nonzero frequency have no charges: the divergence of `ε E` is zero (`'efield'`). -/
theorem phc_efield_divergence {eigs : Eigs sh} (he : EigsCorrect eigs) (fdfd : VField sh.size → VField sh.size)
    (a : PhcArgs sh) (ht : a.opType = "efield") (hso : a.so = 0)
    (hε : ∀ p, a.eps p ≠ 0) (ws : List ℂ) (fs : List (VField sh.size))
    (h : phcModeSolver eigs fdfd a = some (ws, fs)) (i : Nat) (w : ℂ) (f : VField sh.size)
    (hw : ws[i]? = some w) (hf : fs[i]? = some f) (hw0 : w ≠ 0) (c : Cell sh) :
    ∑ b, backDiff a.d.h a.bloch b (fun c' => a.eps (b, pos c') * f (b, pos c')) c = 0 := by
  obtain ⟨ce, ch, hce, hch, l, v, hv, hw', hf', hl'⟩ := efield_result he fdfd a ht ws fs h i w f hw hf
  rw [hso] at hce hch
  have hw2 : w ^ 2 = l := by rw [hw', pow_two, npSqrt_sq]
  have hd := div_curl_h a.d a.bloch ch hch (ce *ᵥ f) c
  have e : ∀ b, (fun c' : Cell sh => (ch *ᵥ (ce *ᵥ f)) (b, pos c')) =
      fun c' => l * (a.eps (b, pos c') * f (b, pos c')) := fun b => funext fun c' => efield_wave hε hf' hl' _
  simp only [e] at hd
  have hl0 : l ≠ 0 := by rw [← hw2]; exact pow_ne_zero 2 hw0
  have e2 : ∀ b, backDiff a.d.h a.bloch b (fun c' => l * (a.eps (b, pos c') * f (b, pos c'))) c =
      l * backDiff a.d.h a.bloch b (fun c' => a.eps (b, pos c') * f (b, pos c')) c := by
    intro b; unfold backDiff; ring
  simp only [e2] at hd
  rw [← Finset.mul_sum] at hd
  exact (mul_eq_zero.1 hd).resolve_left hl0

/-- C97: modes of a nonzero frequency have a magnetic field without divergence (`'hfield'`). -/
theorem phc_hfield_divergence {eigs : Eigs sh} (he : EigsCorrect eigs) (fdfd : VField sh.size → VField sh.size)
    (a : PhcArgs sh) (ht : a.opType = "hfield") (hso : a.so = 0)
    (ws : List ℂ) (fs : List (VField sh.size))
    (h : phcModeSolver eigs fdfd a = some (ws, fs)) (i : Nat) (w : ℂ) (f : VField sh.size)
    (hw : ws[i]? = some w) (hf : fs[i]? = some f) (hw0 : w ≠ 0) (c : Cell sh) :
    ∑ b, fwdDiff a.d.e a.bloch b (fun c' => f (b, pos c')) c = 0 := by
  obtain ⟨ce, ch, hce, hch, hfne, l, hw', hl'⟩ := hfield_result he fdfd a ht ws fs h i w f hw hf
  rw [hso] at hce hch
  have hw2 : w ^ 2 = l := by rw [hw', pow_two, npSqrt_sq]
  have hd := div_curl_e a.d a.bloch ce hce
    ((Matrix.diagonal (fun p => 1 / a.eps p) : Mat3 sh.size) *ᵥ (ch *ᵥ f)) c
  rw [hl'] at hd
  have hl0 : l ≠ 0 := by rw [← hw2]; exact pow_ne_zero 2 hw0
  have e2 : ∀ b, fwdDiff a.d.e a.bloch b (fun c' => (l • f) (b, pos c')) c =
      l * fwdDiff a.d.e a.bloch b (fun c' => f (b, pos c')) c := by
    intro b; unfold fwdDiff; simp only [Pi.smul_apply, smul_eq_mul]; ring
  simp only [e2] at hd
  rw [← Finset.mul_sum] at hd
  exact (mul_eq_zero.1 hd).resolve_left hl0

/-- C97: modes of different frequencies are orthogonal: the electric fields of two calls (of the same crystal and
Bloch vector) with different frequencies satisfy `∑ volume ε conj(E₁) E₂ = 0`. -/
theorem phc_efield_orthogonal {eigs : Eigs sh} (he : EigsCorrect eigs) (fdfd : VField sh.size → VField sh.size)
    (a₁ a₂ : PhcArgs sh) (ht₁ : a₁.opType = "efield") (ht₂ : a₂.opType = "efield") (hd12 : a₁.d = a₂.d)
    (hk12 : a₁.bloch = a₂.bloch) (he12 : a₁.eps = a₂.eps) (hs12 : a₁.so = a₂.so)
    (hd : PhcLattice sh a₁.d a₁.so) (hk : ∀ x, (a₁.bloch x).im = 0) (hε : Lossless a₁.eps)
    (w₁ w₂ : ℂ) (f₁ f₂ : VField sh.size) (ws₁ ws₂ : List ℂ) (fs₁ fs₂ : List (VField sh.size)) (i₁ i₂ : Nat)
    (h₁ : phcModeSolver eigs fdfd a₁ = some (ws₁, fs₁)) (hw₁ : ws₁[i₁]? = some w₁) (hf₁ : fs₁[i₁]? = some f₁)
    (h₂ : phcModeSolver eigs fdfd a₂ = some (ws₂, fs₂)) (hw₂ : ws₂[i₂]? = some w₂) (hf₂ : fs₂[i₂]? = some f₂)
    (hne : w₁ ≠ w₂) :
    ∑ b, ∑ c : Cell sh, (volE a₁.d b c : ℂ) * a₁.eps (b, pos c) * (star (f₁ (b, pos c)) * f₂ (b, pos c)) = 0 := by
  obtain ⟨ce, ch, hce, hch, l₁, v₁, hv₁, hw₁', hf₁', hl₁⟩ := efield_result he fdfd a₁ ht₁ ws₁ fs₁ h₁ i₁ w₁ f₁ hw₁ hf₁
  obtain ⟨ce', ch', hce', hch', l₂, v₂, hv₂, hw₂', hf₂', hl₂⟩ := efield_result he fdfd a₂ ht₂ ws₂ fs₂ h₂ i₂ w₂ f₂ hw₂ hf₂
  rw [← hd12, ← hk12, ← hs12] at hce' hch'
  rw [hce] at hce'; rw [hch] at hch'
  cases hce'; cases hch'
  rw [← he12] at hf₂' hl₂
  have W₁ := efield_wave hε.ne hf₁' hl₁
  have W₂ := efield_wave hε.ne hf₂' hl₂
  have h0 := lattice_adjoint a₁.d a₁.so hd a₁.bloch hk ce ch hce hch
  have hrE : ∀ p : Fin 3 × Fin sh.size, (vecE a₁.d p).im = 0 := fun p => Complex.ofReal_im _
  have hrH : ∀ p : Fin 3 × Fin sh.size, (vecH a₁.d p).im = 0 := fun p => Complex.ofReal_im _
  have hlne : l₁ ≠ l₂ := by intro e; apply hne; rw [hw₁', hw₂', e]
  obtain ⟨r₁, _, hr₁⟩ := efield_value hd hk hce hch hε (efield_ne hv₁ hε.ne hf₁') W₁
  have e1 : ch *ᵥ (ce *ᵥ f₁) = l₁ • (Matrix.diagonal a₁.eps *ᵥ f₁) := by
    funext p; rw [W₁ p, Pi.smul_apply, Matrix.mulVec_diagonal, smul_eq_mul]
  have e2 : ch *ᵥ (ce *ᵥ f₂) = l₂ • (Matrix.diagonal a₁.eps *ᵥ f₂) := by
    funext p; rw [W₂ p, Pi.smul_apply, Matrix.mulVec_diagonal, smul_eq_mul]
  have s2 : wdot (vecE a₁.d) f₁ (ch *ᵥ (ce *ᵥ f₂)) = wdot (vecH a₁.d) (ce *ᵥ f₁) (ce *ᵥ f₂) :=
    wdot_adjoint _ _ ce ch h0 _ _
  have s1 : wdot (vecE a₁.d) (ch *ᵥ (ce *ᵥ f₁)) f₂ = wdot (vecH a₁.d) (ce *ᵥ f₁) (ce *ᵥ f₂) := by
    rw [wdot_swap _ f₂ _ hrE, wdot_adjoint _ _ ce ch h0, ← wdot_swap _ _ _ hrH]
  rw [e2, wdot_smul, wdot_weight] at s2
  rw [e1] at s1
  have s1' : wdot (vecE a₁.d) (l₁ • (Matrix.diagonal a₁.eps *ᵥ f₁)) f₂ =
      l₁ * wdot (fun p => vecE a₁.d p * a₁.eps p) f₁ f₂ := by
    rw [wdot_swap _ f₂ _ hrE, wdot_smul, star_mul', hr₁, conj_real (Complex.ofReal_im _), ← wdot_swap _ _ _ hrE,
      ← wdot_diag _ _ _ _ (fun p => (hε p).1), wdot_weight]
  rw [s1'] at s1
  have hz : wdot (fun p => vecE a₁.d p * a₁.eps p) f₁ f₂ = 0 := by
    have : (l₁ - l₂) * wdot (fun p => vecE a₁.d p * a₁.eps p) f₁ f₂ = 0 := by
      rw [sub_mul, s1, s2, sub_self]
    exact (mul_eq_zero.1 this).resolve_left (sub_ne_zero.2 hlne)
  rw [wdot, Fintype.sum_prod_type] at hz
  rw [← hz]
  apply Finset.sum_congr rfl
  intro b _
  rw [sum_pos]
  apply Finset.sum_congr rfl
  intro c _
  rw [vecE]; simp only [cellAt_pos]

/-- C97: two magnetic fields of one call with different frequencies are orthogonal. -/
theorem phc_hfield_orthogonal {eigs : Eigs sh} (he : EigsCorrect eigs) (fdfd : VField sh.size → VField sh.size)
    (a : PhcArgs sh) (ht : a.opType = "hfield")
    (hd : PhcLattice sh a.d a.so) (hk : ∀ x, (a.bloch x).im = 0) (hε : Lossless a.eps)
    (w₁ w₂ : ℂ) (f₁ f₂ : VField sh.size) (ws : List ℂ) (fs : List (VField sh.size)) (i₁ i₂ : Nat)
    (h : phcModeSolver eigs fdfd a = some (ws, fs)) (hw₁ : ws[i₁]? = some w₁) (hf₁ : fs[i₁]? = some f₁)
    (hw₂ : ws[i₂]? = some w₂) (hf₂ : fs[i₂]? = some f₂) (hne : w₁ ≠ w₂) :
    ∑ b, ∑ c : Cell sh, (volH a.d b c : ℂ) * (star (f₁ (b, pos c)) * f₂ (b, pos c)) = 0 := by
  obtain ⟨ce, ch, hce, hch, hn₁, l₁, hw₁', hl₁⟩ := hfield_result he fdfd a ht ws fs h i₁ w₁ f₁ hw₁ hf₁
  obtain ⟨ce', ch', hce', hch', hn₂, l₂, hw₂', hl₂⟩ := hfield_result he fdfd a ht ws fs h i₂ w₂ f₂ hw₂ hf₂
  rw [hce] at hce'; rw [hch] at hch'
  cases hce'; cases hch'
  have h0 := lattice_adjoint a.d a.so hd a.bloch hk ce ch hce hch
  have hrE : ∀ p : Fin 3 × Fin sh.size, (vecE a.d p).im = 0 := fun p => Complex.ofReal_im _
  have hrH : ∀ p : Fin 3 × Fin sh.size, (vecH a.d p).im = 0 := fun p => Complex.ofReal_im _
  have hlne : l₁ ≠ l₂ := by intro e; apply hne; rw [hw₁', hw₂', e]
  obtain ⟨r₁, _, hr₁⟩ := hfield_value hd hk hce hch hε hn₁ hl₁
  have hm : ∀ p, (1 / a.eps p).im = 0 := by
    intro p
    rw [← ofReal_re_of (hε p).1, ← Complex.ofReal_one, ← Complex.ofReal_div, Complex.ofReal_im]
  have t : ∀ x y : VField sh.size, wdot (vecH a.d) x (ce *ᵥ y) = wdot (vecE a.d) (ch *ᵥ x) y := by
    intro x y
    rw [wdot_swap _ (ce *ᵥ y) x hrH, ← wdot_adjoint _ _ ce ch h0, ← wdot_swap _ _ _ hrE]
  have s2 := t f₁ ((Matrix.diagonal (fun p => 1 / a.eps p) : Mat3 sh.size) *ᵥ (ch *ᵥ f₂))
  have s1 := t f₂ ((Matrix.diagonal (fun p => 1 / a.eps p) : Mat3 sh.size) *ᵥ (ch *ᵥ f₁))
  rw [hl₂, wdot_smul] at s2
  rw [hl₁, wdot_smul] at s1
  have s1c := congrArg star s1
  rw [star_mul', hr₁, conj_real (Complex.ofReal_im _), ← wdot_swap _ _ _ hrH, ← wdot_swap _ _ _ hrE,
    ← wdot_diag _ _ _ _ hm, ← s2, ← hr₁] at s1c
  have hz : wdot (vecH a.d) f₁ f₂ = 0 := by
    have : (l₁ - l₂) * wdot (vecH a.d) f₁ f₂ = 0 := by rw [sub_mul, s1c, sub_self]
    exact (mul_eq_zero.1 this).resolve_left (sub_ne_zero.2 hlne)
  rw [wdot, Fintype.sum_prod_type] at hz
  rw [← hz]
  apply Finset.sum_congr rfl
  intro b _
  rw [sum_pos]
  apply Finset.sum_congr rfl
  intro c _
  rw [vecH]; simp only [cellAt_pos]

/-- C97: the two formulations have the same nonzero frequencies: `l` is an eigenvalue of one operator exactly
when it is one of the other, for every grid, shear, Bloch vector and permittivity. -/
theorem phc_same_frequencies (k : Fin 3 → ℂ) (d : Dxes) (eps mu : VField sh.size) (so : Fin 3 → Fin 3 → Int)
    (hε : ∀ p, eps p ≠ 0) (t : Mat3 sh.size × Mat3 sh.size × Mat3 sh.size) (opH : Mat3 sh.size)
    (hE : efieldOperator sh k d eps mu so = some t) (hH : hfieldOperator sh k d eps mu so = some opH)
    (l : ℂ) (hl : l ≠ 0) :
    (∃ v, v ≠ 0 ∧ t.1 *ᵥ v = l • v) ↔ ∃ u, u ≠ 0 ∧ opH *ᵥ u = l • u := by
  unfold efieldOperator at hE
  unfold hfieldOperator at hH
  obtain ⟨ce, hce, hE⟩ := Option.bind_eq_some_iff.1 hE
  obtain ⟨ch, hch, rfl⟩ := Option.map_eq_some_iff.1 hE
  obtain ⟨ce', hce', hH⟩ := Option.bind_eq_some_iff.1 hH
  obtain ⟨ch', hch', rfl⟩ := Option.map_eq_some_iff.1 hH
  rw [hce] at hce'; rw [hch] at hch'
  cases hce'; cases hch'
  set N : Mat3 sh.size := Matrix.diagonal (fun p => 1 / npSqrt (eps p)) with hN
  have hNN : (Matrix.diagonal (fun p => 1 / eps p) : Mat3 sh.size) = N * N := by
    rw [hN, Matrix.diagonal_mul_diagonal]
    congr 1
    funext p
    rw [div_mul_div_comm, one_mul, npSqrt_sq]
  rw [hNN]
  constructor
  · rintro ⟨v, hv, h⟩
    refine ⟨ce *ᵥ (N *ᵥ v), ?_, ?_⟩
    · intro e
      apply hv
      have : l • v = 0 := by
        rw [← h, ← Matrix.mulVec_mulVec, ← Matrix.mulVec_mulVec, e, Matrix.mulVec_zero]
      exact (smul_eq_zero.1 this).resolve_left hl
    · rw [← Matrix.mulVec_smul, ← Matrix.mulVec_smul, ← h]
      simp only [Matrix.mulVec_mulVec, Matrix.mul_assoc]
  · rintro ⟨u, hu, h⟩
    refine ⟨N *ᵥ (ch *ᵥ u), ?_, ?_⟩
    · intro e
      apply hu
      have : l • u = 0 := by
        rw [← h]
        have e' : (ce * (N * N) * ch) *ᵥ u = ce *ᵥ (N *ᵥ (N *ᵥ (ch *ᵥ u))) := by
          simp only [Matrix.mulVec_mulVec, Matrix.mul_assoc]
        rw [e', e, Matrix.mulVec_zero, Matrix.mulVec_zero]
      exact (smul_eq_zero.1 this).resolve_left hl
    · rw [← Matrix.mulVec_smul, ← Matrix.mulVec_smul, ← h]
      simp only [Matrix.mulVec_mulVec, Matrix.mul_assoc]

/-- C97: on a uniform grid, sheared or not, both operators are Hermitian. -/
theorem phc_hermitian (k : Fin 3 → ℂ) (hk : ∀ a, (k a).im = 0) (d : Dxes) (w : Fin 3 → ℝ) (hd : Uniform sh d w)
    (hn : ∀ a, 0 < sh a) (eps mu : VField sh.size) (so : Fin 3 → Fin 3 → Int) (hε : Lossless eps)
    (t : Mat3 sh.size × Mat3 sh.size × Mat3 sh.size) (opH : Mat3 sh.size)
    (hE : efieldOperator sh k d eps mu so = some t) (hH : hfieldOperator sh k d eps mu so = some opH) :
    t.1ᴴ = t.1 ∧ opHᴴ = opH := by
  unfold efieldOperator at hE
  unfold hfieldOperator at hH
  obtain ⟨ce, hce, hE⟩ := Option.bind_eq_some_iff.1 hE
  obtain ⟨ch, hch, rfl⟩ := Option.map_eq_some_iff.1 hE
  obtain ⟨ce', hce', hH⟩ := Option.bind_eq_some_iff.1 hH
  obtain ⟨ch', hch', rfl⟩ := Option.map_eq_some_iff.1 hH
  rw [hce] at hce'; rw [hch] at hch'
  cases hce'; cases hch'
  have hc := uniform_conj d w hd hn k hk so ce ch hce hch
  have hdiag : ∀ m : VField sh.size, (∀ p, (m p).im = 0) →
      (Matrix.diagonal m : Mat3 sh.size)ᴴ = Matrix.diagonal m := by
    intro m hm
    rw [Matrix.diagonal_conjTranspose]
    congr 1
    funext p
    exact conj_real (hm p)
  have h1 : (Matrix.diagonal (fun p => 1 / npSqrt (eps p)) : Mat3 sh.size)ᴴ =
      Matrix.diagonal (fun p => 1 / npSqrt (eps p)) := by
    apply hdiag
    intro p
    rw [← ofReal_re_of (hε p).1, npSqrt_real _ (hε p).2.le, ← Complex.ofReal_one, ← Complex.ofReal_div,
      Complex.ofReal_im]
  have h2 : (Matrix.diagonal (fun p => 1 / eps p) : Mat3 sh.size)ᴴ = Matrix.diagonal (fun p => 1 / eps p) := by
    apply hdiag
    intro p
    rw [← ofReal_re_of (hε p).1, ← Complex.ofReal_one, ← Complex.ofReal_div, Complex.ofReal_im]
  subst hc
  constructor
  · simp only [Matrix.conjTranspose_mul, Matrix.conjTranspose_conjTranspose, h1, Matrix.mul_assoc]
  · simp only [Matrix.conjTranspose_mul, Matrix.conjTranspose_conjTranspose, h2, Matrix.mul_assoc]

/-- C97: asking `'efield'` for several modes always fails, whatever the crystal. -/
theorem phc_efield_many_fails (eigs : Eigs sh) (hc : ∀ op n s v0, (eigs op n s v0).length = n)
    (fdfd : VField sh.size → VField sh.size) (a : PhcArgs sh) (ht : a.opType = "efield")
    (hi : a.initVec = none) (hm : a.numModes ≠ 1) : phcModeSolver eigs fdfd a = none := by
  unfold phcModeSolver
  simp only [ht, if_true]
  apply Option.bind_eq_none_iff.2
  intro t _
  apply Option.bind_eq_none_iff.2
  intro r hr
  unfold finishE
  rw [if_neg]
  intro hlen
  apply hm
  unfold runEigs at hr
  simp only [hi] at hr
  split at hr
  · obtain ⟨v, _, rfl⟩ := Option.map_eq_some_iff.1 hr
    rw [← hlen, hc]
  · cases hr
    rw [← hlen, hc]

/-- C97: `'hfield'` returns as many modes as asked for, one if a starting vector is given. -/
theorem phc_hfield_count (eigs : Eigs sh) (hc : ∀ op n s v0, (eigs op n s v0).length = n)
    (fdfd : VField sh.size → VField sh.size) (a : PhcArgs sh) (ht : a.opType = "hfield") (hso : ∀ b, a.so b b = 0) :
    ∃ ws fs, phcModeSolver eigs fdfd a = some (ws, fs) ∧
      ws.length = (if a.initVec.isSome then 1 else a.numModes) ∧ fs.length = ws.length := by
  have hdef : ∀ (s : Int) (ph : Fin 3 → ℂ) (b : Fin 3), ∃ R, rotationBlochShift b sh s ph (a.so b) = some R :=
    fun s ph b => Option.isSome_iff_exists.1 ((rotation_defined b sh s ph (a.so b)).2 (hso b))
  have hce : ∃ ce, curlE sh a.d a.bloch a.so = some ce := by
    unfold curlE derivForwardShift forAxes
    obtain ⟨R0, h0⟩ := hdef 1 (blochPhase sh a.d.e a.bloch a.so) 0
    obtain ⟨R1, h1⟩ := hdef 1 (blochPhase sh a.d.e a.bloch a.so) 1
    obtain ⟨R2, h2⟩ := hdef 1 (blochPhase sh a.d.e a.bloch a.so) 2
    simp only [h0, h1, h2, Option.map_some, Option.bind_some]
    exact ⟨_, rfl⟩
  have hch : ∃ ch, curlH sh a.d a.bloch a.so = some ch := by
    unfold curlH derivBackShift forAxes
    obtain ⟨R0, h0⟩ := hdef (-1) (blochPhase sh a.d.h a.bloch a.so) 0
    obtain ⟨R1, h1⟩ := hdef (-1) (blochPhase sh a.d.h a.bloch a.so) 1
    obtain ⟨R2, h2⟩ := hdef (-1) (blochPhase sh a.d.h a.bloch a.so) 2
    simp only [h0, h1, h2, Option.map_some, Option.bind_some]
    exact ⟨_, rfl⟩
  obtain ⟨ce, hce⟩ := hce
  obtain ⟨ch, hch⟩ := hch
  obtain ⟨c0, hc0⟩ := (curl_defined sh a.d a.bloch).1
  unfold phcModeSolver hfieldOperator runEigs finishH e2h
  simp only [ht, if_neg (show ¬ ("hfield" = "efield") by decide), if_true, hce, hch, hc0, Option.bind_some,
    Option.map_some]
  cases hv : a.initVec with
  | some v => exact ⟨_, _, rfl, by simp [hc], by simp⟩
  | none =>
    simp only []
    split
    · exact ⟨_, _, rfl, by simp [hc], by simp⟩
    · exact ⟨_, _, rfl, by simp [hc], by simp⟩

/-- C97: the permeability has no effect on the modes (only, through the FDFD simulation, on the starting vector):
without a simulated starting vector the result is the same for every permeability. -/
theorem phc_permeability_ignored (eigs : Eigs sh) (fdfd fdfd' : VField sh.size → VField sh.size) (a : PhcArgs sh)
    (hi : a.setInitCond = false) (mu : Option (VField sh.size)) :
    phcModeSolver eigs fdfd { a with mu := mu } = phcModeSolver eigs fdfd' a := by
  unfold phcModeSolver efieldOperator hfieldOperator runEigs
  simp only [hi, Bool.false_eq_true, if_false]

/-! ### Hypotheses -/

/-- Every matrix has an eigenvector, so that a correct `eigs` exists on every grid that has cells. -/
theorem eigs_exists (hn : ∀ a, 0 < sh a) : ∃ eigs : Eigs sh, EigsCorrect eigs ∧
    ∀ op n s v0, (eigs op n s v0).length = n := by
  have hne : Nonempty (Fin 3 × Fin sh.size) := ⟨(0, pos (fun a => ⟨0, hn a⟩))⟩
  have hnt : Nontrivial (VField sh.size) := Function.nontrivial
  have key : ∀ op : Mat3 sh.size, ∃ x : ℂ × VField sh.size, op *ᵥ x.2 = x.1 • x.2 ∧ x.2 ≠ 0 := by
    intro op
    obtain ⟨l, hl⟩ := Module.End.exists_eigenvalue (Matrix.toLin' op)
    obtain ⟨v, hv⟩ := hl.exists_hasEigenvector
    refine ⟨(l, v), ?_, hv.2⟩
    have := hv.apply_eq_smul
    rwa [Matrix.toLin'_apply] at this
  choose g hg using key
  exact ⟨fun op n _ _ => List.replicate n (g op), fun op n _ _ x hx => by
    rw [List.eq_of_mem_replicate hx]; exact hg op, fun _ _ _ _ => List.length_replicate⟩

/-- Hypotheses: a crystal of 2 by 3 by 1 cells, real Bloch vector, and a result. -/
example : ∃ (eigs : Eigs ![2, 3, 1]) (a : PhcArgs ![2, 3, 1]) (ws : List ℂ) (fs : List (VField (Shape.size ![2, 3, 1]))),
    EigsCorrect eigs ∧ PhcLattice ![2, 3, 1] a.d a.so ∧ (∀ x, (a.bloch x).im = 0) ∧ Lossless a.eps ∧
      SameLength ![2, 3, 1] a.d ∧ a.opType = "hfield" ∧ phcModeSolver eigs id a = some (ws, fs) ∧ ws.length = 2 := by
  have hn : ∀ a, 0 < (![2, 3, 1] : Shape) a := by decide
  obtain ⟨eigs, he, hc⟩ := eigs_exists hn
  let a : PhcArgs ![2, 3, 1] := ⟨fun _ => 1, 1, 2, ⟨fun _ i => (i : ℂ) + 1, fun _ i => (i : ℂ) + 1⟩, fun _ => 2,
    "hfield", false, none, none, 0⟩
  obtain ⟨ws, fs, h1, h2, _⟩ := phc_hfield_count eigs hc id a rfl (fun _ => rfl)
  refine ⟨eigs, a, ws, fs, he, ⟨hn, ?_, Or.inl ⟨rfl, fun _ => rfl⟩⟩, fun _ => Complex.one_im, fun _ => ?_, fun _ => rfl,
    rfl, h1, h2⟩
  · intro b i _
    have h3 : ((i : ℂ) + 1).im = 0 := by simp
    have h4 : 0 < ((i : ℂ) + 1).re := by simp; positivity
    exact ⟨h3, h4, h3, h4⟩
  · show (2 : ℂ).im = 0 ∧ 0 < (2 : ℂ).re
    simp

/-- Every field of the unit cell has a continuation, so that the hypothesis `Continues` can always be met. -/
theorem continues_exists (L k : Fin 3 → ℂ) (hn : ∀ a, 0 < sh a) (v : VField sh.size) :
    ∃ F, Continues L k v F := by
  have hp : ∀ a, (0 : Int) < sh a := fun a => by exact_mod_cast hn a
  let cell : Site → Cell sh := fun n a => ⟨(n a % (sh a : Int)).toNat, by
    have h1 := Int.emod_nonneg (n a) (hp a).ne'
    have h2 := Int.emod_lt_of_pos (n a) (hp a)
    omega⟩
  refine ⟨fun b n => Complex.exp (∑ a, ((n a / (sh a : Int) : Int) : ℂ) * -(Complex.I * (k a * L a))) * v (b, pos (cell n)),
    fun b n a => ?_, fun b c => ?_⟩
  · have hcell : cell (n.step a (sh a)) = cell n := by
      funext x
      apply Fin.ext
      show ((n.step a (sh a)) x % (sh x : Int)).toNat = (n x % (sh x : Int)).toNat
      by_cases hx : x = a
      · subst hx; rw [step_self, Int.add_emod_right]
      · rw [step_ne _ _ _ _ hx]
    have hsum : ∑ x, (((n.step a (sh a)) x / (sh x : Int) : Int) : ℂ) * -(Complex.I * (k x * L x)) =
        -(Complex.I * (k a * L a)) + ∑ x, ((n x / (sh x : Int) : Int) : ℂ) * -(Complex.I * (k x * L x)) := by
      rw [← Finset.add_sum_erase _ _ (Finset.mem_univ a), ← Finset.add_sum_erase Finset.univ
        (fun x => ((n x / (sh x : Int) : Int) : ℂ) * -(Complex.I * (k x * L x))) (Finset.mem_univ a)]
      have h1 : (n.step a (sh a)) a / (sh a : Int) = n a / (sh a : Int) + 1 := by
        rw [step_self, Int.add_ediv_of_dvd_right (dvd_refl _), Int.ediv_self (hp a).ne']
      rw [h1]
      have h2 : ∀ x ∈ Finset.univ.erase a, (((n.step a (sh a)) x / (sh x : Int) : Int) : ℂ) * -(Complex.I * (k x * L x)) =
          ((n x / (sh x : Int) : Int) : ℂ) * -(Complex.I * (k x * L x)) := by
        intro x hx
        rw [step_ne _ _ _ _ (Finset.ne_of_mem_erase hx)]
      rw [Finset.sum_congr rfl h2]
      push_cast; ring
    simp only []
    rw [hcell, hsum, Complex.exp_add]; ring
  · have hcell : cell (siteOf c) = c := by
      funext x
      apply Fin.ext
      show (((c x).val : Int) % (sh x : Int)).toNat = (c x).val
      rw [toNat_emod, Nat.mod_eq_of_lt (c x).isLt]
    have hz : ∀ x, siteOf c x / (sh x : Int) = 0 := fun x =>
      Int.ediv_eq_zero_of_lt (Int.natCast_nonneg _) (by unfold siteOf; exact_mod_cast (c x).isLt)
    simp only [hcell, hz, Int.cast_zero, zero_mul, Finset.sum_const_zero, Complex.exp_zero, one_mul]

end Verif.Fdfd
