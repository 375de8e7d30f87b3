import Verif.Fdfd.Curl
import Verif.Fdfd.Functional
/-
Properties C19 (the divergence of a curl is zero) and C23 (matrix and functional operators agree).
-/
namespace Verif.Fdfd
open Matrix
variable {sh : Shape}

/-! ### Specification -/

/-- The next cell along `a`, periodically. -/
def nextCell (a : Fin 3) (c : Cell sh) : Cell sh := fun b =>
  if b = a then ⟨((c b).val + 1) % sh b, Nat.mod_lt _ (Nat.lt_of_le_of_lt (Nat.zero_le _) (c b).isLt)⟩
  else c b

/-- The previous cell along `a`, periodically. -/
def prevCell (a : Fin 3) (c : Cell sh) : Cell sh := fun b =>
  if b = a then ⟨((c b).val + (sh b - 1)) % sh b,
    Nat.mod_lt _ (Nat.lt_of_le_of_lt (Nat.zero_le _) (c b).isLt)⟩
  else c b

/-- The length of the grid along `a`. -/
noncomputable def gridLength (sh : Shape) (dx : Fin 3 → Nat → ℂ) (a : Fin 3) : ℂ :=
  ∑ i ∈ Finset.range (sh a), dx a i

/-- Bloch factor for stepping from the last cell to the first one along `a`. -/
noncomputable def upPhase (dx : Fin 3 → Nat → ℂ) (k : Fin 3 → ℂ) (a : Fin 3) (c : Cell sh) : ℂ :=
  if (c a).val + 1 = sh a then Complex.exp (-(Complex.I * (k a * gridLength sh dx a))) else 1

/-- Bloch factor for stepping from the first cell to the last one along `a`. -/
noncomputable def downPhase (dx : Fin 3 → Nat → ℂ) (k : Fin 3 → ℂ) (a : Fin 3) (c : Cell sh) : ℂ :=
  if (c a).val = 0 then Complex.exp (Complex.I * (k a * gridLength sh dx a)) else 1

/-- Forward difference along `a` at the cell `c`. -/
noncomputable def fwdDiff (dx : Fin 3 → Nat → ℂ) (k : Fin 3 → ℂ) (a : Fin 3) (f : Cell sh → ℂ)
    (c : Cell sh) : ℂ := (upPhase dx k a c * f (nextCell a c) - f c) / dx a (c a)

/-- Backward difference along `a` at the cell `c`. -/
noncomputable def backDiff (dx : Fin 3 → Nat → ℂ) (k : Fin 3 → ℂ) (a : Fin 3) (f : Cell sh → ℂ)
    (c : Cell sh) : ℂ := (f c - downPhase dx k a c * f (prevCell a c)) / dx a (c a)

/-- `V` is the vectorisation of the field `f` (see C18 for the positions). -/
def IsVec (f : FieldT sh) (V : VField sh.size) : Prop := ∀ a c, V (a, pos c) = f a c

/-! ### Lemmas -/

theorem toNat_emod (x n : Nat) : ((x : Int) % (n : Int)).toNat = x % n := by
  rw [← Int.natCast_emod]; rfl

theorem move_next (a : Fin 3) (c : Cell sh) : moveCell c (unitDisp a 1) = nextCell a c := by
  funext b
  apply Fin.ext
  by_cases h : b = a
  · subst h
    rw [moveCell_self, nextCell, if_pos rfl]
    exact toNat_emod _ _
  · rw [moveCell_ne c a b 1 h, nextCell, if_neg h]

theorem move_prev (a : Fin 3) (c : Cell sh) : moveCell c (unitDisp a (-1)) = prevCell a c := by
  funext b
  apply Fin.ext
  by_cases h : b = a
  · subst h
    rw [moveCell_self, prevCell, if_pos rfl]
    dsimp only
    have hb := (c b).isLt
    have : ((c b).val : Int) + (-1) = (((c b).val + (sh b - 1) : Nat) : Int) - sh b := by omega
    rw [this, Int.sub_emod_right]
    exact toNat_emod _ _
  · rw [moveCell_ne c a b (-1) h, prevCell, if_neg h]

theorem axisPhase_eq (dx : Fin 3 → Nat → ℂ) (k : Fin 3 → ℂ) (a : Fin 3) :
    axisPhase sh dx k a = k a * gridLength sh dx a := by
  rw [axisPhase, gridLength, mul_comm]
  rfl

theorem leave_up (dx : Fin 3 → Nat → ℂ) (k : Fin 3 → ℂ) (a : Fin 3) (c : Cell sh) :
    leave (sh a) (axisPhase sh dx k a) ((c a).val + 1) = upPhase dx k a c := by
  have hc := (c a).isLt
  unfold leave upPhase
  by_cases h : (c a).val + 1 = sh a
  · rw [if_pos (by omega), if_pos h, axisPhase_eq]; congr 1; ring
  · rw [if_neg (by omega), if_neg (by omega), if_neg h]

theorem leave_down (dx : Fin 3 → Nat → ℂ) (k : Fin 3 → ℂ) (a : Fin 3) (c : Cell sh) :
    leave (sh a) (axisPhase sh dx k a) ((c a).val + (-1)) = downPhase dx k a c := by
  have hc := (c a).isLt
  unfold leave downPhase
  by_cases h : (c a).val = 0
  · rw [if_neg (by omega), if_pos (by omega), if_pos h, axisPhase_eq]; congr 1; ring
  · rw [if_neg (by omega), if_neg (by omega), if_neg h]

theorem fwd_mulVec (dx : Fin 3 → Nat → ℂ) (k : Fin 3 → ℂ) (a : Fin 3) (v : Fin sh.size → ℂ)
    (c : Cell sh) :
    (derivM sh (fun i => 1 / dx a i) a 1 (axisPhase sh dx k a) *ᵥ v) (pos c) =
      fwdDiff dx k a (fun c => v (pos c)) c := by
  rw [derivM_mulVec, move_next, leave_up, fwdDiff, one_div, div_eq_mul_inv, mul_comm]

theorem back_mulVec (dx : Fin 3 → Nat → ℂ) (k : Fin 3 → ℂ) (a : Fin 3) (v : Fin sh.size → ℂ)
    (c : Cell sh) :
    (derivM sh (fun i => -1 / dx a i) a (-1) (axisPhase sh dx k a) *ᵥ v) (pos c) =
      backDiff dx k a (fun c => v (pos c)) c := by
  rw [derivM_mulVec, move_prev, leave_down, backDiff, div_eq_mul_inv, div_eq_mul_inv]
  ring

/-- For commuting derivatives the divergence of the cross product vanishes. -/
theorem div_cross {n : Nat} (B : Fin 3 → Mat n) (hB : ∀ a b, a ≠ b → B a * B b = B b * B a)
    (v : VField n) : ∑ a, B a *ᵥ comp (cross B *ᵥ v) a = 0 := by
  obtain ⟨h0, h1, h2⟩ := cross_comp B v
  rw [Fin.sum_univ_three, h0, h1, h2]
  simp only [Matrix.mulVec_sub, Matrix.mulVec_mulVec]
  rw [hB 1 0 (by decide), hB 2 0 (by decide), hB 2 1 (by decide)]
  abel

/-- For commuting derivatives the cross product with a gradient vanishes. -/
theorem cross_grad {n : Nat} (B : Fin 3 → Mat n) (hB : ∀ a b, a ≠ b → B a * B b = B b * B a)
    (f : Fin n → ℂ) : cross B *ᵥ (fun p => (B p.1 *ᵥ f) p.2) = 0 := by
  obtain ⟨h0, h1, h2⟩ := cross_comp B (fun p => (B p.1 *ᵥ f) p.2)
  have hc : ∀ a, comp (fun p : Fin 3 × Fin n => (B p.1 *ᵥ f) p.2) a = B a *ᵥ f := fun a => rfl
  simp only [hc, Matrix.mulVec_mulVec] at h0 h1 h2
  rw [hB 1 2 (by decide), sub_self] at h0
  rw [hB 2 0 (by decide), sub_self] at h1
  rw [hB 0 1 (by decide), sub_self] at h2
  funext p
  obtain ⟨a, i⟩ := p
  match a with
  | 0 => exact congrFun h0 i
  | 1 => exact congrFun h1 i
  | 2 => exact congrFun h2 i

/-! ### C19 -/

/-- C19: the (forward-difference) divergence of the curl of every E field vanishes at every cell,
for every grid, every cell widths and every Bloch vector. -/
theorem div_curl_e (d : Dxes) (k : Fin 3 → ℂ) (C : Mat3 sh.size) (hC : curlE sh d k 0 = some C)
    (E : VField sh.size) (c : Cell sh) :
    ∑ a, fwdDiff d.e k a (fun c' => (C *ᵥ E) (a, pos c')) c = 0 := by
  rw [curlE, derivForward_zero, Option.map_some, Option.some.injEq] at hC
  have h := div_cross (fun a => derivM sh (fun i => 1 / d.e a i) a 1 (axisPhase sh d.e k a))
    (fun a b hab => derivM_comm _ _ a b _ _ _ _ hab) E
  rw [hC] at h
  have h' := congrFun h (pos c)
  rw [Finset.sum_apply] at h'
  refine Eq.trans ?_ h'
  apply Finset.sum_congr rfl
  intro a _
  rw [fwd_mulVec]
  rfl

/-- C19: the (backward-difference) divergence of the curl of every H field vanishes. -/
theorem div_curl_h (d : Dxes) (k : Fin 3 → ℂ) (C : Mat3 sh.size) (hC : curlH sh d k 0 = some C)
    (H : VField sh.size) (c : Cell sh) :
    ∑ a, backDiff d.h k a (fun c' => (C *ᵥ H) (a, pos c')) c = 0 := by
  rw [curlH, derivBack_zero, Option.map_some, Option.some.injEq] at hC
  have h := div_cross (fun a => derivM sh (fun i => -1 / d.h a i) a (-1) (axisPhase sh d.h k a))
    (fun a b hab => derivM_comm _ _ a b _ _ _ _ hab) H
  rw [hC] at h
  have h' := congrFun h (pos c)
  rw [Finset.sum_apply] at h'
  refine Eq.trans ?_ h'
  apply Finset.sum_congr rfl
  intro a _
  rw [back_mulVec]
  rfl

/-- C19: the curl of a (forward-difference) gradient vanishes. -/
theorem curl_e_grad (d : Dxes) (k : Fin 3 → ℂ) (C : Mat3 sh.size) (hC : curlE sh d k 0 = some C)
    (f : Cell sh → ℂ) (G : VField sh.size) (hG : ∀ a c, G (a, pos c) = fwdDiff d.e k a f c) :
    C *ᵥ G = 0 := by
  rw [curlE, derivForward_zero, Option.map_some, Option.some.injEq] at hC
  rw [← cross_grad (fun a => derivM sh (fun i => 1 / d.e a i) a 1 (axisPhase sh d.e k a))
    (fun a b hab => derivM_comm _ _ a b _ _ _ _ hab) (fun i => f (cellAt i)), hC]
  congr 1
  funext p
  obtain ⟨a, i⟩ := p
  rw [← pos_cellAt i, hG, fwd_mulVec]
  simp only [cellAt_pos]

/-- C19: the curl of a (backward-difference) gradient vanishes. -/
theorem curl_h_grad (d : Dxes) (k : Fin 3 → ℂ) (C : Mat3 sh.size) (hC : curlH sh d k 0 = some C)
    (f : Cell sh → ℂ) (G : VField sh.size) (hG : ∀ a c, G (a, pos c) = backDiff d.h k a f c) :
    C *ᵥ G = 0 := by
  rw [curlH, derivBack_zero, Option.map_some, Option.some.injEq] at hC
  rw [← cross_grad (fun a => derivM sh (fun i => -1 / d.h a i) a (-1) (axisPhase sh d.h k a))
    (fun a b hab => derivM_comm _ _ a b _ _ _ _ hab) (fun i => f (cellAt i)), hC]
  congr 1
  funext p
  obtain ⟨a, i⟩ := p
  rw [← pos_cellAt i, hG, back_mulVec]
  simp only [cellAt_pos]

/-- What `curl_e` computes at each cell. -/
theorem curl_e_pointwise (d : Dxes) (k : Fin 3 → ℂ) (C : Mat3 sh.size)
    (hC : curlE sh d k 0 = some C) (e : FieldT sh) (E : VField sh.size) (hE : IsVec e E)
    (c : Cell sh) :
    (C *ᵥ E) (0, pos c) = fwdDiff d.e k 1 (e 2) c - fwdDiff d.e k 2 (e 1) c ∧
    (C *ᵥ E) (1, pos c) = fwdDiff d.e k 2 (e 0) c - fwdDiff d.e k 0 (e 2) c ∧
    (C *ᵥ E) (2, pos c) = fwdDiff d.e k 0 (e 1) c - fwdDiff d.e k 1 (e 0) c := by
  rw [curlE, derivForward_zero, Option.map_some, Option.some.injEq] at hC
  obtain ⟨h0, h1, h2⟩ := cross_comp
    (fun a => derivM sh (fun i => 1 / d.e a i) a 1 (axisPhase sh d.e k a)) E
  rw [hC] at h0 h1 h2
  have hc : ∀ a, (fun c => comp E a (pos c)) = e a := fun a => funext fun c => hE a c
  refine ⟨(congrFun h0 (pos c)).trans ?_, (congrFun h1 (pos c)).trans ?_,
    (congrFun h2 (pos c)).trans ?_⟩ <;>
  · rw [Pi.sub_apply, fwd_mulVec, fwd_mulVec, hc, hc]

/-- What `curl_h` computes at each cell. -/
theorem curl_h_pointwise (d : Dxes) (k : Fin 3 → ℂ) (C : Mat3 sh.size)
    (hC : curlH sh d k 0 = some C) (h : FieldT sh) (H : VField sh.size) (hH : IsVec h H)
    (c : Cell sh) :
    (C *ᵥ H) (0, pos c) = backDiff d.h k 1 (h 2) c - backDiff d.h k 2 (h 1) c ∧
    (C *ᵥ H) (1, pos c) = backDiff d.h k 2 (h 0) c - backDiff d.h k 0 (h 2) c ∧
    (C *ᵥ H) (2, pos c) = backDiff d.h k 0 (h 1) c - backDiff d.h k 1 (h 0) c := by
  rw [curlH, derivBack_zero, Option.map_some, Option.some.injEq] at hC
  obtain ⟨h0, h1, h2⟩ := cross_comp
    (fun a => derivM sh (fun i => -1 / d.h a i) a (-1) (axisPhase sh d.h k a)) H
  rw [hC] at h0 h1 h2
  have hc : ∀ a, (fun c => comp H a (pos c)) = h a := fun a => funext fun c => hH a c
  refine ⟨(congrFun h0 (pos c)).trans ?_, (congrFun h1 (pos c)).trans ?_,
    (congrFun h2 (pos c)).trans ?_⟩ <;>
  · rw [Pi.sub_apply, back_mulVec, back_mulVec, hc, hc]

/-- The operators exist on every grid without orthogonal shifts. -/
theorem curl_defined (sh : Shape) (d : Dxes) (k : Fin 3 → ℂ) :
    (∃ C, curlE sh d k 0 = some C) ∧ (∃ C, curlH sh d k 0 = some C) := by
  rw [curlE, curlH, derivForward_zero, derivBack_zero]
  exact ⟨⟨_, rfl⟩, ⟨_, rfl⟩⟩

/-! ### C23 -/

theorem npRoll_fwd (f : Arr sh) (a : Fin 3) (c : Cell sh) : npRoll f (-1) a c = f (nextCell a c) := by
  rw [npRoll]
  congr 1

theorem npRoll_back (f : Arr sh) (a : Fin 3) (c : Cell sh) : npRoll f 1 a c = f (prevCell a c) := by
  rw [npRoll]
  congr 1
  funext b
  apply Fin.ext
  by_cases h : b = a
  · rw [if_pos h, prevCell, if_pos h]
    dsimp only
    have hb := (c b).isLt
    have : ((c b).val : Int) - 1 = (((c b).val + (sh b - 1) : Nat) : Int) - sh b := by omega
    rw [this, Int.sub_emod_right]
    exact toNat_emod _ _
  · rw [if_neg h, prevCell, if_neg h]

theorem fnDe_eq (d : Dxes) (f : Arr sh) (a : Fin 3) (c : Cell sh) :
    fnDe d f a c = fwdDiff d.e 0 a f c := by
  rw [fnDe, fwdDiff, npRoll_fwd, upPhase]
  simp

theorem fnDh_eq (d : Dxes) (f : Arr sh) (a : Fin 3) (c : Cell sh) :
    fnDh d f a c = backDiff d.h 0 a f c := by
  rw [fnDh, backDiff, npRoll_back, downPhase]
  simp

/-- C23: the matrix and the functional `curl_e` agree. -/
theorem functional_curl_e (d : Dxes) (C : Mat3 sh.size) (hC : curlE sh d 0 0 = some C)
    (e : FieldT sh) (E : VField sh.size) (hE : IsVec e E) : IsVec (fnCurlE d e) (C *ᵥ E) := by
  intro a c
  obtain ⟨h0, h1, h2⟩ := curl_e_pointwise d 0 C hC e E hE c
  match a with
  | 0 => exact h0.trans (by simp [fnCurlE, fnDe_eq])
  | 1 => exact h1.trans (by simp [fnCurlE, fnDe_eq])
  | 2 => exact h2.trans (by simp [fnCurlE, fnDe_eq])

/-- C23: the matrix and the functional `curl_h` agree. -/
theorem functional_curl_h (d : Dxes) (C : Mat3 sh.size) (hC : curlH sh d 0 0 = some C)
    (h : FieldT sh) (H : VField sh.size) (hH : IsVec h H) : IsVec (fnCurlH d h) (C *ᵥ H) := by
  intro a c
  obtain ⟨h0, h1, h2⟩ := curl_h_pointwise d 0 C hC h H hH c
  match a with
  | 0 => exact h0.trans (by simp [fnCurlH, fnDh_eq])
  | 1 => exact h1.trans (by simp [fnCurlH, fnDh_eq])
  | 2 => exact h2.trans (by simp [fnCurlH, fnDh_eq])

/-- C23: without `mu`, the matrix and the functional `e_full` agree. -/
theorem functional_e_full_partial (omega : ℂ) (d : Dxes) (eps : FieldT sh) (epsV : VField sh.size)
    (he : IsVec eps epsV) (A : Mat3 sh.size)
    (hA : eFull sh omega d epsV none none none 0 0 = some A)
    (e : FieldT sh) (E : VField sh.size) (hE : IsVec e E) :
    IsVec (fnEFull omega d eps none e) (A *ᵥ E) := by
  obtain ⟨⟨ce, hce⟩, ⟨ch, hch⟩⟩ := curl_defined sh d 0
  rw [eFull, hce, hch] at hA
  simp only [Option.bind_some, Option.map_some, Option.some.injEq, maskMat, invMat, mul_one,
    one_mul] at hA
  subst hA
  intro a c
  rw [Matrix.sub_mulVec, Pi.sub_apply, ← Matrix.mulVec_mulVec, Matrix.smul_mulVec, Pi.smul_apply,
    Matrix.mulVec_diagonal, he a c, hE a c,
    functional_curl_h d ch hch _ _ (functional_curl_e d ce hce e E hE) a c, smul_eq_mul, ← mul_assoc]
  rfl

/-- The matrix `e_full` with `mu` is the functional one with the reciprocal of `mu`. -/
theorem functional_e_full_reciprocal (omega : ℂ) (d : Dxes) (eps mu : FieldT sh)
    (epsV muV : VField sh.size) (he : IsVec eps epsV) (hm : IsVec mu muV) (A : Mat3 sh.size)
    (hA : eFull sh omega d epsV (some muV) none none 0 0 = some A)
    (e : FieldT sh) (E : VField sh.size) (hE : IsVec e E) :
    IsVec (fnEFull omega d eps (some fun a c => 1 / mu a c) e) (A *ᵥ E) := by
  obtain ⟨⟨ce, hce⟩, ⟨ch, hch⟩⟩ := curl_defined sh d 0
  rw [eFull, hce, hch] at hA
  simp only [Option.bind_some, Option.map_some, Option.some.injEq, maskMat, invMat, mul_one,
    one_mul] at hA
  subst hA
  intro a c
  have h1 : IsVec (fun a c => 1 / mu a c * fnCurlE d e a c)
      ((Matrix.diagonal fun p => 1 / muV p) *ᵥ (ce *ᵥ E)) := by
    intro a c
    rw [Matrix.mulVec_diagonal, functional_curl_e d ce hce e E hE a c, hm a c]
  rw [Matrix.sub_mulVec, Pi.sub_apply, Matrix.mul_assoc, ← Matrix.mulVec_mulVec,
    ← Matrix.mulVec_mulVec, Matrix.smul_mulVec, Pi.smul_apply,
    Matrix.mulVec_diagonal, he a c, hE a c, functional_curl_h d ch hch _ _ h1 a c,
    smul_eq_mul, ← mul_assoc]
  rfl

/-- The full claim of C23 for `e_full` with a permeability. -/
def FunctionalEFull : Prop := ∀ (sh : Shape) (omega : ℂ) (d : Dxes) (eps mu : FieldT sh)
    (epsV muV : VField sh.size), IsVec eps epsV → IsVec mu muV → ∀ A : Mat3 sh.size,
    eFull sh omega d epsV (some muV) none none 0 0 = some A → ∀ (e : FieldT sh) (E : VField sh.size),
    IsVec e E → IsVec (fnEFull omega d eps (some mu) e) (A *ᵥ E)

/-- C23 does not hold for `e_full` with `mu`: the functional version multiplies by `mu` where the
matrix divides. Two cells along x, `mu = 2`, a y-polarised field. -/
theorem functional_e_full_false : ¬ FunctionalEFull := by
  intro H
  let sh : Shape := ![2, 1, 1]
  let d : Dxes := ⟨fun _ _ => 1, fun _ _ => 1⟩
  let e : FieldT sh := fun a c => if a = 1 ∧ (c 0).val = 0 then 1 else 0
  let c0 : Cell sh := fun a => ⟨0, by match a with | 0 => decide | 1 => decide | 2 => decide⟩
  obtain ⟨A, hA⟩ : ∃ A, eFull sh 0 d (fun _ => 1) (some fun _ => 2) none none 0 0 = some A := by
    obtain ⟨⟨ce, hce⟩, ⟨ch, hch⟩⟩ := curl_defined sh d 0
    rw [eFull, hce, hch]; exact ⟨_, rfl⟩
  let E : VField sh.size := fun p => e p.1 (cellAt p.2)
  have hE : IsVec e E := fun a c => by simp [E]
  have h1 := H sh 0 d (fun _ _ => 1) (fun _ _ => 2) _ _ (fun _ _ => rfl) (fun _ _ => rfl) A hA e E hE
    1 c0
  have h2 := functional_e_full_reciprocal 0 d (fun _ _ => 1) (fun _ _ => 2) _ _ (fun _ _ => rfl)
    (fun _ _ => rfl) A hA e E hE 1 c0
  rw [h1] at h2
  have n0 : ∀ c : Cell sh, (c 0).val = 0 → (nextCell 0 c 0).val = 1 := by
    intro c hc
    show (((c 0).val + 1) % 2) = 1
    omega
  have n1 : ∀ c : Cell sh, (c 0).val = 1 → (nextCell 0 c 0).val = 0 := by
    intro c hc
    show (((c 0).val + 1) % 2) = 0
    omega
  have p0 : (prevCell 0 c0 0).val = 1 := rfl
  have cc : ∀ c : Cell sh, nextCell 2 c = c := by
    intro c; funext b
    by_cases hb : b = 2
    · subst hb; apply Fin.ext
      show (((c 2).val + 1) % 1) = (c 2).val
      have : (c 2).val < 1 := (c 2).isLt
      omega
    · rw [nextCell, if_neg hb]
  have c00 : (c0 0).val = 0 := rfl
  simp [fnEFull, fnCurlH, fnCurlE, d, e] at h2
  simp [fnDh, fnDe, npRoll_fwd, npRoll_back, cc, c00, n0, n1, p0] at h2
  norm_num at h2

/-- The matrix `eh_full` raises without `mu`, although `mu` is optional. -/
theorem eh_full_without_mu (sh : Shape) (omega : ℂ) (d : Dxes) (eps : VField sh.size)
    (pec pmc : Option (Fin 3 × Fin sh.size → Bool)) (k : Fin 3 → ℂ) (so : Fin 3 → Fin 3 → Int) :
    ehFull sh omega d eps none pec pmc k so = none := rfl

/-- C23: the matrix and the functional `e2h` agree, with and without `mu`. -/
theorem functional_e2h (omega : ℂ) (d : Dxes) (mu : Option (FieldT sh × VField sh.size))
    (hmu : ∀ p ∈ mu, IsVec p.1 p.2) (A : Mat3 sh.size)
    (hA : e2h sh omega d (mu.map Prod.snd) none 0 0 = some A)
    (e : FieldT sh) (E : VField sh.size) (hE : IsVec e E) :
    IsVec (fnE2h omega d (mu.map Prod.fst) e) (A *ᵥ E) := by
  obtain ⟨⟨ce, hce⟩, _⟩ := curl_defined sh d 0
  have hc := functional_curl_e d ce hce e E hE
  intro a c
  cases mu with
  | none =>
    simp only [e2h, hce, Option.map_some, Option.map_none, Option.some.injEq] at hA
    subst hA
    rw [Matrix.smul_mulVec, Pi.smul_apply, hc a c, smul_eq_mul]
    show _ = _ / _
    rw [one_div, mul_comm, div_eq_mul_inv]
  | some p =>
    simp only [e2h, hce, Option.map_some, Option.some.injEq] at hA
    subst hA
    rw [← Matrix.mulVec_mulVec, Matrix.mulVec_diagonal, Matrix.smul_mulVec, Pi.smul_apply, hc a c,
      hmu p rfl a c, smul_eq_mul]
    show _ = _ / _
    rw [one_div, one_div, div_eq_mul_inv, mul_inv_rev]
    ring

/-- C23: with `mu`, the matrix and the functional `eh_full` agree. -/
theorem functional_eh_full_partial (omega : ℂ) (d : Dxes) (eps mu : FieldT sh)
    (epsV muV : VField sh.size) (he : IsVec eps epsV) (hm : IsVec mu muV)
    (A) (hA : ehFull sh omega d epsV (some muV) none none 0 0 = some A)
    (e h : FieldT sh) (E H : VField sh.size) (hE : IsVec e E) (hH : IsVec h H) :
    IsVec (fnEhFull omega d eps (some mu) e h).1 (fun p => (A *ᵥ Sum.elim E H) (Sum.inl p)) ∧
    IsVec (fnEhFull omega d eps (some mu) e h).2 (fun p => (A *ᵥ Sum.elim E H) (Sum.inr p)) := by
  obtain ⟨⟨ce, hce⟩, ⟨ch, hch⟩⟩ := curl_defined sh d 0
  rw [ehFull] at hA
  simp only [hce, hch, Option.bind_some, Option.map_some, Option.some.injEq, maskMat, mul_one,
    one_mul] at hA
  subst hA
  have hcE := functional_curl_e d ce hce e E hE
  have hcH := functional_curl_h d ch hch h H hH
  constructor
  · intro a c
    simp only [Matrix.fromBlocks_mulVec, Sum.elim_inl, Sum.elim_comp_inl, Sum.elim_comp_inr]
    rw [Pi.add_apply, Matrix.neg_mulVec, Pi.neg_apply, Matrix.smul_mulVec, Pi.smul_apply,
      Matrix.mulVec_diagonal, he a c, hE a c, hcH a c, smul_eq_mul, fnEhFull]
    ring
  · intro a c
    simp only [Matrix.fromBlocks_mulVec, Sum.elim_inr, Sum.elim_comp_inl, Sum.elim_comp_inr]
    rw [Pi.add_apply, Matrix.smul_mulVec, Pi.smul_apply,
      Matrix.mulVec_diagonal, hm a c, hH a c, hcE a c, smul_eq_mul, fnEhFull]
    ring

end Verif.Fdfd
