import Verif.Fdfd.SymHalf
import Verif.Fdfd.ConjProps
import Verif.Fdfd.PlanePowerProps
import Mathlib.Tactic.FinCases
set_option linter.unusedVariables false
set_option linter.unusedSimpArgs false
/-
Property C100: solving one half of a mirror-symmetric problem gives the solution of the whole.
-/
namespace Verif.Fdfd.Half
open Matrix
variable {sh : Shape}

/-! ### Specification -/

/-- A vectorised field as three arrays. -/
noncomputable def arrays (V : VField sh.size) : Fin 3 → NArr := fun a =>
  ⟨sh, fun i => if h : ∀ b, i b < sh b then V (a, pos fun b => ⟨i b, h b⟩) else 0⟩

/-- Three arrays as a vectorised field. -/
noncomputable def field (sh : Shape) (E : Fin 3 → NArr) : VField sh.size := fun p => (E p.1).val fun b => (cellAt p.2 b).val

/-- The reflection of the grid along `ax`. The mirror lies between the cells; a point in the middle of a cell along `ax`
goes to cell `n - 1 - i`, a point on the lower face of a cell to cell `n - i`, periodically. -/
def reflect (ax : Fin 3) (middle : Bool) (c : Cell sh) : Cell sh := fun b =>
  if b = ax then
    if middle then ⟨sh b - 1 - (c b).val, by have := (c b).isLt; omega⟩
    else ⟨(sh b - (c b).val) % sh b, Nat.mod_lt _ (Nat.lt_of_le_of_lt (Nat.zero_le _) (c b).isLt)⟩
  else c b

/-- The sign of a component under the reflection: for symmetry 1 the tangential components are odd, for symmetry 2
they are even; the normal component is the opposite. -/
def sign (symmetry : Nat) (normal : Bool) : ℂ := if symmetry = 1 then (if normal then 1 else -1) else (if normal then -1 else 1)

/-- The field has the reflection symmetries. Components of the electric field lie in the middle of the cell along their
own axis and on the lower face along the others. -/
def IsMirror (symmetry : Fin 3 → Nat) (F : FieldT sh) : Prop :=
  ∀ ax, symmetry ax ≠ 0 → ∀ a c, F a (reflect ax (a = ax) c) = sign (symmetry ax) (a = ax) * F a c

/-- The grid and the materials have the reflection symmetries. The permeability is given at the magnetic field, which
lies in the middle of the cell where the electric field does not. -/
structure MirrorProblem (symmetry : Fin 3 → Nat) (d : Dxes) (eps mu : VField sh.size) : Prop where
  valid : ∀ ax, symmetry ax = 0 ∨ symmetry ax = 1 ∨ symmetry ax = 2
  even : ∀ ax, symmetry ax ≠ 0 → 2 ∣ sh ax
  pos : ∀ ax, 0 < sh ax
  widthE : ∀ ax, symmetry ax ≠ 0 → ∀ i, i < sh ax → d.e ax (sh ax - 1 - i) = d.e ax i
  widthH : ∀ ax, symmetry ax ≠ 0 → ∀ i, i < sh ax → d.h ax ((sh ax - i) % sh ax) = d.h ax i
  eps : ∀ ax, symmetry ax ≠ 0 → ∀ a c, asField eps a (reflect ax (a = ax) c) = asField eps a c
  mu : ∀ ax, symmetry ax ≠ 0 → ∀ a c, asField mu a (reflect ax (a ≠ ax) c) = asField mu a c

/-- The cells of the half that is simulated. -/
def Upper (symmetry : Fin 3 → Nat) (c : Cell sh) : Prop := ∀ ax, symmetry ax ≠ 0 → sh ax / 2 ≤ (c ax).val

/-- Tangential components on the outer wall of an axis with symmetry, the first layer of the whole grid. -/
def OnWall (symmetry : Fin 3 → Nat) (k : Nat) (a : Fin 3) (c : Cell sh) : Prop := ∃ ax, symmetry ax = k ∧ a ≠ ax ∧ (c ax).val = 0

/-- The first cell of the half. -/
def half (symmetry : Fin 3 → Nat) (sh : Shape) (ax : Fin 3) : Nat := if symmetry ax = 0 then 0 else sh ax / 2

/-- `Q` is the half problem of the whole problem with these data. -/
structure HalfOf (symmetry : Fin 3 → Nat) (omega : ℂ) (d : Dxes) (eps mu J E0 : VField sh.size) (pemc : Fin 3 → Fin 2 → Nat)
    (Q : Problem) : Prop where
  omega : Q.omega = omega
  shape : ∀ a, Q.shape a = sh a - half symmetry sh a
  widthE : ∀ a i, i < Q.shape a → Q.dxes.e a i = d.e a (half symmetry sh a + i)
  widthH : ∀ a i, i < Q.shape a → Q.dxes.h a i = d.h a (half symmetry sh a + i)
  shapes : ∀ a, (Q.J a).shape = Q.shape ∧ (Q.epsilon a).shape = Q.shape ∧ (Q.mu a).shape = Q.shape ∧ (Q.E0 a).shape = Q.shape
  data : ∀ (a : Fin 3) (c : Cell sh), Upper symmetry c →
    (Q.J a).val (fun b => (c b).val - half symmetry sh b) = asField J a c ∧
    (Q.epsilon a).val (fun b => (c b).val - half symmetry sh b) = asField eps a c ∧
    (Q.mu a).val (fun b => (c b).val - half symmetry sh b) = asField mu a c ∧
    (Q.E0 a).val (fun b => (c b).val - half symmetry sh b) = asField E0 a c
  walls : ∀ ax side, Q.pemc ax side = if symmetry ax = 0 then pemc ax side else symmetry ax

/-- A solution of the half problem `A G = rhs`: fields on the half which, continued by their mirror image and by zero
tangential fields on the outer walls, satisfy the equations in the half. -/
structure HalfSolution (symmetry : Fin 3 → Nat) (A : Mat3 sh.size) (rhs : VField sh.size) (e : Fin 3 → NArr)
    (G : VField sh.size) : Prop where
  shape : ∀ a b, (e a).shape b = sh b - half symmetry sh b
  mirror : IsMirror symmetry (asField G)
  wall : ∀ k, k ≠ 0 → ∀ a c, OnWall symmetry k a c → asField G a c = 0
  values : ∀ (a : Fin 3) (c : Cell sh), Upper symmetry c → (e a).val (fun b => (c b).val - half symmetry sh b) = asField G a c
  equations : ∀ a c, Upper symmetry c → (A *ᵥ G) (a, pos c) = rhs (a, pos c)

/-! ### Lemmas: the reflected arrays -/

/-- The factor and the index `applyAxis` takes from the half with `m` cells. -/
def fold (symmetry m : Nat) (normal : Bool) (i : Nat) : ℂ × Nat :=
  if symmetry = 0 then (1, i)
  else if normal then (if i < m then (sign symmetry true, m - 1 - i) else (1, i - m))
  else (if i = 0 then (0, 0) else if i < m then (sign symmetry false, m - i) else (1, i - m))

theorem applyAxis_shape (s : Nat) (hs : s = 0 ∨ s = 1 ∨ s = 2) (ax : Fin 3) (E : Fin 3 → NArr) (hE : ∀ a b, (E a).shape b = (E 0).shape b)
    (hp : 0 < (E 0).shape ax) (a b : Fin 3) :
    (applyAxis s ax E a).shape b = if b = ax ∧ s ≠ 0 then 2 * (E 0).shape b else (E 0).shape b := by
  have h1 := hE 1
  have ha := hE a
  have hsh : (E a).shape = (E 0).shape := funext ha
  have hsh1 : (E 1).shape = (E 0).shape := funext h1
  rcases hs with rfl | rfl | rfl
  · simp [applyAxis, hsh]
  · by_cases e : a = ax <;> by_cases e' : b = ax <;>
      simp [applyAxis, e, e', NArr.concat, NArr.flip, NArr.neg, NArr.tail, NArr.dummy, Function.update_apply, hsh, hsh1] <;>
      (try subst e) <;> (try subst e') <;> (try rw [hsh]) <;> omega
  · by_cases e : a = ax <;> by_cases e' : b = ax <;>
      simp [applyAxis, e, e', NArr.concat, NArr.flip, NArr.neg, NArr.tail, NArr.dummy, Function.update_apply, hsh, hsh1] <;>
      (try subst e) <;> (try subst e') <;> (try rw [hsh]) <;> omega

theorem applyAxis_val (s : Nat) (hs : s = 0 ∨ s = 1 ∨ s = 2) (ax : Fin 3) (E : Fin 3 → NArr) (hE : ∀ a b, (E a).shape b = (E 0).shape b)
    (hp : 0 < (E 0).shape ax) (a : Fin 3) (i : Fin 3 → Nat) :
    (applyAxis s ax E a).val i = (fold s ((E 0).shape ax) (a = ax) (i ax)).1 *
      (E a).val (Function.update i ax (fold s ((E 0).shape ax) (a = ax) (i ax)).2) := by
  have hsh : (E a).shape = (E 0).shape := funext (hE a)
  have hsh1 : (E 1).shape = (E 0).shape := funext (hE 1)
  have key : ∀ (t : Nat), t = 1 ∨ t = 2 → (applyAxis t ax E a).val i = (fold t ((E 0).shape ax) (a = ax) (i ax)).1 *
      (E a).val (Function.update i ax (fold t ((E 0).shape ax) (a = ax) (i ax)).2) := by
    intro t ht
    have t0 : t ≠ 0 := by omega
    by_cases e : a = ax
    · subst e
      by_cases hi : i a < (E 0).shape a
      · rcases ht with rfl | rfl <;>
          simp [applyAxis, fold, sign, NArr.concat, NArr.flip, NArr.neg, hsh, hi]
      · rcases ht with rfl | rfl <;>
          simp [applyAxis, fold, sign, NArr.concat, NArr.flip, NArr.neg, hsh, hi]
    · have en : decide (a = ax) = false := by simpa using e
      rw [en]
      by_cases h0 : i ax = 0
      · have hlt : (0 : Nat) < 1 + ((E 0).shape ax - 1) := by omega
        rcases ht with rfl | rfl <;>
          simp [applyAxis, fold, sign, e, NArr.concat, NArr.flip, NArr.neg, NArr.tail, NArr.dummy, hsh, hsh1, h0, hlt]
      · have hnlt : ¬ i ax < 1 := by omega
        have hlen : 1 + ((E 0).shape ax - 1) = (E 0).shape ax := by omega
        by_cases hi : i ax < (E 0).shape ax
        · have hidx : (E 0).shape ax - 1 - 1 - (i ax - 1) + 1 = (E 0).shape ax - i ax := by omega
          rcases ht with rfl | rfl <;>
            simp [applyAxis, fold, sign, e, NArr.concat, NArr.flip, NArr.neg, NArr.tail, NArr.dummy, hsh, hsh1, h0, hnlt, hlen, hi, hidx]
        · rcases ht with rfl | rfl <;>
            simp [applyAxis, fold, sign, e, NArr.concat, NArr.flip, NArr.neg, NArr.tail, NArr.dummy, hsh, hsh1, h0, hnlt, hlen, hi]
  rcases hs with rfl | hs
  · simp [applyAxis, fold]
  · exact key s hs

/-- All of `apply_symmetry` at one entry. -/
theorem applySymmetry_val (s : Fin 3 → Nat) (hs : ∀ ax, s ax = 0 ∨ s ax = 1 ∨ s ax = 2) (m : Fin 3 → Nat) (hm : ∀ b, 0 < m b)
    (E : Fin 3 → NArr) (hE : ∀ a b, (E a).shape b = m b) (a : Fin 3) :
    (∀ b, (applySymmetry s E a).shape b = if s b ≠ 0 then 2 * m b else m b) ∧
    ∀ i, (applySymmetry s E a).val i =
      (∏ ax, (fold (s ax) (m ax) (a = ax) (i ax)).1) * (E a).val fun ax => (fold (s ax) (m ax) (a = ax) (i ax)).2 := by
  have h0 : ∀ a b, (E a).shape b = (E 0).shape b := fun a b => by rw [hE, hE]
  have s0 := applyAxis_shape (s 0) (hs 0) 0 E h0 (by rw [hE]; exact hm 0)
  have v0 := applyAxis_val (s 0) (hs 0) 0 E h0 (by rw [hE]; exact hm 0)
  set E1 := applyAxis (s 0) 0 E with hE1
  have h1 : ∀ a b, (E1 a).shape b = (E1 0).shape b := fun a b => by rw [s0, s0]
  have p1 : (E1 0).shape 1 = m 1 := by rw [s0]; simp [hE]
  have s1 := applyAxis_shape (s 1) (hs 1) 1 E1 h1 (by rw [p1]; exact hm 1)
  have v1 := applyAxis_val (s 1) (hs 1) 1 E1 h1 (by rw [p1]; exact hm 1)
  set E2 := applyAxis (s 1) 1 E1 with hE2
  have h2 : ∀ a b, (E2 a).shape b = (E2 0).shape b := fun a b => by rw [s1, s1]
  have p2 : (E2 0).shape 2 = m 2 := by rw [s1, s0]; simp [hE]
  have s2 := applyAxis_shape (s 2) (hs 2) 2 E2 h2 (by rw [p2]; exact hm 2)
  have v2 := applyAxis_val (s 2) (hs 2) 2 E2 h2 (by rw [p2]; exact hm 2)
  constructor
  · intro b
    show (applyAxis (s 2) 2 E2 a).shape b = _
    rw [s2, s1, s0, hE]
    match b with
    | 0 => simp
    | 1 => simp
    | 2 => simp
  · intro i
    show (applyAxis (s 2) 2 E2 a).val i = _
    rw [v2, v1, v0, p2, p1, hE, Fin.prod_univ_three]
    have e1 : (Function.update i 2 (fold (s 2) (m 2) (decide (a = 2)) (i 2)).2) 1 = i 1 := by simp
    have e0 : ∀ x y, (Function.update (Function.update i 2 x) 1 y) (0 : Fin 3) = i 0 := by intro x y; simp
    rw [e1, e0, ← mul_assoc, ← mul_assoc]
    congr 1
    · ring
    · congr 1
      funext b
      match b with
      | 0 => simp
      | 1 => simp
      | 2 => simp

/-! ### Lemmas: the wave operator and reflections -/

/-- The scalar `f` has the parity `σ`. -/
def HasPar (ax : Fin 3) (middle : Bool) (σ : ℂ) (f : Cell sh → ℂ) : Prop := ∀ c, f (reflect ax middle c) = σ * f c

theorem HasPar.sub {ax : Fin 3} {n : Bool} {σ : ℂ} {f g : Cell sh → ℂ} (hf : HasPar ax n σ f) (hg : HasPar ax n σ g) :
    HasPar ax n σ (fun c => f c - g c) := by
  intro c
  show f _ - g _ = _
  rw [hf, hg]; ring

theorem reflect_other (ax b : Fin 3) (n : Bool) (c : Cell sh) (h : b ≠ ax) : reflect ax n c b = c b := by
  simp [reflect, h]

theorem reflect_middle (ax : Fin 3) (c : Cell sh) : (reflect ax true c ax).val = sh ax - 1 - (c ax).val := by
  simp [reflect]

theorem reflect_face (ax : Fin 3) (c : Cell sh) : (reflect ax false c ax).val = (sh ax - (c ax).val) % sh ax := by
  simp [reflect]

theorem next_reflect_other (ax b : Fin 3) (n : Bool) (c : Cell sh) (h : b ≠ ax) :
    nextCell b (reflect ax n c) = reflect ax n (nextCell b c) ∧ prevCell b (reflect ax n c) = reflect ax n (prevCell b c) := by
  constructor <;>
  · funext x
    by_cases hx : x = ax
    · subst hx
      simp [nextCell, prevCell, reflect, h.symm]
    · by_cases hb : x = b
      · subst hb
        simp [nextCell, prevCell, reflect, hx]
      · simp [nextCell, prevCell, reflect, hx, hb]

/-- Stepping up from the mirror image of a middle is the mirror image of the face. -/
theorem next_reflect (ax : Fin 3) (c : Cell sh) :
    nextCell ax (reflect ax true c) = reflect ax false c ∧ reflect ax true c = reflect ax false (nextCell ax c) := by
  have hc := (c ax).isLt
  constructor
  · funext x
    by_cases hx : x = ax
    · subst hx
      apply Fin.ext
      simp only [nextCell, reflect, reduceIte, Bool.false_eq_true]
      congr 1; omega
    · simp [nextCell, reflect, hx]
  · funext x
    by_cases hx : x = ax
    · subst hx
      apply Fin.ext
      simp only [nextCell, reflect, reduceIte, Bool.false_eq_true]
      by_cases hl : (c x).val + 1 = sh x
      · rw [hl, Nat.mod_self, Nat.sub_zero, Nat.mod_self]; omega
      · rw [Nat.mod_eq_of_lt (show (c x).val + 1 < sh x by omega), Nat.mod_eq_of_lt (by omega)]
        omega
    · simp [nextCell, reflect, hx]

theorem prev_reflect (ax : Fin 3) (c : Cell sh) :
    prevCell ax (reflect ax false c) = reflect ax true c ∧ reflect ax false c = reflect ax true (prevCell ax c) := by
  have hc := (c ax).isLt
  constructor
  · funext x
    by_cases hx : x = ax
    · subst hx
      apply Fin.ext
      simp only [prevCell, reflect, reduceIte, Bool.false_eq_true]
      by_cases hl : (c x).val = 0
      · rw [hl, Nat.sub_zero, Nat.mod_self, Nat.zero_add, Nat.mod_eq_of_lt (by omega)]; omega
      · rw [Nat.mod_eq_of_lt (show sh x - (c x).val < sh x by omega),
          show sh x - (c x).val + (sh x - 1) = (sh x - 1 - (c x).val) + sh x by omega, Nat.add_mod_right, Nat.mod_eq_of_lt (by omega)]
    · simp [prevCell, reflect, hx]
  · funext x
    by_cases hx : x = ax
    · subst hx
      apply Fin.ext
      simp only [prevCell, reflect, reduceIte, Bool.false_eq_true]
      by_cases hl : (c x).val = 0
      · rw [hl, Nat.sub_zero, Nat.mod_self, Nat.zero_add, Nat.mod_eq_of_lt (by omega)]; omega
      · rw [show (c x).val + (sh x - 1) = ((c x).val - 1) + sh x by omega, Nat.add_mod_right, Nat.mod_eq_of_lt (show (c x).val - 1 < sh x by omega),
          Nat.mod_eq_of_lt (by omega)]
        omega
    · simp [prevCell, reflect, hx]

theorem fwd_zero (dx : Fin 3 → Nat → ℂ) (a : Fin 3) (f : Cell sh → ℂ) (c : Cell sh) :
    fwdDiff dx 0 a f c = (f (nextCell a c) - f c) / dx a (c a) := by
  simp [fwdDiff, upPhase]

theorem back_zero (dx : Fin 3 → Nat → ℂ) (a : Fin 3) (f : Cell sh → ℂ) (c : Cell sh) :
    backDiff dx 0 a f c = (f c - f (prevCell a c)) / dx a (c a) := by
  simp [backDiff, downPhase]

theorem fwd_par (dx : Fin 3 → Nat → ℂ) (ax b : Fin 3) (hb : b ≠ ax) (n : Bool) (σ : ℂ) (f : Cell sh → ℂ) (hf : HasPar ax n σ f) :
    HasPar ax n σ (fwdDiff dx 0 b f) ∧ HasPar ax n σ (backDiff dx 0 b f) := by
  constructor <;>
  · intro c
    simp only [fwd_zero, back_zero]
    rw [reflect_other ax b n c hb]
    simp only [(next_reflect_other ax b n c hb).1, (next_reflect_other ax b n c hb).2]
    rw [hf, hf]
    ring

theorem fwd_par_same (dx : Fin 3 → Nat → ℂ) (ax : Fin 3) (hd : ∀ i, i < sh ax → dx ax (sh ax - 1 - i) = dx ax i) (σ : ℂ)
    (f : Cell sh → ℂ) (hf : HasPar ax false σ f) : HasPar ax true (-σ) (fwdDiff dx 0 ax f) := by
  intro c
  simp only [fwd_zero]
  rw [(next_reflect ax c).1, hf, reflect_middle, hd _ (c ax).isLt]
  conv_lhs => rw [(next_reflect ax c).2]
  rw [hf]
  ring

theorem back_par_same (dx : Fin 3 → Nat → ℂ) (ax : Fin 3) (hd : ∀ i, i < sh ax → dx ax ((sh ax - i) % sh ax) = dx ax i) (σ : ℂ)
    (f : Cell sh → ℂ) (hf : HasPar ax true σ f) : HasPar ax false (-σ) (backDiff dx 0 ax f) := by
  intro c
  simp only [back_zero]
  rw [(prev_reflect ax c).1, hf, reflect_face, hd _ (c ax).isLt]
  conv_lhs => rw [(prev_reflect ax c).2]
  rw [hf]
  ring

theorem sign_neg (s : Nat) (b : Bool) : sign s (!b) = -sign s b := by
  cases b <;> by_cases h : s = 1 <;> simp [sign, h]

theorem third_e : ∀ ax a b a' : Fin 3, a ≠ b → a ≠ a' → b ≠ a' → b ≠ ax → decide (a' = ax) = decide (a ≠ ax) := by decide

theorem third_h : ∀ ax a b a' : Fin 3, a ≠ b → a ≠ a' → b ≠ a' → b ≠ ax → decide (a' ≠ ax) = decide (a = ax) := by decide

/-- A derivative of a component of the electric field has the parity of the component of the magnetic field. -/
theorem deriv_e_par (d : Dxes) (ax : Fin 3) (hd : ∀ i, i < sh ax → d.e ax (sh ax - 1 - i) = d.e ax i) (s : Nat) (e : FieldT sh)
    (he : ∀ a, HasPar ax (a = ax) (sign s (a = ax)) (e a)) (a b a' : Fin 3) (h1 : a ≠ b) (h2 : a ≠ a') (h3 : b ≠ a') :
    HasPar ax (a ≠ ax) (sign s (a ≠ ax)) (fwdDiff d.e 0 b (e a')) := by
  by_cases hb : b = ax
  · subst hb
    have q := he a'
    rw [decide_eq_false (p := a' = b) (Ne.symm h3)] at q
    rw [decide_eq_true (p := a ≠ b) h1]
    have := fwd_par_same d.e b hd _ _ q
    rw [show sign s true = -sign s false from (sign_neg s false)]
    exact this
  · have q := (fwd_par d.e ax b hb _ _ _ (he a')).1
    rw [third_e ax a b a' h1 h2 h3 hb] at q
    exact q

theorem deriv_h_par (d : Dxes) (ax : Fin 3) (hd : ∀ i, i < sh ax → d.h ax ((sh ax - i) % sh ax) = d.h ax i) (s : Nat) (h : FieldT sh)
    (hh : ∀ a, HasPar ax (a ≠ ax) (sign s (a ≠ ax)) (h a)) (a b a' : Fin 3) (h1 : a ≠ b) (h2 : a ≠ a') (h3 : b ≠ a') :
    HasPar ax (a = ax) (sign s (a = ax)) (backDiff d.h 0 b (h a')) := by
  by_cases hb : b = ax
  · subst hb
    have q := hh a'
    rw [decide_eq_true (p := a' ≠ b) (Ne.symm h3)] at q
    rw [decide_eq_false (p := a = b) h1]
    have := back_par_same d.h b hd _ _ q
    rw [show sign s false = -sign s true from (sign_neg s true)]
    exact this
  · have q := (fwd_par d.h ax b hb _ _ _ (hh a')).2
    rw [third_h ax a b a' h1 h2 h3 hb] at q
    exact q

/-- The wave operator of a mirror-symmetric problem keeps the reflection symmetries of a field. -/
theorem wave_mirror (s : Fin 3 → Nat) (omega : ℂ) (d : Dxes) (eps mu : VField sh.size) (hP : MirrorProblem s d eps mu)
    (A : Mat3 sh.size) (hA : eFull sh omega d eps (some mu) none none 0 0 = some A) (G : VField sh.size)
    (hG : IsMirror s (asField G)) : IsMirror s (asField (A *ᵥ G)) := by
  obtain ⟨⟨ce, hce⟩, ⟨ch, hch⟩⟩ := curl_defined sh d 0
  rw [eFull, hce, hch] at hA
  simp only [Option.bind_some, Option.map_some, Option.some.injEq, maskMat, Matrix.mul_one, Matrix.one_mul] at hA
  subst hA
  intro ax hax
  have he : ∀ a, HasPar ax (a = ax) (sign (s ax) (a = ax)) (asField G a) := fun a c => hG ax hax a c
  have hc := curl_e_pointwise d 0 ce hce (asField G) G (asField_isVec G)
  -- the magnetic field
  have hH : ∀ a, HasPar ax (a ≠ ax) (sign (s ax) (a ≠ ax)) (asField (ce *ᵥ G) a) := by
    intro a
    have D := deriv_e_par d ax (hP.widthE ax hax) (s ax) (asField G) he
    match a with
    | 0 =>
      have := HasPar.sub (D 0 1 2 (by decide) (by decide) (by decide)) (D 0 2 1 (by decide) (by decide) (by decide))
      intro c
      show (ce *ᵥ G) (0, pos _) = _ * (ce *ᵥ G) (0, pos c)
      rw [(hc _).1, (hc c).1]; exact this c
    | 1 =>
      have := HasPar.sub (D 1 2 0 (by decide) (by decide) (by decide)) (D 1 0 2 (by decide) (by decide) (by decide))
      intro c
      show (ce *ᵥ G) (1, pos _) = _ * (ce *ᵥ G) (1, pos c)
      rw [(hc _).2.1, (hc c).2.1]; exact this c
    | 2 =>
      have := HasPar.sub (D 2 0 1 (by decide) (by decide) (by decide)) (D 2 1 0 (by decide) (by decide) (by decide))
      intro c
      show (ce *ᵥ G) (2, pos _) = _ * (ce *ᵥ G) (2, pos c)
      rw [(hc _).2.2, (hc c).2.2]; exact this c
  set H := invMat (some mu) *ᵥ (ce *ᵥ G) with hHd
  have hHv : ∀ a c, asField H a c = 1 / asField mu a c * asField (ce *ᵥ G) a c := by
    intro a c
    show (Matrix.diagonal (fun p => 1 / mu p) *ᵥ (ce *ᵥ G)) (a, pos c) = _
    rw [Matrix.mulVec_diagonal]
    rfl
  have hH' : ∀ a, HasPar ax (a ≠ ax) (sign (s ax) (a ≠ ax)) (asField H a) := by
    intro a c
    rw [hHv, hHv, hP.mu ax hax a c, hH a c]
    ring
  have hc' := curl_h_pointwise d 0 ch hch (asField H) H (asField_isVec H)
  have hE : ∀ a, HasPar ax (a = ax) (sign (s ax) (a = ax)) (asField (ch *ᵥ H) a) := by
    intro a
    have D := deriv_h_par d ax (hP.widthH ax hax) (s ax) (asField H) hH'
    match a with
    | 0 =>
      have := HasPar.sub (D 0 1 2 (by decide) (by decide) (by decide)) (D 0 2 1 (by decide) (by decide) (by decide))
      intro c
      show (ch *ᵥ H) (0, pos _) = _ * (ch *ᵥ H) (0, pos c)
      rw [(hc' _).1, (hc' c).1]; exact this c
    | 1 =>
      have := HasPar.sub (D 1 2 0 (by decide) (by decide) (by decide)) (D 1 0 2 (by decide) (by decide) (by decide))
      intro c
      show (ch *ᵥ H) (1, pos _) = _ * (ch *ᵥ H) (1, pos c)
      rw [(hc' _).2.1, (hc' c).2.1]; exact this c
    | 2 =>
      have := HasPar.sub (D 2 0 1 (by decide) (by decide) (by decide)) (D 2 1 0 (by decide) (by decide) (by decide))
      intro c
      show (ch *ᵥ H) (2, pos _) = _ * (ch *ᵥ H) (2, pos c)
      rw [(hc' _).2.2, (hc' c).2.2]; exact this c
  intro a c
  have hval : ∀ c, asField ((ch * invMat (some mu) * ce - omega ^ 2 • Matrix.diagonal eps) *ᵥ G) a c =
      asField (ch *ᵥ H) a c - omega ^ 2 * (asField eps a c * asField G a c) := by
    intro c
    show ((ch * invMat (some mu) * ce - omega ^ 2 • Matrix.diagonal eps) *ᵥ G) (a, pos c) = _
    rw [Matrix.sub_mulVec, Pi.sub_apply, Matrix.smul_mulVec, Pi.smul_apply, Matrix.mulVec_diagonal, ← Matrix.mulVec_mulVec,
      ← Matrix.mulVec_mulVec]
    rfl
  rw [hval, hval, hE a c, hP.eps ax hax a c, he a c]
  ring

theorem sign_sq (s : Nat) (b : Bool) : sign s b * sign s b = 1 := by
  cases b <;> by_cases h : s = 1 <;> simp [sign, h]

/-- The number of cells of the half. -/
theorem half_even (s : Fin 3 → Nat) (ax : Fin 3) (h : s ax ≠ 0) (he : 2 ∣ sh ax) :
    half s sh ax = sh ax / 2 ∧ sh ax = 2 * half s sh ax := by
  obtain ⟨k, hk⟩ := he
  constructor
  · simp [half, h]
  · simp only [half, h, reduceIte]; omega

/-- One axis: the value of a mirror-symmetric field is the folded value. -/
theorem fold_step (s : Fin 3 → Nat) (hv : ∀ ax, s ax = 0 ∨ s ax = 1 ∨ s ax = 2) (he : ∀ ax, s ax ≠ 0 → 2 ∣ sh ax) (F : FieldT sh)
    (hF : IsMirror s F) (hw : ∀ k, k ≠ 0 → ∀ a c, OnWall s k a c → F a c = 0) (ax a : Fin 3) (c : Cell sh) :
    ∃ c' : Cell sh, (∀ b, b ≠ ax → c' b = c b) ∧
      (c' ax).val = half s sh ax + (fold (s ax) (sh ax - half s sh ax) (a = ax) (c ax).val).2 ∧
      F a c = (fold (s ax) (sh ax - half s sh ax) (a = ax) (c ax).val).1 * F a c' := by
  have hlt := (c ax).isLt
  by_cases h0 : s ax = 0
  · refine ⟨c, fun _ _ => rfl, ?_, ?_⟩ <;> simp [fold, h0, half]
  · obtain ⟨e1, e2⟩ := half_even s ax h0 (he ax h0)
    set m := half s sh ax with hm
    have hsub : sh ax - m = m := by omega
    rw [hsub]
    by_cases ha : a = ax
    · have hd : decide (a = ax) = true := by simpa using ha
      rw [hd]
      by_cases hc : (c ax).val < m
      · refine ⟨reflect ax true c, fun b hb => reflect_other ax b true c hb, ?_, ?_⟩
        · rw [reflect_middle]
          simp [fold, h0, hc]; omega
        · have := hF ax h0 a c
          rw [hd] at this
          simp only [fold, h0, hc, reduceIte]
          rw [this, ← mul_assoc, sign_sq, one_mul]
      · refine ⟨c, fun _ _ => rfl, ?_, ?_⟩
        · simp [fold, h0, hc]; omega
        · simp [fold, h0, hc]
    · have hd : decide (a = ax) = false := by simpa using ha
      rw [hd]
      by_cases hz : (c ax).val = 0
      · refine ⟨Function.update c ax ⟨m, by omega⟩, fun b hb => by simp [hb], ?_, ?_⟩
        · simp [fold, h0, hz]
        · rw [hw (s ax) h0 a c ⟨ax, rfl, ha, hz⟩]
          simp [fold, h0, hz]
      · by_cases hc : (c ax).val < m
        · refine ⟨reflect ax false c, fun b hb => reflect_other ax b false c hb, ?_, ?_⟩
          · rw [reflect_face, Nat.mod_eq_of_lt (by omega)]
            simp [fold, h0, hz, hc]; omega
          · have := hF ax h0 a c
            rw [hd] at this
            simp only [fold, h0, hz, hc, reduceIte, Bool.false_eq_true]
            rw [this, ← mul_assoc, sign_sq, one_mul]
        · refine ⟨c, fun _ _ => rfl, ?_, ?_⟩
          · simp [fold, h0, hz, hc]; omega
          · simp [fold, h0, hz, hc]

theorem field_at (E : Fin 3 → NArr) (a : Fin 3) (c : Cell sh) : asField (field sh E) a c = (E a).val fun b => (c b).val := by
  show (E a).val (fun b => (cellAt (pos c) b).val) = _
  rw [cellAt_pos]

/-! ### C100 -/

/-- The arrays which are returned have the shape of the whole grid, and are the mirror-symmetric continuation of the
half the server computed. -/
theorem symmetric_result (s : Fin 3 → Nat) (d : Dxes) (eps mu : VField sh.size) (hP : MirrorProblem s d eps mu) (A : Mat3 sh.size)
    (rhs : VField sh.size) (e : Fin 3 → NArr) (G : VField sh.size) (hS : HalfSolution s A rhs e G) :
    (∀ a b, (applySymmetry s e a).shape b = sh b) ∧ field sh (applySymmetry s e) = G := by
  have hm : ∀ b, 0 < sh b - half s sh b := by
    intro b
    have := hP.pos b
    by_cases h : s b = 0
    · simp [half, h, this]
    · obtain ⟨e1, e2⟩ := half_even s b h (hP.even b h)
      omega
  have key := applySymmetry_val s hP.valid (fun b => sh b - half s sh b) hm e hS.shape
  constructor
  · intro a b
    rw [(key a).1]
    by_cases h : s b = 0
    · simp [h, half]
    · obtain ⟨e1, e2⟩ := half_even s b h (hP.even b h)
      simp only [ne_eq, h, not_false_eq_true, reduceIte]; omega
  · funext p
    obtain ⟨a, i⟩ := p
    obtain ⟨c, rfl⟩ : ∃ c, i = pos c := ⟨cellAt i, (pos_cellAt i).symm⟩
    show asField (field sh (applySymmetry s e)) a c = asField G a c
    rw [field_at, (key a).2, Fin.prod_univ_three]
    obtain ⟨c0, k0, l0, v0⟩ := fold_step s hP.valid hP.even (asField G) hS.mirror hS.wall 0 a c
    obtain ⟨c1, k1, l1, v1⟩ := fold_step s hP.valid hP.even (asField G) hS.mirror hS.wall 1 a c0
    obtain ⟨c2, k2, l2, v2⟩ := fold_step s hP.valid hP.even (asField G) hS.mirror hS.wall 2 a c1
    have q1 : c0 1 = c 1 := k0 1 (by decide)
    have q2 : c1 2 = c 2 := (k1 2 (by decide)).trans (k0 2 (by decide))
    rw [q1] at l1 v1
    rw [q2] at l2 v2
    have w0 : (c2 0).val = half s sh 0 + (fold (s 0) (sh 0 - half s sh 0) (a = 0) (c 0).val).2 := by
      rw [k2 0 (by decide), k1 0 (by decide), l0]
    have w1 : (c2 1).val = half s sh 1 + (fold (s 1) (sh 1 - half s sh 1) (a = 1) (c 1).val).2 := by
      rw [k2 1 (by decide), l1]
    have up : Upper s c2 := by
      intro ax hax
      have := (half_even (sh := sh) s ax hax (hP.even ax hax)).1
      rw [← this]
      match ax with
      | 0 => omega
      | 1 => omega
      | 2 => omega
    have hv := hS.values a c2 up
    rw [v0, v1, v2, ← hv]
    have hidx : (fun b => (c2 b).val - half s sh b) = fun ax => (fold (s ax) (sh ax - half s sh ax) (a = ax) (c ax).val).2 := by
      funext b
      match b with
      | 0 => rw [w0]; omega
      | 1 => rw [w1]; omega
      | 2 => rw [l2]; omega
    rw [hidx]
    ring

/-- C100: the result of a simulation with symmetries has the shape of the whole grid, has the symmetries, and satisfies
the equations of the whole problem everywhere, except for the tangential components on the outer wall of axes with
symmetry 2, where the field is zero. -/
theorem symmetric_solve_partial (server : Problem → Fin 3 → NArr) (s : Fin 3 → Nat) (omega : ℂ) (d : Dxes)
    (eps mu J E0 : VField sh.size) (pemc : Fin 3 → Fin 2 → Nat) (hP : MirrorProblem s d eps mu) (hJ : IsMirror s (asField J))
    (A : Mat3 sh.size) (hA : eFull sh omega d eps (some mu) none none 0 0 = some A)
    (hs : ∀ Q, HalfOf s omega d eps mu J E0 pemc Q → ∃ G, HalfSolution s A ((-Complex.I * omega) • J) (server Q) G) :
    ∃ E, solve server s false ⟨omega, sh, d, arrays J, arrays eps, arrays mu, arrays E0, pemc⟩ = some E ∧
      (∀ a b, (E a).shape b = sh b) ∧ IsMirror s (asField (field sh E)) ∧
      (∀ a c, ¬ OnWall s 2 a c → (A *ᵥ field sh E) (a, pos c) = (-Complex.I * omega) * J (a, pos c)) ∧
      ∀ a c, OnWall s 2 a c → asField (field sh E) a c = 0 := by
  set P : Problem := ⟨omega, sh, d, arrays J, arrays eps, arrays mu, arrays E0, pemc⟩ with hPd
  have start : ∀ b, sliceStart (s b) (sh b) = half s sh b := by
    intro b
    rcases hP.valid b with h | h | h <;> simp [sliceStart, half, h]
  have arr : ∀ (V : VField sh.size) (a : Fin 3) (c : Cell sh), Upper s c →
      ((arrays V a).cut fun b => sliceStart (s b) (sh b)).val (fun b => (c b).val - half s sh b) = asField V a c := by
    intro V a c hc
    have hi : (fun b => sliceStart (s b) (sh b) + ((c b).val - half s sh b)) = fun b => (c b).val := by
      funext b
      rw [start]
      by_cases h : s b = 0
      · simp [half, h]
      · have := hc b h
        simp only [half, h, reduceIte]; omega
    show (arrays V a).val (fun b => sliceStart (s b) (sh b) + ((c b).val - half s sh b)) = _
    rw [hi]
    have hb : ∀ b, (c b).val < sh b := fun b => (c b).isLt
    simp only [arrays, hb, implies_true, dite_true]
    rfl
  have hQ : HalfOf s omega d eps mu J E0 pemc (P.cut s) := by
    refine ⟨rfl, fun a => ?_, fun a i _ => ?_, fun a i _ => ?_, fun a => ⟨rfl, rfl, rfl, rfl⟩, fun a c hc => ⟨arr J a c hc, arr eps a c hc, arr mu a c hc, arr E0 a c hc⟩, ?_⟩
    · show sh a - sliceStart (s a) (sh a) = _
      rw [start]
    · show d.e a (sliceStart (s a) (sh a) + i) = _
      rw [start]
    · show d.h a (sliceStart (s a) (sh a) + i) = _
      rw [start]
    · intro ax side
      show pemcOf s pemc ax side = _
      rcases hP.valid ax with h | h | h <;> simp [pemcOf, h]
  obtain ⟨G, hG⟩ := hs _ hQ
  obtain ⟨h1, h2⟩ := symmetric_result s d eps mu hP A _ _ G hG
  refine ⟨applySymmetry s (server (P.cut s)), rfl, h1, by rw [h2]; exact hG.mirror, ?_, ?_⟩
  · rw [h2]
    -- the residual has the symmetries
    have hA' := wave_mirror s omega d eps mu hP A hA G hG.mirror
    set r : FieldT sh := fun a c => (A *ᵥ G) (a, pos c) - (-Complex.I * omega) * J (a, pos c) with hr
    have rm : IsMirror s r := by
      intro ax hax a c
      have e1 := hA' ax hax a c
      have e2 := hJ ax hax a c
      show asField (A *ᵥ G) a _ - (-Complex.I * omega) * asField J a _ = _ * (asField (A *ᵥ G) a c - (-Complex.I * omega) * asField J a c)
      rw [e1, e2]; ring
    have r0 : ∀ a c, Upper s c → r a c = 0 := by
      intro a c hc
      have := hG.equations a c hc
      show (A *ᵥ G) (a, pos c) - _ = 0
      rw [this, Pi.smul_apply, smul_eq_mul, sub_self]
    -- one axis after the other
    have step : ∀ (ax : Fin 3) (T : Fin 3 → Prop), ¬ T ax →
        (∀ a c, ¬ OnWall s 2 a c → (∀ b, s b ≠ 0 → (T b ∨ b = ax) → sh b / 2 ≤ (c b).val) → r a c = 0) →
        ∀ a c, ¬ OnWall s 2 a c → (∀ b, s b ≠ 0 → T b → sh b / 2 ≤ (c b).val) → r a c = 0 := by
      intro ax T hT ih a c hw hc
      by_cases h0 : s ax = 0
      · exact ih a c hw fun b hb hb' => hc b hb (hb'.resolve_right fun e => hb (e ▸ h0))
      by_cases hu : sh ax / 2 ≤ (c ax).val
      · refine ih a c hw fun b hb hb' => ?_
        rcases hb' with hb' | rfl
        · exact hc b hb hb'
        · exact hu
      · obtain ⟨e1, e2⟩ := half_even (sh := sh) s ax h0 (hP.even ax h0)
        have hlt := (c ax).isLt
        have hm := rm ax h0 a c
        have other : ∀ n b, b ≠ ax → reflect ax n c b = c b := fun n b hb => reflect_other ax b n c hb
        have sne : ∀ n, sign (s ax) n ≠ 0 := by
          intro n h
          have := sign_sq (s ax) n
          rw [h] at this; simp at this
        have fin : ∀ n, decide (a = ax) = n → ¬ OnWall s 2 a (reflect ax n c) → sh ax / 2 ≤ (reflect ax n c ax).val → r a c = 0 := by
          intro n hn hw' hge
          have z : r a (reflect ax n c) = 0 := by
            refine ih a _ hw' fun b hb hb' => ?_
            by_cases e : b = ax
            · subst e; exact hge
            · rw [other n b e]
              exact hc b hb (hb'.resolve_right e)
          rw [hn, z] at hm
          rcases mul_eq_zero.1 hm.symm with h | h
          · exact absurd h (sne n)
          · exact h
        have wall : ∀ n, (a = ax ∨ (reflect ax n c ax).val ≠ 0) → ¬ OnWall s 2 a (reflect ax n c) := by
          rintro n hn ⟨b, hb1, hb2, hb3⟩
          by_cases e : b = ax
          · subst e
            rcases hn with hn | hn
            · exact hb2 hn
            · exact hn hb3
          · rw [other n b e] at hb3
            exact hw ⟨b, hb1, hb2, hb3⟩
        by_cases ha : a = ax
        · refine fin true (by simpa using ha) (wall true (Or.inl ha)) ?_
          rw [reflect_middle]; omega
        · have hd : decide (a = ax) = false := by simpa using ha
          by_cases hz : (c ax).val = 0
          · have h1 : s ax = 1 := by
              rcases hP.valid ax with h | h | h
              · exact absurd h h0
              · exact h
              · exact absurd ⟨ax, h, ha, hz⟩ hw
            have self : reflect ax false c = c := by
              funext b
              by_cases e : b = ax
              · subst e
                apply Fin.ext
                rw [reflect_face, hz, Nat.sub_zero, Nat.mod_self]
              · exact other false b e
            rw [hd, self, h1] at hm
            simp only [sign, reduceIte, Bool.false_eq_true, neg_one_mul] at hm
            exact self_eq_neg.1 hm
          · have hval : (reflect ax false c ax).val = sh ax - (c ax).val := by
              rw [reflect_face, Nat.mod_eq_of_lt (by omega)]
            refine fin false hd (wall false (Or.inr (by omega))) (by omega)
    have cover : ∀ b : Fin 3, (b = 0 ∨ b = 1) ∨ b = 2 := by decide
    intro a c hw
    have s2 := step 2 (fun b => b = 0 ∨ b = 1) (by decide) (fun a c _ hc => r0 a c fun b hb => hc b hb (cover b))
    have s1 := step 1 (fun b => b = 0) (by decide) (fun a c hw hc => s2 a c hw fun b hb hb' => hc b hb hb')
    have s0 := step 0 (fun _ => False) (by decide) (fun a c hw hc => s1 a c hw fun b hb hb' => hc b hb (Or.inr hb'))
    exact sub_eq_zero.1 (s0 a c hw fun b _ hb => hb.elim)
  · rw [h2]
    exact hG.wall 2 (by decide)

/-- The solution of a mirror-symmetric problem has the symmetries. -/
theorem solution_mirror (s : Fin 3 → Nat) (omega : ℂ) (d : Dxes) (eps mu J : VField sh.size) (hP : MirrorProblem s d eps mu)
    (hJ : IsMirror s (asField J)) (A : Mat3 sh.size) (hA : eFull sh omega d eps (some mu) none none 0 0 = some A)
    (hu : IsUnit A.det) (x : VField sh.size) (hx : A *ᵥ x = (-Complex.I * omega) • J) : IsMirror s (asField x) := by
  intro ax hax a c
  -- one axis only
  let s1 : Fin 3 → Nat := fun b => if b = ax then s b else 0
  have hs1 : ∀ b, s1 b ≠ 0 → b = ax := by
    intro b hb
    by_contra e
    exact hb (by simp [s1, e])
  have hP1 : MirrorProblem s1 d eps mu := by
    refine ⟨fun b => ?_, fun b hb => ?_, hP.pos, fun b hb => ?_, fun b hb => ?_, fun b hb => ?_, fun b hb => ?_⟩
    · by_cases e : b = ax
      · have := hP.valid b; simpa [s1, e] using (e ▸ this)
      · left; simp [s1, e]
    · have := hs1 b hb; subst this; exact hP.even b hax
    · have := hs1 b hb; subst this; exact hP.widthE b hax
    · have := hs1 b hb; subst this; exact hP.widthH b hax
    · have := hs1 b hb; subst this; exact hP.eps b hax
    · have := hs1 b hb; subst this; exact hP.mu b hax
  -- the image of the solution
  let M : VField sh.size → VField sh.size := fun V p => sign (s ax) (p.1 = ax) * asField V p.1 (reflect ax (p.1 = ax) (cellAt p.2))
  have M_at : ∀ V a c, asField (M V) a c = sign (s ax) (a = ax) * asField V a (reflect ax (a = ax) c) := by
    intro V a c
    show sign (s ax) (a = ax) * asField V a (reflect ax (a = ax) (cellAt (pos c))) = _
    rw [cellAt_pos]
  have invol : ∀ n (c : Cell sh), reflect ax n (reflect ax n c) = c := by
    intro n c
    funext b
    by_cases e : b = ax
    · subst e
      have hlt := (c b).isLt
      apply Fin.ext
      cases n with
      | true => rw [reflect_middle, reflect_middle]; omega
      | false =>
        rw [reflect_face, reflect_face]
        by_cases hz : (c b).val = 0
        · rw [hz, Nat.sub_zero, Nat.mod_self, Nat.sub_zero, Nat.mod_self]
        · rw [Nat.mod_eq_of_lt (show sh b - (c b).val < sh b by omega), Nat.mod_eq_of_lt (by omega)]; omega
    · rw [reflect_other ax b n _ e, reflect_other ax b n _ e]
  have fixed : ∀ V, IsMirror s1 (asField V) ↔ M V = V := by
    intro V
    constructor
    · intro h
      funext p
      obtain ⟨a, i⟩ := p
      obtain ⟨c, rfl⟩ : ∃ c, i = pos c := ⟨cellAt i, (pos_cellAt i).symm⟩
      show asField (M V) a c = asField V a c
      rw [M_at]
      have := h ax (by simp [s1, hax]) a c
      simp only [s1, reduceIte] at this
      rw [this, ← mul_assoc, sign_sq, one_mul]
    · intro h b hb a c
      have := hs1 b hb
      subst this
      have h2 : asField (M V) a (reflect b (a = b) c) = asField V a (reflect b (a = b) c) := by rw [h]
      rw [M_at, invol] at h2
      simp only [s1, reduceIte]
      exact h2.symm
  have lin : ∀ V W, M (V + W) = M V + M W := by
    intro V W; funext p
    show sign _ _ * (asField V _ _ + asField W _ _) = _
    rw [mul_add]; rfl
  -- the symmetric part is a solution too
  have hsym : ∀ V, M (V + M V) = V + M V := by
    intro V
    have inv : M (M V) = V := by
      funext p
      obtain ⟨a, i⟩ := p
      obtain ⟨c, rfl⟩ : ∃ c, i = pos c := ⟨cellAt i, (pos_cellAt i).symm⟩
      show asField (M (M V)) a c = asField V a c
      rw [M_at, M_at, invol, ← mul_assoc, sign_sq, one_mul]
    rw [lin, inv, add_comm]
  have comm : A *ᵥ M x = M (A *ᵥ x) := by
    -- A keeps the fixed fields of M and those of -M
    have e1 : M (A *ᵥ (x + M x)) = A *ᵥ (x + M x) := (fixed _).1 (wave_mirror s1 omega d eps mu hP1 A hA _ ((fixed _).2 (hsym x)))
    have e2 : M (A *ᵥ (x - M x)) = -(A *ᵥ (x - M x)) := by
      let s2 : Fin 3 → Nat := fun b => if b = ax then 3 - s b else 0
      have hv : s ax = 1 ∨ s ax = 2 := (hP.valid ax).resolve_left hax
      have hs2 : ∀ b, s2 b ≠ 0 → b = ax := by
        intro b hb
        by_contra e
        exact hb (by simp [s2, e])
      have hP2 : MirrorProblem s2 d eps mu := by
        refine ⟨fun b => ?_, fun b hb => ?_, hP.pos, fun b hb => ?_, fun b hb => ?_, fun b hb => ?_, fun b hb => ?_⟩
        · by_cases e : b = ax
          · subst e
            simp only [s2, reduceIte]; omega
          · left; simp [s2, e]
        · have := hs2 b hb; subst this; exact hP.even b hax
        · have := hs2 b hb; subst this; exact hP.widthE b hax
        · have := hs2 b hb; subst this; exact hP.widthH b hax
        · have := hs2 b hb; subst this; exact hP.eps b hax
        · have := hs2 b hb; subst this; exact hP.mu b hax
      have sg : ∀ n, sign (3 - s ax) n = -sign (s ax) n := by
        intro n
        rcases hv with h | h <;> cases n <;> simp [sign, h]
      have anti : ∀ V, IsMirror s2 (asField V) ↔ M V = -V := by
        intro V
        constructor
        · intro h
          funext p
          obtain ⟨a, i⟩ := p
          obtain ⟨c, rfl⟩ : ∃ c, i = pos c := ⟨cellAt i, (pos_cellAt i).symm⟩
          show asField (M V) a c = -asField V a c
          rw [M_at]
          have := h ax (by simp only [s2, reduceIte]; omega) a c
          simp only [s2, reduceIte, sg] at this
          rw [this]
          linear_combination (-asField V a c) * sign_sq (s ax) (decide (a = ax))
        · intro h b hb a c
          have := hs2 b hb
          subst this
          have h2 : asField (M V) a (reflect b (a = b) c) = -asField V a (reflect b (a = b) c) := by rw [h]; rfl
          rw [M_at, invol] at h2
          simp only [s2, reduceIte, sg]
          linear_combination h2
      refine (anti _).1 (wave_mirror s2 omega d eps mu hP2 A hA _ ((anti _).2 ?_))
      have := hsym x
      have sub : ∀ V W, M (V - W) = M V - M W := by
        intro V W; funext p
        show sign _ _ * (asField V _ _ - asField W _ _) = _
        rw [mul_sub]; rfl
      rw [lin] at this
      have inv : M (M x) = x := by
        have := congrArg (fun v => v - M x) this
        simpa [add_sub_cancel_left] using this
      rw [sub, inv, neg_sub]
    have sub : ∀ V W, M (V - W) = M V - M W := by
      intro V W; funext p
      show sign _ _ * (asField V _ _ - asField W _ _) = _
      rw [mul_sub]; rfl
    rw [Matrix.mulVec_add, lin] at e1
    rw [Matrix.mulVec_sub, sub] at e2
    funext p
    have f1 := congrFun e1 p
    have f2 := congrFun e2 p
    simp only [Pi.add_apply, Pi.sub_apply, Pi.neg_apply] at f1 f2
    linear_combination (-1 / 2 : ℂ) * f1 - (1 / 2 : ℂ) * f2
  have hMJ : M ((-Complex.I * omega) • J) = (-Complex.I * omega) • J := by
    refine (fixed _).1 ?_
    intro b hb a c
    have := hs1 b hb
    subst this
    have h := hJ b hax a c
    show (-Complex.I * omega) * asField J a _ = _ * ((-Complex.I * omega) * asField J a c)
    simp only [s1, reduceIte]
    rw [h]; ring
  have hMx : M x = x := by
    have : A *ᵥ M x = A *ᵥ x := by rw [comm, hx, hMJ]
    have h2 := congrArg (A⁻¹ *ᵥ ·) this
    simpa [Matrix.mulVec_mulVec, Matrix.nonsing_inv_mul _ hu] using h2
  have := (fixed x).2 hMx ax (by simp [s1, hax]) a c
  simpa [s1] using this

/-- For symmetry 1 the solution of the whole problem, cut in half, is a solution of the half problem: the hypothesis of
the theorem above can be met. -/
theorem half_exists (s : Fin 3 → Nat) (hs1 : ∀ ax, s ax ≠ 2) (omega : ℂ) (d : Dxes) (eps mu J : VField sh.size)
    (hP : MirrorProblem s d eps mu) (hJ : IsMirror s (asField J)) (A : Mat3 sh.size)
    (hA : eFull sh omega d eps (some mu) none none 0 0 = some A) (hu : IsUnit A.det) (x : VField sh.size)
    (hx : A *ᵥ x = (-Complex.I * omega) • J) :
    HalfSolution s A ((-Complex.I * omega) • J) (fun a => (arrays x a).cut (half s sh)) x := by
  have hm := solution_mirror s omega d eps mu J hP hJ A hA hu x hx
  refine ⟨fun a b => rfl, hm, ?_, ?_, fun a c _ => by rw [hx]⟩
  · rintro k hk a c ⟨ax, h1, h2, h3⟩
    have h0 : s ax ≠ 0 := by rw [h1]; exact hk
    have hone : s ax = 1 := ((hP.valid ax).resolve_left h0).resolve_right (hs1 ax)
    have := hm ax h0 a c
    have hd : decide (a = ax) = false := by simpa using h2
    have self : reflect ax false c = c := by
      funext b
      by_cases e : b = ax
      · subst e
        apply Fin.ext
        rw [reflect_face, h3, Nat.sub_zero, Nat.mod_self]
      · exact reflect_other ax b false c e
    rw [hd, self, hone] at this
    simp only [sign, reduceIte, Bool.false_eq_true, neg_one_mul] at this
    exact self_eq_neg.1 this
  · intro a c hc
    have hi : (fun b => half s sh b + ((c b).val - half s sh b)) = fun b => (c b).val := by
      funext b
      by_cases h : s b = 0
      · simp [half, h]
      · have := hc b h
        simp only [half, h, reduceIte]; omega
    show (arrays x a).val (fun b => half s sh b + ((c b).val - half s sh b)) = _
    rw [hi]
    have hb : ∀ b, (c b).val < sh b := fun b => (c b).isLt
    simp only [arrays, hb, implies_true, dite_true]
    rfl

/-- C100 without symmetry 2: the simulation with symmetries returns the solution of the whole problem. -/
theorem symmetric_same_partial (server : Problem → Fin 3 → NArr) (s : Fin 3 → Nat) (hs1 : ∀ ax, s ax ≠ 2) (omega : ℂ) (d : Dxes)
    (eps mu J E0 : VField sh.size) (pemc : Fin 3 → Fin 2 → Nat) (hP : MirrorProblem s d eps mu) (hJ : IsMirror s (asField J))
    (A : Mat3 sh.size) (hA : eFull sh omega d eps (some mu) none none 0 0 = some A) (hu : IsUnit A.det)
    (hs : ∀ Q, HalfOf s omega d eps mu J E0 pemc Q → ∃ G, HalfSolution s A ((-Complex.I * omega) • J) (server Q) G)
    (x : VField sh.size) (hx : A *ᵥ x = (-Complex.I * omega) • J) :
    ∃ E, solve server s false ⟨omega, sh, d, arrays J, arrays eps, arrays mu, arrays E0, pemc⟩ = some E ∧ field sh E = x := by
  obtain ⟨E, h1, _, _, h4, _⟩ := symmetric_solve_partial server s omega d eps mu J E0 pemc hP hJ A hA hs
  refine ⟨E, h1, ?_⟩
  have hE : A *ᵥ field sh E = A *ᵥ x := by
    rw [hx]
    funext p
    obtain ⟨a, i⟩ := p
    obtain ⟨c, rfl⟩ : ∃ c, i = pos c := ⟨cellAt i, (pos_cellAt i).symm⟩
    exact h4 a c (fun ⟨ax, h, _⟩ => hs1 ax h)
  have h2 := congrArg (A⁻¹ *ᵥ ·) hE
  simpa [Matrix.mulVec_mulVec, Matrix.nonsing_inv_mul _ hu] using h2

/-! ### Where it fails -/

/-- With symmetry 2 the tangential components on the outer wall are zero, whatever the server returns. -/
theorem even_wall_zero (s : Fin 3 → Nat) (hv : ∀ ax, s ax = 0 ∨ s ax = 1 ∨ s ax = 2) (m : Fin 3 → Nat) (hm : ∀ b, 0 < m b)
    (E : Fin 3 → NArr) (hE : ∀ a b, (E a).shape b = m b) (ax a : Fin 3) (hax : s ax ≠ 0) (ha : a ≠ ax) (i : Fin 3 → Nat) (hi : i ax = 0) :
    (applySymmetry s E a).val i = 0 := by
  rw [(applySymmetry_val s hv m hm E hE a).2]
  have hz : (fold (s ax) (m ax) (a = ax) (i ax)).1 = 0 := by
    have hd : decide (a = ax) = false := by simpa using ha
    rw [hd]
    simp [fold, hax, hi]
  rw [Finset.prod_eq_zero (Finset.mem_univ ax) hz, zero_mul]

/-- Unit widths. -/
noncomputable def unitGrid : Dxes := ⟨fun _ _ => 1, fun _ _ => 1⟩

/-- A current along y in every cell. -/
def sheet : VField badShape.size := fun p => if p.1 = 1 then 1 else 0

theorem unit_apply (A : Mat3 badShape.size) (hA : eFull badShape 1 unitGrid 1 (some 1) none none 0 0 = some A)
    (x : VField badShape.size) (c : Cell badShape) :
    (A *ᵥ x) (0, pos c) = -x (0, pos c) ∧ (A *ᵥ x) (1, pos c) = x (1, pos c) - 2 * x (1, pos (nextCell 0 c)) ∧
      (A *ᵥ x) (2, pos c) = x (2, pos c) - 2 * x (2, pos (nextCell 0 c)) := by
  obtain ⟨⟨ce, hce⟩, ⟨ch, hch⟩⟩ := curl_defined badShape unitGrid 0
  rw [eFull, hce, hch] at hA
  have hmu : invMat (some (1 : VField badShape.size)) = 1 := by
    show Matrix.diagonal (fun p => 1 / (1 : ℂ)) = 1
    rw [← Matrix.diagonal_one]
    congr 1; funext p; simp
  simp only [Option.bind_some, Option.map_some, Option.some.injEq, maskMat, Matrix.mul_one, Matrix.one_mul, hmu] at hA
  subst hA
  obtain ⟨m1, m2, m3, m4, m5⟩ := bad_moves
  have two : ∀ c : Cell badShape, nextCell 0 (nextCell 0 c) = c ∧ prevCell 0 c = nextCell 0 c ∧ nextCell 0 (prevCell 0 c) = c := by
    intro c
    rcases bad_cells c with rfl | rfl
    · rw [m1, m2, m3, m2]; exact ⟨rfl, rfl, rfl⟩
    · rw [m2, m1, m4, m1]; exact ⟨rfl, rfl, rfl⟩
  have H := curl_e_pointwise unitGrid 0 ce hce (asField x) x (asField_isVec x)
  have G := curl_h_pointwise unitGrid 0 ch hch (asField (ce *ᵥ x)) (ce *ᵥ x) (asField_isVec _)
  have h1e : ∀ c, asField (ce *ᵥ x) 1 c = -(x (2, pos (nextCell 0 c)) - x (2, pos c)) := by
    intro c
    show (ce *ᵥ x) (1, pos c) = _
    rw [(H c).2.1, fwd_zero, fwd_zero, (m5 c).2.1]
    simp [unitGrid, asField]
  have h2e : ∀ c, asField (ce *ᵥ x) 2 c = x (1, pos (nextCell 0 c)) - x (1, pos c) := by
    intro c
    show (ce *ᵥ x) (2, pos c) = _
    rw [(H c).2.2, fwd_zero, fwd_zero, (m5 c).1]
    simp [unitGrid, asField]
  have hap : ∀ p, ((ch * ce - (1 : ℂ) ^ 2 • Matrix.diagonal (1 : VField badShape.size)) *ᵥ x) p = (ch *ᵥ (ce *ᵥ x)) p - x p := by
    intro p
    rw [Matrix.sub_mulVec, ← Matrix.mulVec_mulVec, Pi.sub_apply, one_pow, one_smul, Matrix.mulVec_diagonal]
    simp
  refine ⟨?_, ?_, ?_⟩
  · rw [hap, (G c).1, back_zero, back_zero, (m5 c).2.2.1, (m5 c).2.2.2]
    simp
  · rw [hap, (G c).2.1, back_zero, back_zero, (m5 c).2.2.2, h2e, h2e, (two c).2.1, (two c).1]
    simp [unitGrid]; ring
  · rw [hap, (G c).2.2, back_zero, back_zero, (m5 c).2.2.1, h1e, h1e, (two c).2.1, (two c).1]
    simp [unitGrid]; ring

theorem unit_invertible (A : Mat3 badShape.size) (hA : eFull badShape 1 unitGrid 1 (some 1) none none 0 0 = some A) :
    IsUnit A.det := by
  rw [isUnit_iff_ne_zero]
  intro h0
  obtain ⟨x, hx, hz⟩ := Matrix.exists_mulVec_eq_zero_iff.2 h0
  obtain ⟨m1, m2, _⟩ := bad_moves
  apply hx
  funext p
  obtain ⟨a, i⟩ := p
  obtain ⟨c, rfl⟩ : ∃ c, i = pos c := ⟨cellAt i, (pos_cellAt i).symm⟩
  have two : nextCell 0 (nextCell 0 c) = c := by
    rcases bad_cells c with rfl | rfl
    · rw [m1, m2]
    · rw [m2, m1]
  obtain ⟨h1, h2, h3⟩ := unit_apply A hA x c
  obtain ⟨k1, k2, k3⟩ := unit_apply A hA x (nextCell 0 c)
  rw [two] at k2 k3
  simp only [hz, Pi.zero_apply] at h1 h2 h3 k2 k3
  match a with
  | 0 => simpa using h1
  | 1 =>
    show x (1, pos c) = 0
    linear_combination (1 / 3 : ℂ) * h2 + (2 / 3 : ℂ) * k2
  | 2 =>
    show x (2, pos c) = 0
    linear_combination (1 / 3 : ℂ) * h3 + (2 / 3 : ℂ) * k3

/-- Two cells of vacuum along x with symmetry 1 and a current along x: there is a server, and the result is the field
of the whole problem. -/
example : ∃ (J x : VField badShape.size) (A : Mat3 badShape.size) (server : Problem → Fin 3 → NArr) (E : Fin 3 → NArr), J ≠ 0 ∧
    eFull badShape 1 unitGrid 1 (some 1) none none 0 0 = some A ∧ A *ᵥ x = (-Complex.I * 1) • J ∧
    solve server ![1, 0, 0] false ⟨1, badShape, unitGrid, arrays J, arrays (sh := badShape) 1, arrays (sh := badShape) 1,
      arrays (sh := badShape) 0, 0⟩ = some E ∧ field badShape E = x := by
  obtain ⟨A, hA⟩ := eFull_defined badShape 1 unitGrid 1 (some 1) none none 0
  have hu := unit_invertible A hA
  let J : VField badShape.size := fun p => if p.1 = 0 then 1 else 0
  let x : VField badShape.size := A⁻¹ *ᵥ ((-Complex.I * 1) • J)
  have hx : A *ᵥ x = (-Complex.I * 1) • J := by
    show A *ᵥ (A⁻¹ *ᵥ _) = _
    rw [Matrix.mulVec_mulVec, Matrix.mul_nonsing_inv _ hu, Matrix.one_mulVec]
  have s0 : ∀ ax : Fin 3, (![1, 0, 0] : Fin 3 → Nat) ax ≠ 0 → ax = 0 := by decide
  have hP : MirrorProblem ![1, 0, 0] unitGrid (1 : VField badShape.size) 1 := by
    refine ⟨by decide, ?_, by decide, fun _ _ _ _ => rfl, fun _ _ _ _ => rfl, fun _ _ _ _ => rfl, fun _ _ _ _ => rfl⟩
    intro ax hax
    have := s0 ax hax
    subst this
    exact ⟨1, rfl⟩
  have hJ : IsMirror ![1, 0, 0] (asField J) := by
    intro ax hax a c
    have := s0 ax hax
    subst this
    show (if a = 0 then (1 : ℂ) else 0) = sign 1 (a = 0) * (if a = 0 then 1 else 0)
    match a with
    | 0 => simp [sign]
    | 1 => simp
    | 2 => simp
  obtain ⟨E, h1, h2⟩ := symmetric_same_partial (fun _ a => (arrays x a).cut (half ![1, 0, 0] badShape)) ![1, 0, 0] (by decide) 1 unitGrid 1 1 J 0 0
    hP hJ A hA hu (fun Q _ => ⟨x, half_exists ![1, 0, 0] (by decide) 1 unitGrid 1 1 J hP hJ A hA hu x hx⟩) x hx
  refine ⟨J, x, A, _, E, ?_, hA, hx, h1, h2⟩
  intro h
  have := congrFun h (0, pos cell0)
  simp [J] at this

/-- Two cells of vacuum along x with symmetry 2 and a uniform current along y: the uniform field `i` along y is a solution
with the symmetry, and no server can make `solve` return it. -/
theorem symmetric_even_false :
    ∃ (A : Mat3 badShape.size) (x : VField badShape.size),
      eFull badShape 1 unitGrid 1 (some 1) none none 0 0 = some A ∧ A *ᵥ x = (-Complex.I * 1) • sheet ∧
      MirrorProblem ![2, 0, 0] unitGrid (1 : VField badShape.size) 1 ∧ IsMirror ![2, 0, 0] (asField sheet) ∧
      IsMirror ![2, 0, 0] (asField x) ∧
      ∀ (server : Problem → Fin 3 → NArr) (E : Fin 3 → NArr), (∀ Q a b, (server Q a).shape b = 1) →
        solve server ![2, 0, 0] false ⟨1, badShape, unitGrid, arrays sheet, arrays (sh := badShape) 1, arrays (sh := badShape) 1, arrays (sh := badShape) 0, 0⟩ = some E →
        field badShape E ≠ x := by
  obtain ⟨A, hA⟩ := eFull_defined badShape 1 unitGrid 1 (some 1) none none 0
  refine ⟨A, fun p => Complex.I * sheet p, hA, ?_, ?_, ?_, ?_, ?_⟩
  · obtain ⟨⟨ce, hce⟩, ⟨ch, hch⟩⟩ := curl_defined badShape unitGrid 0
    rw [eFull, hce, hch] at hA
    simp only [Option.bind_some, Option.map_some, Option.some.injEq, maskMat, Matrix.mul_one, Matrix.one_mul] at hA
    subst hA
    set x : VField badShape.size := fun p => Complex.I * sheet p
    have flat : ∀ b a c, fwdDiff (sh := badShape) unitGrid.e 0 b (asField x a) c = 0 := by
      intro b a c
      rw [fwd_zero]
      show (Complex.I * (if a = 1 then 1 else 0) - Complex.I * (if a = 1 then 1 else 0)) / _ = 0
      simp
    have hz : ce *ᵥ x = 0 := by
      funext p
      obtain ⟨a, i⟩ := p
      obtain ⟨c, rfl⟩ : ∃ c, i = pos c := ⟨cellAt i, (pos_cellAt i).symm⟩
      have H := curl_e_pointwise unitGrid 0 ce hce (asField x) x (asField_isVec x) c
      match a with
      | 0 => rw [H.1, flat, flat, sub_zero]; rfl
      | 1 => rw [H.2.1, flat, flat, sub_zero]; rfl
      | 2 => rw [H.2.2, flat, flat, sub_zero]; rfl
    rw [Matrix.sub_mulVec, ← Matrix.mulVec_mulVec, hz, Matrix.mulVec_zero, zero_sub, one_pow, one_smul]
    funext p
    rw [Pi.neg_apply, Matrix.mulVec_diagonal]
    simp [x]
  · have s0 : ∀ ax : Fin 3, (![2, 0, 0] : Fin 3 → Nat) ax ≠ 0 → ax = 0 := by decide
    refine ⟨by decide, ?_, by decide, fun _ _ _ _ => rfl, fun _ _ _ _ => rfl, fun _ _ _ _ => rfl, fun _ _ _ _ => rfl⟩
    intro ax hax
    have := s0 ax hax
    subst this
    exact ⟨1, rfl⟩
  · intro ax hax a c
    have s0 : ∀ ax : Fin 3, (![2, 0, 0] : Fin 3 → Nat) ax ≠ 0 → ax = 0 := by decide
    have := s0 ax hax
    subst this
    show (if a = 1 then (1 : ℂ) else 0) = sign 2 (a = 0) * (if a = 1 then 1 else 0)
    match a with
    | 0 => simp
    | 1 => simp [sign]
    | 2 => simp
  · intro ax hax a c
    have s0 : ∀ ax : Fin 3, (![2, 0, 0] : Fin 3 → Nat) ax ≠ 0 → ax = 0 := by decide
    have := s0 ax hax
    subst this
    show Complex.I * (if a = 1 then (1 : ℂ) else 0) = sign 2 (a = 0) * (Complex.I * (if a = 1 then 1 else 0))
    match a with
    | 0 => simp
    | 1 => simp [sign]
    | 2 => simp
  · intro server E hsh hE hEx
    simp only [solve, Bool.false_eq_true, reduceIte, Option.some.injEq] at hE
    have hz := (fun Q => even_wall_zero ![2, 0, 0] (by decide) (fun _ => 1) (by intro b; exact Nat.one_pos) (server Q)
      (fun a b => hsh Q a b) 0 1 (by decide) (by decide) (fun b => (cell0 b).val) rfl)
    have hz := (congrArg (fun F : Fin 3 → NArr => (F 1).val fun b => (cell0 b).val) hE).symm.trans (hz _)
    have h1 := congrFun hEx (1, pos cell0)
    have h2 := field_at (sh := badShape) E 1 cell0
    rw [hz] at h2
    have h3 : field badShape E (1, pos cell0) = 0 := h2
    rw [h3] at h1
    simp only [sheet, reduceIte, mul_one] at h1
    exact Complex.I_ne_zero h1.symm

/-- An odd number of cells gives back one cell more. -/
theorem symmetric_odd_false (s : Fin 3 → Nat) (hv : ∀ ax, s ax = 0 ∨ s ax = 1 ∨ s ax = 2) (P : Problem) (hp : ∀ b, 0 < P.shape b)
    (server : Problem → Fin 3 → NArr) (hs : ∀ Q a, (server Q a).shape = Q.shape) (ax : Fin 3) (hax : s ax ≠ 0)
    (hodd : P.shape ax % 2 = 1) (E : Fin 3 → NArr) (hE : solve server s false P = some E) (a : Fin 3) :
    (E a).shape ax = P.shape ax + 1 := by
  simp only [solve, Bool.false_eq_true, reduceIte, Option.some.injEq] at hE
  rw [← hE, (applySymmetry_val s hv (P.cut s).shape (fun b => by
    show 0 < P.shape b - sliceStart (s b) (P.shape b)
    have := hp b
    unfold sliceStart
    split <;> omega) _ (fun a b => by rw [hs]) a).1]
  simp only [ne_eq, hax, not_false_eq_true, reduceIte]
  show 2 * (P.shape ax - sliceStart (s ax) (P.shape ax)) = _
  have h12 : s ax = 1 ∨ s ax = 2 := (hv ax).resolve_left hax
  simp only [sliceStart, h12, reduceIte]
  omega

/-- The adjoint simulation with a symmetry raises an error for every axis of more than two cells: the field of the whole
grid is multiplied with an array of the half. -/
theorem symmetric_adjoint_false (s : Fin 3 → Nat) (hv : ∀ ax, s ax = 0 ∨ s ax = 1 ∨ s ax = 2) (P : Problem) (hp : ∀ b, 0 < P.shape b)
    (server : Problem → Fin 3 → NArr) (hs : ∀ Q a, (server Q a).shape = Q.shape) (ax : Fin 3) (hax : s ax ≠ 0)
    (h3 : 3 ≤ P.shape ax) : solve server s true P = none := by
  have h12 : s ax = 1 ∨ s ax = 2 := (hv ax).resolve_left hax
  have key := (applySymmetry_val s hv (P.cut s).shape (fun b => by
    show 0 < P.shape b - sliceStart (s b) (P.shape b)
    have := hp b
    unfold sliceStart
    split <;> omega) (server (P.cut s).adjoint) (fun a b => by rw [hs]; rfl) 0).1 ax
  simp only [ne_eq, hax, not_false_eq_true, reduceIte] at key
  have hlen : (P.cut s).shape ax = P.shape ax - P.shape ax / 2 := by
    show P.shape ax - sliceStart (s ax) (P.shape ax) = _
    simp [sliceStart, h12]
  have hnone : ∀ Y : NArr, Y.shape = (P.cut s).shape → (applySymmetry s (server (P.cut s).adjoint) 0).multiply Y = none := by
    intro Y hY
    unfold NArr.multiply
    rw [if_neg]
    intro h
    have := h ax
    rw [key, hY, hlen] at this
    omega
  simp only [solve, reduceIte]
  rw [hnone _ rfl]

end Verif.Fdfd.Half
