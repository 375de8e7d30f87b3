import Verif.Cubic.Creator
import Verif.Cubic.ParamProps
import Mathlib.Tactic.Positivity
import Mathlib.Tactic.FieldSimp
import Mathlib.Tactic.Linarith

/-!
# The grids of the creators are centred arithmetic progressions
-/

set_option linter.unusedVariables false
set_option linter.unusedSimpArgs false

namespace Verif.Cubic

/-- `m` points from `a`, a distance `s` apart. -/
noncomputable def prog (a s : ℝ) (m : Nat) : List ℝ := (List.range m).map fun (i : Nat) => a + i * s

theorem prog_length (a s : ℝ) (m : Nat) : (prog a s m).length = m := by simp [prog]

theorem prog_getD (a s : ℝ) {m i : Nat} (h : i < m) : (prog a s m).getD i 0 = a + i * s := by
  unfold prog
  rw [List.getD_eq_getElem _ _ (by simpa using h)]
  simp

theorem prog_first (a s : ℝ) {m : Nat} (h : 0 < m) : pyGet 0 (prog a s m) 0 = a := by
  have := pyGet_nat (0 : ℝ) (prog a s m) 0
  rw [prog_getD _ _ h] at this
  simpa using this

theorem pyGet_last (xs : List ℝ) : pyGet 0 xs (-1) = xs.getD (xs.length - 1) 0 := by
  have := pyGet_neg (0 : ℝ) xs 1 (by norm_num)
  simpa using this

theorem prog_last (a s : ℝ) {m : Nat} (h : 0 < m) : pyGet 0 (prog a s m) (-1) = a + (m - 1) * s := by
  rw [pyGet_last, prog_length, prog_getD _ _ (by omega)]
  rw [Nat.cast_sub h]; simp

theorem centre_prog (a s : ℝ) {m : Nat} (h : 0 < m) :
    centre (prog a s m) = prog (-((m - 1) * s / 2)) s m := by
  unfold centre
  rw [prog_last _ _ h, prog_first _ _ h]
  unfold prog
  rw [List.map_map]
  refine List.map_congr_left fun i _ => ?_
  simp only [Function.comp]
  ring

theorem prog_increasing (a : ℝ) {s : ℝ} (hs : 0 < s) (m : Nat) : Increasing (prog a s m) := by
  intro i j hij hj
  rw [prog_length] at hj
  rw [prog_getD _ _ hj, prog_getD _ _ (hij.trans hj)]
  have : (i : ℝ) < j := by exact_mod_cast hij
  nlinarith

theorem prog_mirrored (s : ℝ) (m : Nat) : Mirrored (prog (-((m - 1) * s / 2)) s m) 0 := by
  intro i hi
  rw [prog_length] at hi ⊢
  rw [prog_getD _ _ (by omega), prog_getD _ _ hi, Nat.cast_sub (by omega : i ≤ m - 1),
    Nat.cast_sub (by omega : 1 ≤ m)]
  push_cast
  ring

theorem prog_repeating (a s : ℝ) (m L : Nat) : Repeating (prog a s m) L (L * s) := by
  intro i hi
  rw [prog_length] at hi
  rw [prog_getD _ _ hi, prog_getD _ _ (Nat.lt_of_le_of_lt (Nat.le_add_right _ _) hi)]
  push_cast
  ring

theorem npArange_prog (a b s : ℝ) : npArange a b s = prog a s ⌈(b - a) / s⌉₊ := rfl

theorem linspace_prog (a b : ℝ) (n : Nat) : linspace a b n = prog a ((b - a) / (n - 1)) n := by
  unfold linspace prog
  split
  · rename_i h; subst h; simp
  · rfl

theorem fineGrid_prog {n : Nat} (hn : 0 < n) : fineGrid n = prog (-((n - 1) / 2)) 1 n := by
  unfold fineGrid
  have h : (n / 2 - -n / 2 : ℝ) / 1 = n := by ring
  rw [npArange_prog, h, Nat.ceil_natCast, centre_prog _ _ hn, mul_one]

theorem coarseOpen_prog (n : Nat) {u : ℝ} (hu : 0 < u) :
    coarseOpen n u = prog (-(((⌈n / u⌉₊ + 2 : Nat) - 1) * u / 2)) u (⌈n / u⌉₊ + 2) := by
  unfold coarseOpen
  have h : (n / 2 + u - (-n / 2 - u) : ℝ) / u = n / u + (2 : Nat) := by
    field_simp; push_cast; ring
  rw [npArange_prog, h, Nat.ceil_add_natCast (by positivity), centre_prog _ _ (by omega)]

theorem npRound_nonneg {x : ℝ} (hx : 0 ≤ x) : 0 ≤ npRound x := by
  have := Int.floor_nonneg.2 hx
  unfold npRound
  split_ifs <;> omega

/-- `np.round` gives an integer at most one half away. -/
theorem npRound_near (x : ℝ) : |x - npRound x| ≤ 1 / 2 := by
  have h1 := Int.floor_le x
  have h2 := Int.lt_floor_add_one x
  unfold npRound
  rw [abs_le]
  split_ifs <;> push_cast <;> constructor <;> linarith

/-- The grid of an axis with periods and `N` points per period. -/
theorem linspace_grid {n N p : Nat} (hn : 0 < n) :
    centre (linspace (pyGet 0 (fineGrid n) 0) (pyGet 0 (fineGrid n) (-1) + 1) (N + 1)) =
      prog (-(((N + 1 : Nat) - 1) * ((n : ℝ) / N) / 2)) ((n : ℝ) / N) (N + 1) := by
  rw [fineGrid_prog hn, prog_first _ _ hn, prog_last _ _ hn, linspace_prog, centre_prog _ _ (by omega)]
  have : (-((n - 1) / 2) + ((n : ℝ) - 1) * 1 + 1 - -((n - 1) / 2)) / ((N + 1 : Nat) - 1) = n / N := by
    push_cast; congr 1 <;> ring
  rw [this]

/-- Coarse points along an axis with `n` pixels, `u` pixels between them, `p` periods. -/
noncomputable def points (n : Nat) (u : ℝ) (p : Nat) : Nat :=
  if p = 0 then ⌈n / u⌉₊ + 2 else (npRound (n / (p * u))).toNat * p + 1

/-- Coarse points along an axis for `create_cubic_or_hermite_levelset`. -/
noncomputable def pointsInvdes (n : Nat) (u : ℝ) (p : Nat) : Nat :=
  if p = 0 then ⌈n / u⌉₊ + 2 else (npRound ((n - 1) / u)).toNat + 1

/-- The distance between coarse points. -/
noncomputable def spacing (n : Nat) (u : ℝ) (p m : Nat) : ℝ := if p = 0 then u else n / (m - 1 : Nat)

/-- The coarse grid has `m` points. -/
noncomputable def gridOf (n : Nat) (u : ℝ) (p m : Nat) : List ℝ :=
  prog (-((m - 1) * spacing n u p m / 2)) (spacing n u p m) m

theorem coarseCompat_eq {n : Nat} (hn : 0 < n) {u : ℝ} (hu : 0 < u) (p : Nat) :
    coarseCompat n u p = gridOf n u p (points n u p) := by
  unfold coarseCompat gridOf points spacing
  by_cases hp : p = 0
  · subst hp
    simp only [ne_eq, not_true_eq_false, if_false, if_true]
    exact coarseOpen_prog n hu
  · rw [if_pos hp, if_neg hp, if_neg hp]
    have h : (pyGet 0 (fineGrid n) (-1) + 1 - pyGet 0 (fineGrid n) 0 : ℝ) = n := by
      rw [fineGrid_prog hn, prog_first _ _ hn, prog_last _ _ hn]; ring
    have hN := npRound_nonneg (x := n / (p * u)) (by positivity)
    have hnum : (npRound (n / (p * u)) * p + 1).toNat = (npRound (n / (p * u))).toNat * p + 1 := by
      obtain ⟨N, hN'⟩ := Int.eq_ofNat_of_zero_le hN
      rw [hN']
      have : ((N : Int) * p + 1) = ((N * p + 1 : Nat) : Int) := by push_cast; ring
      rw [this, Int.toNat_natCast, Int.toNat_natCast]
    simp only [h, hnum]
    rw [linspace_grid (p := p) hn]
    simp only [Nat.add_sub_cancel]

theorem coarseInvdes_eq {n : Nat} (hn : 0 < n) {u : ℝ} (hu : 0 < u) (p : Nat) :
    coarseInvdes n u p = gridOf n u p (pointsInvdes n u p) := by
  unfold coarseInvdes gridOf pointsInvdes spacing
  by_cases hp : p = 0
  · subst hp
    simp only [ne_eq, not_true_eq_false, if_false, if_true]
    exact coarseOpen_prog n hu
  · rw [if_pos hp, if_neg hp, if_neg hp]
    have h : (pyGet 0 (fineGrid n) (-1) - pyGet 0 (fineGrid n) 0 : ℝ) = n - 1 := by
      rw [fineGrid_prog hn, prog_first _ _ hn, prog_last _ _ hn]; ring
    have h1 : (1 : ℝ) ≤ n := by exact_mod_cast hn
    have hN := npRound_nonneg (x := (n - 1) / u) (div_nonneg (by linarith) hu.le)
    have hnum : (npRound ((n - 1) / u) + 1).toNat = (npRound ((n - 1) / u)).toNat + 1 := by omega
    simp only [h, hnum]
    rw [linspace_grid (p := p) hn]
    simp only [Nat.add_sub_cancel]

/-- What a coarse grid with `m` points needs. -/
def Enough' (n : Nat) (u : ℝ) (p m : Nat) : Prop :=
  if p = 0 then m = ⌈n / u⌉₊ + 2 else 2 ≤ m ∧ (m - 1) % p = 0

section
variable {n : Nat} {u : ℝ} {p m : Nat}

theorem spacing_pos (hn : 0 < n) (hu : 0 < u) (h : Enough' n u p m) : 0 < spacing n u p m := by
  unfold spacing
  unfold Enough' at h
  split
  · exact hu
  · rename_i hp
    rw [if_neg hp] at h
    have : (0 : ℝ) < (m - 1 : Nat) := by exact_mod_cast (by omega : 0 < m - 1)
    have : (0 : ℝ) < n := by exact_mod_cast hn
    positivity

theorem three_le (h : Enough' n u p m) (hn : 0 < n) (hu : 0 < u) :
    2 ≤ m ∧ (p = 0 → 3 ≤ m) := by
  unfold Enough' at h
  split at h
  · have : 0 < ⌈(n : ℝ) / u⌉₊ := Nat.ceil_pos.2 (by positivity)
    omega
  · omega

/-- The length of the coarse grid covers the pixels. -/
theorem covers (hn : 0 < n) (hu : 0 < u) (h : Enough' n u p m) :
    (n : ℝ) ≤ (m - 1) * spacing n u p m := by
  have hm := (three_le h hn hu).1
  unfold spacing
  unfold Enough' at h
  split
  · rename_i hp
    rw [if_pos hp] at h
    have h1 := Nat.le_ceil ((n : ℝ) / u)
    rw [div_le_iff₀ hu] at h1
    have h2 : (m : ℝ) = ⌈(n : ℝ) / u⌉₊ + 2 := by rw [h]; push_cast; ring
    rw [h2]
    nlinarith
  · have : (0 : ℝ) < (m - 1 : Nat) := by exact_mod_cast (by omega : 0 < m - 1)
    rw [Nat.cast_sub (by omega : 1 ≤ m), Nat.cast_one] at this ⊢
    rw [mul_div_cancel₀ _ this.ne']

theorem gridOf_length : (gridOf n u p m).length = m := prog_length _ _ _

theorem gridOf_increasing (hn : 0 < n) (hu : 0 < u) (h : Enough' n u p m) :
    Increasing (gridOf n u p m) := prog_increasing _ (spacing_pos hn hu h) _

theorem gridOf_fits (hn : 0 < n) (hu : 0 < u) (h : Enough' n u p m) (s : Bool) :
    Fits (gridOf n u p m).length s p := by
  rw [gridOf_length]
  have := three_le h hn hu
  refine ⟨by omega, fun _ => this.1, fun hp => ?_⟩
  unfold Enough' at h
  rw [if_neg hp] at h
  exact h

theorem fine_getD (hn : 0 < n) {a : Nat} (ha : a < n) : (fineGrid n).getD a 0 = a - (n - 1) / 2 := by
  rw [fineGrid_prog hn, prog_getD _ _ ha]; ring

theorem fine_length (hn : 0 < n) : (fineGrid n).length = n := by
  rw [fineGrid_prog hn, prog_length]

theorem gridOf_inside (hn : 0 < n) (hu : 0 < u) (h : Enough' n u p m) {a : Nat} (ha : a < n) :
    Inside (gridOf n u p m) ((fineGrid n).getD a 0) := by
  have hm := three_le h hn hu
  have hc := covers hn hu h
  unfold Inside
  rw [gridOf_length, fine_getD hn ha]
  unfold gridOf
  rw [prog_getD _ _ (by omega), prog_getD _ _ (by omega), Nat.cast_sub (by omega : 1 ≤ m)]
  have h1 : (a : ℝ) + 1 ≤ n := by exact_mod_cast ha
  have h2 : (0 : ℝ) ≤ a := Nat.cast_nonneg a
  push_cast
  constructor <;> linarith

theorem gridOf_ends (hn : 0 < n) (hu : 0 < u) (h : Enough' n u p m) :
    pyGet 0 (gridOf n u p m) 0 ≤ pyGet 0 (fineGrid n) 0 ∧
      pyGet 0 (fineGrid n) (-1) ≤ pyGet 0 (gridOf n u p m) (-1) := by
  have e0 : ∀ l : List ℝ, pyGet 0 l 0 = l.getD 0 0 := fun l => by simpa using pyGet_nat (0 : ℝ) l 0
  rw [pyGet_last, pyGet_last, e0, e0, fine_length hn]
  exact ⟨(gridOf_inside hn hu h hn).1, (gridOf_inside hn hu h (by omega : n - 1 < n)).2⟩

theorem gridOf_mirrored : Mirrored (gridOf n u p m) 0 := prog_mirrored _ _

/-- The fine points are mirror images of each other. -/
theorem fine_mirror (hn : 0 < n) {a : Nat} (ha : a < n) :
    (fineGrid n).getD (n - 1 - a) 0 = 0 - (fineGrid n).getD a 0 := by
  rw [fine_getD hn (by omega), fine_getD hn ha, Nat.cast_sub (by omega : a ≤ n - 1),
    Nat.cast_sub (by omega : 1 ≤ n)]
  push_cast; ring

/-- The coarse coordinates repeat after a period of pixels. -/
theorem gridOf_repeating (hn : 0 < n) (hu : 0 < u) (h : Enough' n u p m) (hp : p ≠ 0) :
    Repeating (gridOf n u p m) (((gridOf n u p m).length - 1) / p) ((n : ℝ) / p) := by
  have := prog_repeating (-((m - 1) * spacing n u p m / 2)) (spacing n u p m) m ((m - 1) / p)
  rw [gridOf_length]
  have e : (((m - 1) / p : Nat) : ℝ) * spacing n u p m = n / p := by
    unfold Enough' at h
    rw [if_neg hp] at h
    obtain ⟨k, hk⟩ := Nat.dvd_of_mod_eq_zero h.2
    have hp' : (p : ℝ) ≠ 0 := by exact_mod_cast hp
    have hk0 : (k : ℝ) ≠ 0 := by
      have : k ≠ 0 := by rintro rfl; simp at hk; omega
      exact_mod_cast this
    unfold spacing
    rw [if_neg hp, hk, Nat.mul_div_cancel_left _ (Nat.pos_of_ne_zero hp)]
    push_cast
    field_simp
  rw [e] at this
  exact this

end

/-! ## The number of variables -/

theorem varShape_freePoints (m : Nat) (s : Bool) (p : Nat) : varShape m s p = freePoints m s p := by
  unfold varShape freePoints
  cases p with
  | zero => cases s <;> simp
  | succ p =>
    have h : max (p + 1) 1 = p + 1 := by omega
    cases s
    · simp [h]
    · simp only [ne_eq, Nat.add_eq_zero_iff, one_ne_zero, and_false, not_false_eq_true, if_true, h]

theorem freePoints_pos {n p : Nat} {s : Bool} (h : Fits n s p) : 0 < freePoints n s p := by
  have := srcIdx_lt h h.pos
  omega

end Verif.Cubic
