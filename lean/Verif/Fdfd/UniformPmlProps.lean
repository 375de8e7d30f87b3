import Verif.Fdfd.UniformPml
import Verif.Fdfd.GridProps
import Mathlib.Tactic.Linarith
import Mathlib.Tactic.Positivity
import Mathlib.Tactic.FieldSimp
import Mathlib.Algebra.Order.BigOperators.Group.Finset
import Mathlib.Algebra.BigOperators.Field
import Mathlib.Algebra.BigOperators.Intervals
/-
C131: `uniform_grid_scpml` makes unit cells with absorbing layers. Cells outside the layers have the width one, all real parts are one, the
layers only damp. But it is not the grid that `stretch_with_scpml` makes from unit cells: the factor is larger by the number of cells of the
layer, and the two sets of widths are exchanged.
-/
namespace Verif.Fdfd.UniformPml
open Verif.Fdfd

/-- **C131.** There is one width per cell, in both sets. -/
theorem uniform_length (shape : Fin 3 → Nat) (th : Fin 3 → Int) (omega eps : ℝ) (sf : Option (ℝ → ℝ)) (k : Fin 3) :
    (uniformGridScpml shape th omega eps sf k).1.length = shape k ∧ (uniformGridScpml shape th omega eps sf k).2.length = shape k := by
  unfold uniformGridScpml uniformAxis
  split <;> simp

theorem widths_at {sf : ℝ → ℝ} {s : Nat} {th : Int} {omega eps : ℝ} (hth : 0 < th) {i : Nat} (hi : i < s) :
    (uniformAxis sf s th omega eps).1[i]? = some (1 + Complex.I * (sf (layerDist i s th) : ℂ) / ((√eps * omega : ℝ) : ℂ)) ∧
    (uniformAxis sf s th omega eps).2[i]? = some (1 + Complex.I * (sf (layerDist (i + 1 / 2) s th) : ℂ) / ((√eps * omega : ℝ) : ℂ)) := by
  unfold uniformAxis
  rw [if_pos hth]
  simp [hi]

theorem factor_parts (x y : ℝ) : (1 + Complex.I * (x : ℂ) / (y : ℂ)).re = 1 ∧ (1 + Complex.I * (x : ℂ) / (y : ℂ)).im = x / y := by
  have : (1 + Complex.I * (x : ℂ) / (y : ℂ)) = ⟨1, x / y⟩ := by
    rw [mul_div_assoc, ← Complex.ofReal_div]
    apply Complex.ext <;> simp
  rw [this]
  exact ⟨rfl, rfl⟩

theorem layerDist_zero {u n t : ℝ} (h₁ : t ≤ u) (h₂ : u ≤ n - t) : layerDist u n t = 0 := by
  rw [layerDist, max_eq_right (by linarith), max_eq_right (by linarith)]
  simp

theorem layerDist_nonneg (u n : ℝ) {t : ℝ} (ht : 0 < t) : 0 ≤ layerDist u n t := by
  unfold layerDist
  positivity

/-- **C131.** Cells outside the layers have the width one. -/
theorem uniform_interior (shape : Fin 3 → Nat) (th : Fin 3 → Int) (omega eps : ℝ) (k : Fin 3) (i : Nat)
    (h₁ : th k ≤ i) (h₂ : (i : Int) < shape k - max 0 (th k)) :
    (uniformGridScpml shape th omega eps none k).1[i]? = some 1 ∧ (uniformGridScpml shape th omega eps none k).2[i]? = some 1 := by
  have hi : i < shape k := by omega
  unfold uniformGridScpml
  by_cases hth : 0 < th k
  · have e₁ : ((th k : Int) : ℝ) ≤ (i : ℝ) := by exact_mod_cast h₁
    have e₂ : (i : ℝ) + 1 ≤ (shape k : ℝ) - ((th k : Int) : ℝ) := by
      have : (i : Int) + 1 ≤ shape k - th k := by omega
      exact_mod_cast this
    obtain ⟨a, b⟩ := widths_at (sf := (none : Option (ℝ → ℝ)).getD (sFactor (-16) 4)) (omega := omega) (eps := eps) hth hi
    rw [a, b, layerDist_zero e₁ (by linarith), layerDist_zero (by linarith) (by linarith)]
    simp [sFactor]
  · unfold uniformAxis
    rw [if_neg hth]
    simp [hi]

/-- **C131.** All widths have the real part one, and for positive frequencies an imaginary part that damps. -/
theorem uniform_damps (shape : Fin 3 → Nat) (th : Fin 3 → Int) {omega eps : ℝ} (ho : 0 < omega) (lnR : ℝ) (hR : lnR ≤ 0) (m : Nat)
    (k : Fin 3) (x : ℂ)
    (hx : x ∈ (uniformGridScpml shape th omega eps (some (sFactor lnR m)) k).1 ∨
      x ∈ (uniformGridScpml shape th omega eps (some (sFactor lnR m)) k).2) : x.re = 1 ∧ x.im ≤ 0 := by
  have key : ∀ {u : ℝ}, 0 < th k → (1 + Complex.I * ((sFactor lnR m (layerDist u (shape k) (th k)) : ℝ) : ℂ) / ((√eps * omega : ℝ) : ℂ)).re = 1 ∧
      (1 + Complex.I * ((sFactor lnR m (layerDist u (shape k) (th k)) : ℝ) : ℂ) / ((√eps * omega : ℝ) : ℂ)).im ≤ 0 := by
    intro u hth
    refine ⟨(factor_parts _ _).1, ?_⟩
    rw [(factor_parts _ _).2]
    have hd := layerDist_nonneg u (shape k) (t := ((th k : Int) : ℝ)) (by exact_mod_cast hth)
    apply div_nonpos_of_nonpos_of_nonneg
    · unfold sFactor
      apply mul_nonpos_of_nonpos_of_nonneg
      · have : (0 : ℝ) ≤ (m : ℝ) + 1 := by positivity
        have := mul_nonpos_of_nonneg_of_nonpos this hR
        linarith
      · positivity
    · positivity
  unfold uniformGridScpml uniformAxis at hx
  dsimp only [Option.getD_some] at hx
  split at hx
  · rename_i hth
    rcases hx with hx | hx
    · obtain ⟨i, -, rfl⟩ := List.mem_map.1 hx
      exact key hth
    · obtain ⟨i, -, rfl⟩ := List.mem_map.1 hx
      exact key hth
  · have : x = 1 := by
      rcases hx with hx | hx
      · exact (List.mem_replicate.1 hx).2
      · exact (List.mem_replicate.1 hx).2
    subst this
    simp

example : (1 : ℂ) ∈ (uniformGridScpml (fun _ => 5) (fun _ => 2) 1 1 (some (sFactor (-16) 4)) 0).1 := by
  refine List.mem_of_getElem? (i := 2) ?_
  have := (uniform_interior (fun _ => 5) (fun _ => 2) 1 1 0 2 (by decide) (by decide)).1
  exact this

/-! ### Stretching unit cells -/

theorem posAt_succ (v : List ℂ) {k : Nat} {x : ℂ} (h : v[k]? = some x) : posAt v (k + 1) = posAt v k + x := by
  unfold posAt
  rw [List.take_add_one, h]
  simp

theorem unit_pos (v : List ℂ) (j c : Nat) (h : ∀ k, j ≤ k → k < j + c → v[k]? = some 1) : ∀ m, m ≤ c → posAt v (j + m) = posAt v j + m
  | 0, _ => by simp
  | m + 1, hm => by
    rw [← Nat.add_assoc, posAt_succ v (h (j + m) (by omega) (by omega)), unit_pos v j c h m (by omega)]
    push_cast
    ring

/-- The distance into the layer that `stretch_with_scpml` uses, for unit cells. -/
noncomputable def unitDist (front : Bool) (n th : Nat) (u : ℝ) : ℝ := if front then (th - u) / th else (u - (n - th)) / th

theorem stretch_unit {a b : List ℂ} {front : Bool} {omega : ℂ} {th : Nat} {ab : List ℂ × List ℂ}
    (h : stretchArrays a b front omega th = some ab)
    (h1 : ∀ k, k < a.length → inLayer front th a.length k → a[k]? = some 1 ∧ b[k]? = some 1) (i : Nat) (hn : i < a.length)
    (hi : inLayer front th a.length i) :
    ab.1[i]? = some (1 + Complex.I * sFunction ((unitDist front a.length th (i + 1 / 2) : ℝ) : ℂ) / (th : ℂ) / (omega.re : ℂ)) ∧
    ab.2[i]? = some (1 + Complex.I * sFunction ((unitDist front a.length th i : ℝ) : ℂ) / (th : ℂ) / (omega.re : ℂ)) := by
  have hth := (stretchArrays_some h).1
  have hle : th ≤ a.length := by omega
  unfold stretchArrays at h
  dsimp only at h
  rw [if_neg hth] at h
  cases h
  have hs : (if front = true then decide (i < th) else decide (a.length - th ≤ i)) = true := by
    unfold inLayer at hi
    cases front <;> simpa using hi
  dsimp only
  rw [stretchArr_get, stretchArr_get, (h1 i hn hi).1, (h1 i hn hi).2, Option.map_some, Option.map_some, hs, if_pos rfl, if_pos rfl, one_mul,
    one_mul]
  cases front with
  | true =>
    have hp := unit_pos a 0 th (fun k _ hk => (h1 k (by omega) (show k < th by omega)).1)
    have hi' : i < th := hi
    have p0 : posAt a 0 = 0 := by simp [posAt]
    have pt : posAt a th = th := by have := hp th (le_refl _); rwa [Nat.zero_add, p0, zero_add] at this
    have pi : posAt a i = i := by have := hp i (by omega); rwa [Nat.zero_add, p0, zero_add] at this
    have pi1 : posAt a (i + 1) = (i : ℂ) + 1 := by
      have := hp (i + 1) (by omega)
      rw [Nat.zero_add, p0, zero_add] at this
      rw [this]; push_cast; rfl
    have pa : posA a i = (i : ℂ) + 1 / 2 := by rw [posA, pi, pi1]; ring
    simp only [if_true, p0, pt, pi, pa, sub_zero, unitDist]
    push_cast
    exact ⟨rfl, rfl⟩
  | false =>
    have hp := unit_pos a (a.length - th) th (fun k hk hk' => (h1 k (by omega) (show a.length - th ≤ k by omega)).1)
    have hi' : a.length - th ≤ i := hi
    obtain ⟨m, rfl⟩ := Nat.exists_eq_add_of_le hi'
    have pn : posAt a a.length = posAt a (a.length - th) + th := by
      have := hp th (le_refl _)
      rwa [show a.length - th + th = a.length by omega] at this
    have pi := hp m (by omega)
    have pi1 := hp (m + 1) (by omega)
    rw [← Nat.add_assoc] at pi1
    have pa : posA a (a.length - th + m) = posAt a (a.length - th) + ((m : ℂ) + 1 / 2) := by
      rw [posA, pi, pi1]; push_cast; ring
    simp only [Bool.false_eq_true, if_false, pn, pi, pa, add_sub_cancel_left, unitDist]
    push_cast [Nat.cast_sub hle]
    constructor <;> congr 6 <;> ring

theorem layerDist_front {n th i : Nat} {u : ℝ} (hn : 2 * th ≤ n) (hi : i < th) (h₂ : u < i + 1) :
    layerDist u n th = unitDist true n th u := by
  have e1 : (i : ℝ) + 1 ≤ th := by exact_mod_cast hi
  have e2 : 2 * (th : ℝ) ≤ n := by exact_mod_cast hn
  rw [layerDist, unitDist, if_pos rfl, max_eq_left (by linarith), max_eq_right (by linarith), add_zero]

theorem layerDist_back {n th i : Nat} {u : ℝ} (hn : 2 * th ≤ n) (hi : n - th ≤ i) (h₁ : (i : ℝ) ≤ u) :
    layerDist u n th = unitDist false n th u := by
  have e1 : (n : ℝ) - th ≤ i := by
    have : n ≤ i + th := by omega
    have : (n : ℝ) ≤ i + th := by exact_mod_cast this
    linarith
  have e2 : 2 * (th : ℝ) ≤ n := by exact_mod_cast hn
  rw [layerDist, unitDist, if_neg (by decide), max_eq_right (by linarith), max_eq_left (by linarith), zero_add]

/-- The widths of unit cells with a layer of `th` cells at each end, as `stretch_with_scpml` makes them (the front first). -/
noncomputable def stretchedUnit (s th : Nat) (omega : ℂ) : Option (List ℂ × List ℂ) :=
  (stretchArrays (List.replicate s 1) (List.replicate s 1) true omega th).bind fun ab => stretchArrays ab.1 ab.2 false omega th

theorem thick (th : Nat) (h0 : 0 < th) (r : ℝ) (x y : ℝ) (hx : x = y) :
    (1 : ℂ) + Complex.I * ((sFactor (-16) 4 x : ℝ) : ℂ) / ((√1 * r : ℝ) : ℂ) =
      1 + th * ((1 + Complex.I * sFunction (y : ℂ) / (th : ℂ) / (r : ℂ)) - 1) := by
  subst hx
  have ht : (th : ℂ) ≠ 0 := by exact_mod_cast h0.ne'
  rw [Real.sqrt_one, one_mul, sFactor, sFunction]
  push_cast
  rw [add_sub_cancel_left, div_div, mul_comm (th : ℂ) (r : ℂ), ← div_div, mul_div_cancel₀ _ ht]

/-- **C131.** How the grid differs from the stretched grid of unit cells: what is added to one is larger by the number of cells of the
layer, and `dx_a` has the values of `dx_b` and vice versa. -/
theorem uniform_vs_stretched_partial (s th : Nat) (omega : ℂ) (h0 : 0 < th) (hs : 2 * th ≤ s) :
    ∃ ab, stretchedUnit s th omega = some ab ∧ ∀ i, i < s → ∃ x y, ab.1[i]? = some x ∧ ab.2[i]? = some y ∧
      (uniformAxis (sFactor (-16) 4) s th omega.re 1).1[i]? = some (1 + th * (y - 1)) ∧
      (uniformAxis (sFactor (-16) 4) s th omega.re 1).2[i]? = some (1 + th * (x - 1)) := by
  have hdef : ∀ (a b : List ℂ) (f : Bool), th ≤ a.length → ∃ ab, stretchArrays a b f omega th = some ab := by
    intro a b f h
    unfold stretchArrays
    dsimp only
    rw [if_neg (by omega)]
    exact ⟨_, rfl⟩
  obtain ⟨ab1, e1⟩ := hdef (List.replicate s 1) (List.replicate s 1) true (by simp; omega)
  have l1 := stretchArrays_length e1
  rw [List.length_replicate] at l1
  obtain ⟨ab, e2⟩ := hdef ab1.1 ab1.2 false (by rw [l1.1]; omega)
  have rep : ∀ k, k < s → (List.replicate s (1 : ℂ))[k]? = some 1 := by intro k hk; simp [hk]
  have out1 : ∀ k, k < s → th ≤ k → ab1.1[k]? = some 1 ∧ ab1.2[k]? = some 1 := by
    intro k hk hk'
    have := stretchArrays_outside e1 k (by simp only [inLayer, if_true]; omega)
    rw [this.1, this.2, rep k hk]
    exact ⟨rfl, rfl⟩
  refine ⟨ab, by rw [stretchedUnit, e1]; exact e2, fun i hi => ?_⟩
  have hthI : (0 : Int) < (th : Int) := by exact_mod_cast h0
  obtain ⟨wa, wb⟩ := widths_at (sf := sFactor (-16) 4) (omega := omega.re) (eps := 1) hthI hi
  rw [wa, wb]
  have c0 : (((th : Nat) : Int) : ℝ) = (th : ℝ) := by norm_cast
  rw [c0]
  by_cases hf : i < th
  · have hx := stretch_unit e1 (fun k hk _ => ⟨rep k (by simpa using hk), rep k (by simpa using hk)⟩) i (by simpa using hi) hf
    have ho := stretchArrays_outside e2 i (by rw [l1.1]; simp only [inLayer]; simp; omega)
    rw [List.length_replicate] at hx
    refine ⟨_, _, by rw [ho.1]; exact hx.1, by rw [ho.2]; exact hx.2, ?_, ?_⟩
    · exact congrArg some (thick th h0 _ _ _ (layerDist_front hs hf (by linarith)))
    · exact congrArg some (thick th h0 _ _ _ (layerDist_front hs hf (by linarith)))
  · by_cases hb : s - th ≤ i
    · have hx := stretch_unit e2
        (fun k hk hl => out1 k (by rw [l1.1] at hk; exact hk) (by rw [l1.1] at hl; have : s - th ≤ k := hl; omega))
        i (by rw [l1.1]; exact hi) (by rw [l1.1]; exact hb)
      rw [l1.1] at hx
      refine ⟨_, _, hx.1, hx.2, ?_, ?_⟩
      · exact congrArg some (thick th h0 _ _ _ (layerDist_back hs hb (le_refl _)))
      · exact congrArg some (thick th h0 _ _ _ (layerDist_back hs hb (by linarith)))
    · have ho := stretchArrays_outside e2 i (by rw [l1.1]; simp only [inLayer]; simp; omega)
      have o1 := out1 i hi (by omega)
      have r1 : (th : ℝ) ≤ i := by exact_mod_cast (by omega : th ≤ i)
      have r2 : (i : ℝ) + 1 ≤ s - th := by
        have : i + 1 + th ≤ s := by omega
        have : (i : ℝ) + 1 + th ≤ s := by exact_mod_cast this
        linarith
      refine ⟨1, 1, by rw [ho.1]; exact o1.1, by rw [ho.2]; exact o1.2, ?_, ?_⟩
      · rw [layerDist_zero r1 (by linarith)]; simp [sFactor]
      · rw [layerDist_zero (by linarith) (by linarith)]; simp [sFactor]

example : (0 : Nat) < 10 ∧ 2 * 10 ≤ 40 := by decide

/-- The property as a user reads the documentation ("if you want something more fine-grained, check out `stretch_with_scpml`"): the grid is
that of unit cells stretched at both ends. -/
def IsStretched (s th : Nat) (omega : ℝ) : Prop :=
  stretchedUnit s th (omega : ℂ) = some (uniformAxis (sFactor (-16) 4) s th omega 1)

/-- **C131.** It never is, if there are layers: the first width of `dx_a` differs, for every grid, thickness and frequency. -/
theorem uniform_is_stretched_false (s th : Nat) (omega : ℝ) (h0 : 0 < th) (hs : 2 * th ≤ s) (ho : omega ≠ 0) : ¬ IsStretched s th omega := by
  intro h
  obtain ⟨ab, e, hall⟩ := uniform_vs_stretched_partial s th (omega : ℂ) h0 hs
  rw [IsStretched, e] at h
  have h := Option.some.inj h
  obtain ⟨x, y, hx, hy, hu, hv⟩ := hall 0 (by omega)
  rw [Complex.ofReal_re, ← h] at hu hv
  have e1 : x = 1 + th * (y - 1) := by rw [hx] at hu; exact Option.some.inj hu
  have e2 : y = 1 + th * (x - 1) := by rw [hy] at hv; exact Option.some.inj hv
  have hthI : (0 : Int) < (th : Int) := by exact_mod_cast h0
  obtain ⟨wa, wb⟩ := widths_at (sf := sFactor (-16) 4) (s := s) (omega := omega) (eps := 1) hthI (i := 0) (by omega)
  rw [← h] at wa wb
  rw [hx] at wa
  rw [hy] at wb
  have ix := congrArg Complex.im (Option.some.inj wa)
  have iy := congrArg Complex.im (Option.some.inj wb)
  rw [(factor_parts _ _).2] at ix iy
  have c0 : (((th : Nat) : Int) : ℝ) = (th : ℝ) := by norm_cast
  have ht : (0 : ℝ) < th := by exact_mod_cast h0
  rw [c0, layerDist_front hs h0 (by simp), unitDist, if_pos rfl, Real.sqrt_one, one_mul] at ix
  rw [c0, layerDist_front hs h0 (by norm_num), unitDist, if_pos rfl, Real.sqrt_one, one_mul] at iy
  have jy := congrArg Complex.im e2
  simp only [Complex.add_im, Complex.one_im, Complex.mul_im, Complex.natCast_re, Complex.natCast_im, Complex.sub_im, zero_add, zero_mul,
    sub_zero, add_zero] at jy
  rw [ix, iy] at jy
  have t1 : (1 : ℝ) ≤ th := by exact_mod_cast h0
  have q1 : (((th : ℝ) - (((0 : Nat) : ℝ) + 1 / 2)) / th) ^ 4 < 1 := by
    apply pow_lt_one₀
    · apply div_nonneg
      · push_cast; linarith
      · exact ht.le
    · rw [div_lt_one ht]; push_cast; linarith
    · decide
  have q2 : ((th : ℝ) - ((0 : Nat) : ℝ)) / th = 1 := by push_cast; rw [sub_zero]; exact div_self ht.ne'
  simp only [sFactor, q2] at jy
  generalize (((th : ℝ) - (((0 : Nat) : ℝ) + 1 / 2)) / th) ^ 4 = q at jy q1
  push_cast at jy
  field_simp at jy
  linarith

example : (0 : Nat) < 10 ∧ 2 * 10 ≤ 40 ∧ (1 : ℝ) ≠ 0 := ⟨by decide, by decide, one_ne_zero⟩

/-! ### How much the layers absorb -/

theorem pow_diff_le {a b : ℝ} (hb : 0 ≤ b) (hab : b ≤ a) : ∀ m : Nat, a ^ (m + 1) - b ^ (m + 1) ≤ (m + 1) * a ^ m * (a - b)
  | 0 => by simp
  | m + 1 => by
    have ih := pow_diff_le hb hab m
    have ha : 0 ≤ a := hb.trans hab
    have h1 := mul_le_mul_of_nonneg_left ih ha
    have h2 : b ^ (m + 1) ≤ a ^ (m + 1) := pow_le_pow_left₀ hb hab _
    have h3 := mul_le_mul_of_nonneg_right h2 (sub_nonneg.2 hab)
    have e1 : a ^ (m + 1 + 1) - b ^ (m + 1 + 1) = a * (a ^ (m + 1) - b ^ (m + 1)) + b ^ (m + 1) * (a - b) := by ring
    have e2 : ((m + 1 : Nat) + 1 : ℝ) * a ^ (m + 1) * (a - b) = a * ((m + 1) * a ^ m * (a - b)) + a ^ (m + 1) * (a - b) := by
      push_cast; ring
    rw [e1, e2]
    linarith

theorem sum_pow_ge (m : Nat) : ∀ t : Nat, (t : ℝ) ^ (m + 1) ≤ (m + 1) * ∑ j ∈ Finset.range t, ((j : ℝ) + 1) ^ m
  | 0 => by simp
  | t + 1 => by
    have ih := sum_pow_ge m t
    have h := pow_diff_le (a := (t : ℝ) + 1) (b := t) (by positivity) (by linarith) m
    rw [Finset.sum_range_succ, mul_add]
    push_cast
    have : (t : ℝ) + 1 - t = 1 := by ring
    rw [this, mul_one] at h
    linarith

/-- The logarithm of the attenuation of the field by the layer at the front, of a wave of frequency `omega` that goes through it and back:
twice the frequency times the sum of the imaginary parts of the widths. -/
noncomputable def frontLog (dx : List ℂ) (th : Nat) (omega : ℝ) : ℝ := 2 * omega * ∑ i ∈ Finset.range th, (dx.getD i 0).im

/-- **C131.** The layer attenuates by at least `th` times the logarithm asked for (`ln_R`, "natural logarithm of the desired reflectance"). -/
theorem front_attenuation (s th : Nat) (omega lnR : ℝ) (m : Nat) (h0 : 0 < th) (hs : 2 * th ≤ s) (ho : 0 < omega) (hR : lnR ≤ 0) :
    frontLog (uniformAxis (sFactor lnR m) s th omega 1).1 th omega ≤ th * lnR := by
  have hthI : (0 : Int) < (th : Int) := by exact_mod_cast h0
  have ht : (0 : ℝ) < th := by exact_mod_cast h0
  have c0 : (((th : Nat) : Int) : ℝ) = (th : ℝ) := by norm_cast
  have key : ∀ i ∈ Finset.range th, ((uniformAxis (sFactor lnR m) s th omega 1).1.getD i 0).im =
      ((m + 1) * lnR / 2 / omega) * (((th : ℝ) - i) / th) ^ m := by
    intro i hi
    have hi := Finset.mem_range.1 hi
    obtain ⟨wa, -⟩ := widths_at (sf := sFactor lnR m) (s := s) (omega := omega) (eps := 1) hthI (i := i) (by omega)
    rw [List.getD_eq_getElem?_getD, wa, Option.getD_some, (factor_parts _ _).2, c0, layerDist_front hs hi (by linarith), unitDist, if_pos rfl,
      Real.sqrt_one, one_mul, sFactor]
    ring
  rw [frontLog, Finset.sum_congr rfl key, ← Finset.mul_sum]
  have hrefl : ∑ i ∈ Finset.range th, (((th : ℝ) - i) / th) ^ m = ∑ j ∈ Finset.range th, (((j : ℝ) + 1) / th) ^ m := by
    rw [← Finset.sum_range_reflect]
    apply Finset.sum_congr rfl
    intro j hj
    have hj := Finset.mem_range.1 hj
    have : ((th - 1 - j : Nat) : ℝ) = th - 1 - j := by
      rw [Nat.cast_sub (by omega), Nat.cast_sub (by omega)]; simp
    rw [this]
    congr 2
    ring
  have hsum : (th : ℝ) ≤ (m + 1) * ∑ j ∈ Finset.range th, (((j : ℝ) + 1) / th) ^ m := by
    have := sum_pow_ge m th
    have e : ∑ j ∈ Finset.range th, (((j : ℝ) + 1) / th) ^ m = (∑ j ∈ Finset.range th, ((j : ℝ) + 1) ^ m) / (th : ℝ) ^ m := by
      rw [Finset.sum_div]
      exact Finset.sum_congr rfl fun j _ => div_pow _ _ _
    rw [e, ← mul_div_assoc, le_div_iff₀ (pow_pos ht m)]
    calc (th : ℝ) * th ^ m = th ^ (m + 1) := by ring
      _ ≤ _ := this
  rw [hrefl]
  have := mul_le_mul_of_nonpos_right hsum hR
  calc _ = (m + 1) * (∑ j ∈ Finset.range th, (((j : ℝ) + 1) / th) ^ m) * lnR := by field_simp
    _ ≤ _ := this

example : (0 : Nat) < 10 ∧ 2 * 10 ≤ 40 ∧ (0 : ℝ) < 1 ∧ (-16 : ℝ) ≤ 0 := ⟨by decide, by decide, one_pos, by norm_num⟩

end Verif.Fdfd.UniformPml
