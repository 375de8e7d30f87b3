import Mathlib.Algebra.CharZero.Defs
import Mathlib.Algebra.Ring.CharZero
import Mathlib.Tactic.FieldSimp
import Verif.Cubic.Differences
import Verif.Cubic.GeometryProps

/-!
C135: the difference matrices differentiate along their axis, in units of the spacing.
-/

namespace Verif.Cubic

variable {K : Type*} [Field K]

/-- The difference at point `k` of a line of `n` points: to the neighbour at the ends, central between. -/
def diffAt (n : Nat) (f : Nat → K) (k : Nat) : K :=
  if k = n - 1 then f k - f (k - 1) else if k = 0 then f (k + 1) - f k else (f (k + 1) - f (k - 1)) / 2

theorem flatMap_single {α : Type*} (k : Nat) (g : Nat → List α) :
    ∀ n : Nat, k < n → (∀ m < n, m ≠ k → g m = []) → (List.range n).flatMap g = g k
  | 0, hk, _ => absurd hk (by omega)
  | n + 1, hk, h => by
    rw [List.range_succ, List.flatMap_append]
    by_cases hn : n = k
    · subst hn
      have : (List.range n).flatMap g = [] := by
        rw [List.flatMap_eq_nil_iff]
        intro m hm
        have := List.mem_range.mp hm
        exact h m (by omega) (by omega)
      simp [this]
    · rw [flatMap_single k g n (by omega) fun m hm => h m (by omega)]
      simp [h n (by omega) hn]

theorem diffEntries_row {n k : Nat} {pos : Nat → Nat} {t : Nat × Nat × K} (ht : t ∈ diffEntries n k pos) : t.1 = pos k := by
  unfold diffEntries at ht
  split at ht
  · simp at ht; rcases ht with rfl | rfl <;> rfl
  · split at ht <;> (simp at ht; rcases ht with rfl | rfl <;> rfl)

theorem diffEntries_col {n k : Nat} {pos : Nat → Nat} (h2 : 2 ≤ n) (hk : k < n) {t : Nat × Nat × K} (ht : t ∈ diffEntries n k pos) :
    ∃ m < n, t.2.1 = pos m := by
  unfold diffEntries at ht
  split at ht
  · simp at ht; rcases ht with rfl | rfl
    · exact ⟨k - 1, by omega, rfl⟩
    · exact ⟨k, by omega, rfl⟩
  · split at ht <;> (simp at ht; rcases ht with rfl | rfl)
    · exact ⟨k, by omega, rfl⟩
    · exact ⟨k + 1, by omega, rfl⟩
    · exact ⟨k - 1, by omega, rfl⟩
    · exact ⟨k + 1, by omega, rfl⟩

theorem diffEntries_sum (n k : Nat) (pos : Nat → Nat) (v : Nat → K) :
    ((diffEntries n k pos).map fun t => t.2.2 * v t.2.1).sum = diffAt n (fun m => v (pos m)) k := by
  unfold diffEntries diffAt
  split
  · simp; ring
  · split
    · simp; ring
    · simp; ring

theorem pos_inj {a i j i' j' : Nat} (hi : i < a) (hi' : i' < a) (h : i + a * j = i' + a * j') : i = i' ∧ j = j' := by
  have h1 := congrArg (· % a) h
  have h2 := congrArg (· / a) h
  simp only [SpMat.add_mul_mod' hi, SpMat.add_mul_mod' hi', SpMat.add_mul_div' hi, SpMat.add_mul_div' hi'] at h1 h2
  exact ⟨h1, h2⟩

/-- The rows of a matrix whose entries are listed point by point. -/
theorem listed_row {s : Nat × Nat} (E : Nat → Nat → List (Nat × Nat × K))
    (hr : ∀ i j, ∀ t ∈ E i j, t.1 = i + s.1 * j) (hc : ∀ i < s.1, ∀ j < s.2, ∀ t ∈ E i j, t.2.1 < s.1 * s.2)
    (v : Nat → K) {i j : Nat} (hi : i < s.1) (hj : j < s.2) :
    (SpMat.coo (s.1 * s.2) (s.1 * s.2) ((List.range s.1).flatMap fun i => (List.range s.2).flatMap fun j => E i j)).mulVec v (i + s.1 * j) =
      ((E i j).map fun t => t.2.2 * v t.2.1).sum := by
  rw [SpMat.coo_mulVec]
  · congr 2
    rw [List.filter_flatMap, flatMap_single i _ _ hi]
    · rw [List.filter_flatMap, flatMap_single j _ _ hj]
      · rw [List.filter_eq_self]
        intro t ht
        simpa using hr i j t ht
      · intro m hm hne
        rw [List.filter_eq_nil_iff]
        intro t ht
        simp only [decide_eq_true_eq]
        intro he
        exact hne (pos_inj hi hi ((hr i m t ht).symm.trans he)).2
    · intro m hm hne
      rw [List.filter_flatMap, List.flatMap_eq_nil_iff]
      intro b hb
      rw [List.filter_eq_nil_iff]
      intro t ht
      simp only [decide_eq_true_eq]
      intro he
      exact hne (pos_inj hm hi ((hr m b t ht).symm.trans he)).1
  · intro t ht
    obtain ⟨a, ha, ht⟩ := List.mem_flatMap.mp ht
    obtain ⟨b, hb, ht⟩ := List.mem_flatMap.mp ht
    exact hc a (List.mem_range.mp ha) b (List.mem_range.mp hb) t ht

/-- **C135.** The matrix for the first axis exists if that axis has two points or more, and takes the differences along it, line by line. -/
theorem dx_differences (nx ny : Nat) (h : 2 ≤ nx) :
    ∃ M : SpMat K, makeDx (nx, ny) = .ok M ∧ M.rows = nx * ny ∧ M.cols = nx * ny ∧
      ∀ v i j, i < nx → j < ny → gridVal nx (M.mulVec v) i j = diffAt nx (fun k => gridVal nx v k j) i := by
  refine ⟨_, if_neg (by simp only; omega), rfl, rfl, fun v i j hi hj => ?_⟩
  have := listed_row (K := K) (s := (nx, ny)) (fun i j => diffEntries nx i fun i => i + nx * j)
    (fun i j t ht => diffEntries_row (pos := fun i => i + nx * j) ht)
    (fun i hi j hj t ht => by
      obtain ⟨m, hm, he⟩ := diffEntries_col h hi ht
      rw [he]
      exact idx_lt hm hj) v hi hj
  rw [gridVal]
  refine this.trans ?_
  rw [diffEntries_sum]
  rfl

/-- **C135.** The same for the second axis. -/
theorem dy_differences (nx ny : Nat) (h : 2 ≤ ny) :
    ∃ M : SpMat K, makeDy (nx, ny) = .ok M ∧ M.rows = nx * ny ∧ M.cols = nx * ny ∧
      ∀ v i j, i < nx → j < ny → gridVal nx (M.mulVec v) i j = diffAt ny (fun k => gridVal nx v i k) j := by
  refine ⟨_, if_neg (by simp only; omega), rfl, rfl, fun v i j hi hj => ?_⟩
  have := listed_row (K := K) (s := (nx, ny)) (fun i j => diffEntries ny j fun j => i + nx * j)
    (fun i j t ht => diffEntries_row (pos := fun j => i + nx * j) ht)
    (fun i hi j hj t ht => by
      obtain ⟨m, hm, he⟩ := diffEntries_col h hj ht
      rw [he]
      exact idx_lt hi hm) v hi hj
  rw [gridVal]
  refine this.trans ?_
  rw [diffEntries_sum]
  rfl

/-- **C135.** A grid with a single line along the axis is an error. -/
theorem single_line_rejected (n : Nat) (hn : 0 < n) :
    makeDx (K := K) (1, n) = .error .shape ∧ makeDy (K := K) (n, 1) = .error .shape :=
  ⟨if_pos ⟨rfl, by simp only; omega⟩, if_pos ⟨rfl, by simp only; omega⟩⟩

theorem diffAt_congr {n k : Nat} (h : 2 ≤ n) (hk : k < n) {f g : Nat → K} (hfg : ∀ m < n, f m = g m) : diffAt n f k = diffAt n g k := by
  unfold diffAt
  split
  · rw [hfg k hk, hfg (k - 1) (by omega)]
  · split
    · rw [hfg k hk, hfg (k + 1) (by omega)]
    · rw [hfg (k - 1) (by omega), hfg (k + 1) (by omega)]

theorem diffAt_quadratic [CharZero K] (n k : Nat) (h : 2 ≤ n) (hk : k < n) (a b c : K) :
    diffAt n (fun m => a + b * m + c * (m : K) ^ 2) k = b + 2 * c * k + (if k = 0 then c else if k = n - 1 then -c else 0) := by
  unfold diffAt
  by_cases h1 : k = n - 1
  · obtain ⟨m, rfl⟩ : ∃ m, k = m + 1 := ⟨k - 1, by omega⟩
    rw [if_pos h1, if_neg (by omega), if_pos h1, Nat.add_sub_cancel]
    push_cast
    ring
  · rw [if_neg h1]
    by_cases h0 : k = 0
    · subst h0
      rw [if_pos rfl, if_pos rfl]
      push_cast
      ring
    · obtain ⟨m, rfl⟩ : ∃ m, k = m + 1 := ⟨k - 1, by omega⟩
      rw [if_neg h0, if_neg h0, if_neg h1, Nat.add_sub_cancel]
      push_cast
      have : (2 : K) ≠ 0 := two_ne_zero
      field_simp
      ring

/-- **C135, partial.** Values that are quadratic along the axis are differentiated exactly at all points but the two ends, linear
ones at all points, whatever happens across. At the ends the error is the coefficient of the square (`ends_exact_false`). -/
theorem dx_exact_partial [CharZero K] (nx ny : Nat) (h : 2 ≤ nx) (a b c : Nat → K) :
    ∃ M : SpMat K, makeDx (nx, ny) = .ok M ∧ ∀ v, (∀ i j, i < nx → j < ny → gridVal nx v i j = a j + b j * i + c j * (i : K) ^ 2) →
      ∀ i j, i < nx → j < ny → gridVal nx (M.mulVec v) i j = b j + 2 * c j * i + (if i = 0 then c j else if i = nx - 1 then -c j else 0) := by
  obtain ⟨M, hM, _, _, hv⟩ := dx_differences (K := K) nx ny h
  refine ⟨M, hM, fun v hq i j hi hj => ?_⟩
  rw [hv v i j hi hj, ← diffAt_quadratic nx i h hi (a j)]
  exact diffAt_congr h hi fun m hm => hq m j hm hj

theorem dy_exact_partial [CharZero K] (nx ny : Nat) (h : 2 ≤ ny) (a b c : Nat → K) :
    ∃ M : SpMat K, makeDy (nx, ny) = .ok M ∧ ∀ v, (∀ i j, i < nx → j < ny → gridVal nx v i j = a i + b i * j + c i * (j : K) ^ 2) →
      ∀ i j, i < nx → j < ny → gridVal nx (M.mulVec v) i j = b i + 2 * c i * j + (if j = 0 then c i else if j = ny - 1 then -c i else 0) := by
  obtain ⟨M, hM, _, _, hv⟩ := dy_differences (K := K) nx ny h
  refine ⟨M, hM, fun v hq i j hi hj => ?_⟩
  rw [hv v i j hi hj, ← diffAt_quadratic ny j h hj (a i)]
  exact diffAt_congr h hj fun m hm => hq i m hi hm

/-- The hypotheses are met by the squares on a grid of three times two points. -/
example : ∃ v : Nat → ℚ, ∀ i j, i < 3 → j < 2 → gridVal 3 v i j = (0 : ℚ) + 0 * i + 1 * (i : ℚ) ^ 2 :=
  ⟨fun k => ((k % 3 : Nat) : ℚ) ^ 2, fun i j hi _ => by rw [gridVal, SpMat.add_mul_mod' hi]; ring⟩

/-- **C135, violated.** Quadratic values are not differentiated exactly at the ends. -/
theorem ends_exact_false [CharZero K] (nx ny : Nat) (h : 2 ≤ nx) (hy : 0 < ny) (M : SpMat K) (hM : makeDx (nx, ny) = .ok M) :
    ¬ ∀ v : Nat → K, (∀ i j, i < nx → j < ny → gridVal nx v i j = (i : K) ^ 2) →
      ∀ i j, i < nx → j < ny → gridVal nx (M.mulVec v) i j = 2 * i := by
  intro hall
  obtain ⟨M', hM', hq⟩ := dx_exact_partial (K := K) nx ny h (fun _ => 0) (fun _ => 0) (fun _ => 1)
  rw [hM] at hM'
  cases hM'
  have hv : ∀ i j, i < nx → j < ny → gridVal nx (fun k => ((k % nx : Nat) : K) ^ 2) i j = (i : K) ^ 2 := fun i j hi _ => by
    rw [gridVal, SpMat.add_mul_mod' hi]
  have h1 := hq (fun k => ((k % nx : Nat) : K) ^ 2) (fun i j hi hj => by rw [hv i j hi hj]; ring) 0 0 (by omega) hy
  rw [hall _ hv 0 0 (by omega) hy] at h1
  simp at h1

end Verif.Cubic
