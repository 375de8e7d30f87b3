import Verif.Cubic.Periodicity
import Verif.Cubic.GeometryProps

/-!
C134: the matrices that repeat the first line of a grid as the last one.
-/

namespace Verif.Cubic

variable {K : Type*} [CommRing K]

/-- A grid of `nx` times `ny` values that closes: along the flagged axes the last line is the first one. -/
structure Closes (nx ny : Nat) (per : Bool × Bool) (g : Nat → Nat → K) : Prop where
  x : per.1 = true → ∀ j < ny, g (nx - 1) j = g 0 j
  y : per.2 = true → ∀ i < nx, g i (ny - 1) = g i 0

/-- The line of the smaller grid that a line is a copy of. -/
def closeIdx (per : Bool) (n i : Nat) : Nat := if per = true ∧ n ≤ i + 1 then 0 else i

theorem step_x {s : Nat × Nat} (per : Bool) (h : per = true → 2 ≤ s.1) {n : Nat} (hn : n = (s.1 - per.toNat) * s.2) :
    ∃ A R : SpMat K, periodicityStep per (duplicateBoundary s .x) (.eye n, .eye n) = .ok (A, R) ∧
      Pull A s (s.1 - per.toNat, s.2) (closeIdx per s.1) (fun j => j) ∧
      Pull R (s.1 - per.toNat, s.2) s (fun i => i) (fun j => j) := by
  cases per with
  | false =>
    refine ⟨_, _, rfl, ?_, ?_⟩
    · exact (Pull.eye s (by simpa using hn)).congr (fun i _ => by simp [closeIdx]) (fun _ _ => rfl)
    · exact Pull.eye s (by simpa using hn)
  | true =>
    obtain ⟨A, R, he, hA, hR⟩ := duplicate_x (K := K) (h rfl)
    have hE := Pull.eye (K := K) (s.1 - 1, s.2) (w := n) hn
    obtain ⟨C, hC, pC⟩ := hA.comp hE
    obtain ⟨D, hD, pD⟩ := hE.comp hR
    refine ⟨C, D, ?_, pC.congr (fun i hi => ?_) (fun _ _ => rfl), pD⟩
    · simp only [periodicityStep, if_true, he, bind, Except.bind, hC, hD, pure, Except.pure]
    · have := h rfl
      simp only [closeIdx, true_and]
      split <;> split <;> omega

theorem step_y {s t : Nat × Nat} (per : Bool) (h : per = true → 2 ≤ s.2) {f g : Nat → Nat} {M N : SpMat K}
    (hM : Pull M (s.1, s.2 - per.toNat) t f (fun j => j)) (hN : Pull N t (s.1, s.2 - per.toNat) g (fun j => j)) :
    ∃ A R : SpMat K, periodicityStep per (duplicateBoundary s .y) (M, N) = .ok (A, R) ∧
      Pull A s t f (closeIdx per s.2) ∧ Pull R t s g (fun j => j) := by
  cases per with
  | false =>
    refine ⟨_, _, rfl, ?_, hN⟩
    exact hM.congr (fun _ _ => rfl) (fun j _ => by simp [closeIdx])
  | true =>
    obtain ⟨A, R, he, hA, hR⟩ := duplicate_y (K := K) (h rfl)
    obtain ⟨C, hC, pC⟩ := hA.comp hM
    obtain ⟨D, hD, pD⟩ := hN.comp hR
    refine ⟨C, D, ?_, pC.congr (fun _ _ => rfl) (fun j hj => ?_), pD⟩
    · simp only [periodicityStep, if_true, he, bind, Except.bind, hC, hD, pure, Except.pure]
    · have := h rfl
      simp only [closeIdx, true_and]
      split <;> split <;> omega

theorem closeIdx_lt {per : Bool} {n i : Nat} (h : per = true → 2 ≤ n) (hi : i < n) : closeIdx per n i < n - per.toNat := by
  unfold closeIdx
  cases per <;> simp at h ⊢ <;> [exact hi; (split <;> omega)]

theorem closeIdx_of_lt {per : Bool} {n i : Nat} (hi : i < n - per.toNat) : closeIdx per n i = i := by
  unfold closeIdx
  cases per
  · simp
  · simp at hi ⊢; omega

theorem closeIdx_last {n : Nat} (h : 2 ≤ n) : closeIdx true n (n - 1) = closeIdx true n 0 := by
  unfold closeIdx; simp; omega

/-- **C134.** If the periodic axes have at least two points, the matrices exist. There is one parameter per point that is not on a
last line along a periodic axis. Every parameter vector is blown up to a grid that closes along these axes and has the parameters at
their points, every grid that closes is obtained from the vector the reverse matrix makes of it, and the reverse matrix recovers the
parameters. -/
theorem periodicity_closes (nx ny : Nat) (per : Bool × Bool) (hx : per.1 = true → 2 ≤ nx) (hy : per.2 = true → 2 ≤ ny) :
    ∃ G R : SpMat K, makePeriodicityMatrix (nx, ny) per = .ok (G, R) ∧
      G.rows = nx * ny ∧ G.cols = (nx - per.1.toNat) * (ny - per.2.toNat) ∧ R.rows = G.cols ∧ R.cols = G.rows ∧
      (∀ v, Closes nx ny per (gridVal nx (G.mulVec v))) ∧
      (∀ v i j, i < nx - per.1.toNat → j < ny - per.2.toNat →
        gridVal nx (G.mulVec v) i j = gridVal (nx - per.1.toNat) v i j) ∧
      (∀ w, Closes nx ny per (gridVal nx w) → ∀ i j, i < nx → j < ny → gridVal nx (G.mulVec (R.mulVec w)) i j = gridVal nx w i j) ∧
      (∀ v k, k < G.cols → R.mulVec (G.mulVec v) k = v k) := by
  obtain ⟨A, B, he, hA, hB⟩ := step_x (K := K) (s := (nx, ny - per.2.toNat)) per.1 hx rfl
  obtain ⟨G, R, he', hG, hR⟩ := step_y (s := (nx, ny)) per.2 hy hA hB
  have hact : ∀ v i j, i < nx → j < ny → gridVal nx (G.mulVec v) i j = v (closeIdx per.1 nx i + (nx - per.1.toNat) * closeIdx per.2 ny j) :=
    fun v i j hi hj => hG.act v i j hi hj
  have ract : ∀ w i j, i < nx - per.1.toNat → j < ny - per.2.toNat →
      R.mulVec w (i + (nx - per.1.toNat) * j) = gridVal nx w i j := fun w i j hi hj => hR.act w i j hi hj
  have hsub : ∀ v i j, i < nx - per.1.toNat → j < ny - per.2.toNat →
        gridVal nx (G.mulVec v) i j = gridVal (nx - per.1.toNat) v i j := by
    intro v i j hi hj
    rw [hact v i j (by omega) (by omega), closeIdx_of_lt hi, closeIdx_of_lt hj]
    rfl
  refine ⟨G, R, ?_, hG.rows, hG.cols, by rw [hR.rows, hG.cols], by rw [hR.cols, hG.rows], ?_, hsub, ?_, ?_⟩
  · simp only [makePeriodicityMatrix]
    rw [he]
    exact he'
  · intro v
    refine ⟨fun hp j hj => ?_, fun hp i hi => ?_⟩
    · have := hx hp
      rw [hact v _ _ (by omega) hj, hact v _ _ (by omega) hj, hp, closeIdx_last this]
    · have := hy hp
      rw [hact v _ _ hi (by omega), hact v _ _ hi (by omega), hp, closeIdx_last this]
  · intro w hw i j hi hj
    rw [hact _ i j hi hj, ract w _ _ (closeIdx_lt hx hi) (closeIdx_lt hy hj)]
    have e1 : ∀ j < ny, gridVal nx w (closeIdx per.1 nx i) j = gridVal nx w i j := by
      intro j hj
      unfold closeIdx
      split
      · rename_i hc
        rw [← hw.x hc.1 j hj, show nx - 1 = i by omega]
      · rfl
    have e2 : gridVal nx w i (closeIdx per.2 ny j) = gridVal nx w i j := by
      unfold closeIdx
      split
      · rename_i hc
        rw [← hw.y hc.1 i hi, show ny - 1 = j by omega]
      · rfl
    rw [e1 _ (by have := closeIdx_lt hy hj; omega), e2]
  · intro v k hk
    rw [hG.cols] at hk
    change k < (nx - per.1.toNat) * (ny - per.2.toNat) at hk
    have hpos : 0 < nx - per.1.toNat := Nat.pos_of_ne_zero fun h0 => by rw [h0, Nat.zero_mul] at hk; omega
    have h1 := Nat.mod_lt k hpos
    have h2 : k / (nx - per.1.toNat) < ny - per.2.toNat := Nat.div_lt_of_lt_mul hk
    have := ract (G.mulVec v) _ _ h1 h2
    rw [hsub v _ _ h1 h2, gridVal] at this
    rwa [Nat.mod_add_div] at this

/-- The hypotheses are met: a grid of four times five points, periodic along both axes, has twelve parameters. -/
example : ((true, true).1 = true → 2 ≤ 4) ∧ ((true, true).2 = true → 2 ≤ 5) ∧ (4 - true.toNat) * (5 - true.toNat) = 12 := by decide

/-- **C134.** A periodic axis with fewer than two points is an error. -/
theorem periodicity_short (nx ny : Nat) (per : Bool × Bool) (h : (per.1 = true ∧ nx < 2) ∨ (per.2 = true ∧ ny < 2)) :
    ∃ e, makePeriodicityMatrix (K := K) (nx, ny) per = .error e := by
  have hX : per.1 = true → nx < 2 → ∃ e, makePeriodicityMatrix (K := K) (nx, ny) per = .error e := by
    intro hp hn
    refine ⟨.shape, ?_⟩
    have hd : duplicateBoundary (K := K) (nx, ny - per.2.toNat) .x = .error .shape := if_pos hn
    simp only [makePeriodicityMatrix, periodicityStep, hp, if_true, hd, bind, Except.bind]
  by_cases h1 : per.1 = true ∧ nx < 2
  · exact hX h1.1 h1.2
  · obtain ⟨h2, h3⟩ := h.resolve_left h1
    obtain ⟨A, B, he, _, _⟩ := step_x (K := K) (s := (nx, ny - per.2.toNat)) per.1 (fun hp => by
      by_contra hc; exact h1 ⟨hp, by simp only at hc; omega⟩) rfl
    refine ⟨.shape, ?_⟩
    have hd : duplicateBoundary (K := K) (nx, ny) .y = .error .shape := if_pos h3
    simp only [makePeriodicityMatrix]
    simp only at he
    rw [he]
    simp only [periodicityStep, h2, if_true, hd, bind, Except.bind]

end Verif.Cubic
