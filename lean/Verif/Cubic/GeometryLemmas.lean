import Verif.Cubic.Geometry

/-!
# The geometry matrices copy grid values

Every matrix of `Geometry.lean` copies values from one grid to another, one axis at a time: value
`(i, j)` of the result is value `(f i, g j)` of the argument.
-/

set_option linter.unusedVariables false

namespace Verif.Cubic

variable {K : Type*} [CommRing K]

/-- `A` takes the values on a grid of shape `(a', b')` to values on a grid of shape `(a, b)` by
copying: entry `(i, j)` of the result is entry `(f i, g j)` of the argument. -/
structure Pull (A : SpMat K) (s s' : Nat × Nat) (f g : Nat → Nat) : Prop where
  rows : A.rows = s.1 * s.2
  cols : A.cols = s'.1 * s'.2
  fst : ∀ i < s.1, f i < s'.1
  snd : ∀ j < s.2, g j < s'.2
  act : ∀ (v : Nat → K) i j, i < s.1 → j < s.2 → A.mulVec v (i + s.1 * j) = v (f i + s'.1 * g j)

theorem Pull.comp {A B : SpMat K} {s s' s'' : Nat × Nat} {f g f' g' : Nat → Nat}
    (hA : Pull A s s' f g) (hB : Pull B s' s'' f' g') :
    ∃ C, A.matmul B = .ok C ∧ Pull C s s'' (fun i => f' (f i)) (fun j => g' (g j)) := by
  obtain ⟨C, hC, hr, hc, hm⟩ := SpMat.matmul_ok (hA.cols.trans hB.rows.symm)
  refine ⟨C, hC, hr.trans hA.rows, hc.trans hB.cols, fun i hi => hB.fst _ (hA.fst _ hi),
    fun j hj => hB.snd _ (hA.snd _ hj), fun v i j hi hj => ?_⟩
  rw [hm, hA.act _ _ _ hi hj, hB.act _ _ _ (hA.fst _ hi) (hA.snd _ hj)]

theorem Pull.congr {A : SpMat K} {s s' : Nat × Nat} {f g f' g' : Nat → Nat} (h : Pull A s s' f g)
    (hf : ∀ i < s.1, f i = f' i) (hg : ∀ j < s.2, g j = g' j) : Pull A s s' f' g' :=
  ⟨h.rows, h.cols, fun i hi => hf i hi ▸ h.fst i hi, fun j hj => hg j hj ▸ h.snd j hj,
    fun v i j hi hj => by rw [h.act v i j hi hj, hf i hi, hg j hj]⟩

theorem idx_lt {a b i j : Nat} (hi : i < a) (hj : j < b) : i + a * j < a * b := by
  have h : a * (j + 1) ≤ a * b := Nat.mul_le_mul_left a hj
  rw [Nat.mul_succ] at h
  omega

theorem Pull.eye (s : Nat × Nat) {w : Nat} (hw : w = s.1 * s.2) :
    Pull (SpMat.eye w : SpMat K) s s (fun i => i) (fun j => j) :=
  ⟨hw, hw, fun _ h => h, fun _ h => h, fun v i j hi hj =>
    SpMat.eye_mulVec (by subst hw; exact idx_lt hi hj) v⟩

/-- A block-diagonal matrix with one block per line acts on the first coordinate. -/
theorem Pull.blockDiag {A : SpMat K} {b : Nat} {f : Nat → Nat}
    (hf : ∀ i < A.rows, f i < A.cols)
    (hact : ∀ (v : Nat → K) i, i < A.rows → A.mulVec v i = v (f i)) :
    Pull (SpMat.blockDiag b A) (A.rows, b) (A.cols, b) f (fun j => j) :=
  ⟨Nat.mul_comm _ _, Nat.mul_comm _ _, hf, fun _ h => h, fun v i j hi hj => by
    rw [SpMat.blockDiag_mulVec hi hj, hact _ _ hi]⟩

theorem duplicate_x {s : Nat × Nat} (h : 2 ≤ s.1) :
    ∃ A R : SpMat K, duplicateBoundary s .x = .ok (A, R) ∧
      Pull A s (s.1 - 1, s.2) (fun i => if i < s.1 - 1 then i else 0) (fun j => j) ∧
      Pull R (s.1 - 1, s.2) s (fun i => i) (fun j => j) := by
  refine ⟨_, _, if_neg (by omega), ?_, ?_⟩
  · have hr : s = (s.1 - 1 + 1, s.2) := by
      ext
      · simp only []; omega
      · rfl
    have := Pull.blockDiag (b := s.2) (A := SpMat.vstack (SpMat.eye (s.1 - 1) : SpMat K)
      ⟨1, s.1 - 1, fun _ j => if j = 0 then 1 else 0⟩)
      (f := fun i => if i < s.1 - 1 then i else 0) ?_ ?_
    · have h2 : (s.1 - 1 + 1, s.2) = s := hr.symm
      change Pull _ (s.1 - 1 + 1, s.2) (s.1 - 1, s.2) _ _ at this
      rw [h2] at this
      exact this
    · intro i _
      change (if i < s.1 - 1 then i else 0) < s.1 - 1
      split <;> omega
    · intro v i hi
      change i < s.1 - 1 + 1 at hi
      by_cases hlt : i < s.1 - 1
      · rw [SpMat.vstack_mulVec_lt _ hlt, SpMat.eye_mulVec hlt, if_pos hlt]
      · rw [if_neg hlt]
        have he : i = (SpMat.eye (s.1 - 1) : SpMat K).rows + 0 := by
          change i = s.1 - 1 + 0; omega
        rw [he, SpMat.vstack_mulVec_ge (A := SpMat.eye (s.1 - 1))
          (B := ⟨1, s.1 - 1, fun _ j => if j = 0 then 1 else 0⟩) rfl]
        simp only [SpMat.mulVec]
        rw [Finset.sum_eq_single_of_mem 0 (Finset.mem_range.2 (by omega))]
        · simp
        · intro j _ hj; simp [hj]
  · have := Pull.blockDiag (b := s.2) (A := SpMat.hstack (SpMat.eye (s.1 - 1) : SpMat K)
      (SpMat.zeros (s.1 - 1) 1)) (f := fun i => i) ?_ ?_
    · change Pull _ (s.1 - 1, s.2) (s.1 - 1 + 1, s.2) _ _ at this
      have h2 : (s.1 - 1 + 1, s.2) = s := by
        ext
        · simp only []; omega
        · rfl
      rw [h2] at this
      exact this
    · intro i hi
      change i < s.1 - 1 at hi
      change i < s.1 - 1 + 1
      omega
    · intro v i hi
      change i < s.1 - 1 at hi
      rw [SpMat.hstack_mulVec, SpMat.zeros_mulVec, add_zero, SpMat.eye_mulVec hi]

theorem duplicate_y {s : Nat × Nat} (h : 2 ≤ s.2) :
    ∃ A R : SpMat K, duplicateBoundary s .y = .ok (A, R) ∧
      Pull A s (s.1, s.2 - 1) (fun i => i) (fun j => if j < s.2 - 1 then j else 0) ∧
      Pull R (s.1, s.2 - 1) s (fun i => i) (fun j => j) := by
  obtain ⟨a, b⟩ := s
  obtain ⟨b, rfl⟩ : ∃ c, b = c + 2 := ⟨b - 2, by simp only at h; omega⟩
  simp only [duplicateBoundary]
  rw [if_neg (by omega)]
  refine ⟨_, _, rfl, ?_, ?_⟩
  · refine ⟨?_, rfl, fun _ h => h, ?_, ?_⟩
    · change a * (b + 2 - 1) + a = a * (b + 2)
      rw [show b + 2 - 1 = b + 1 by omega]; ring
    · intro j _
      simp only []
      split <;> omega
    · intro v i j hi hj
      simp only [] at hi hj ⊢
      by_cases hlt : j < b + 2 - 1
      · rw [if_pos hlt]
        have := idx_lt hi hlt
        rw [SpMat.vstack_mulVec_lt _ this, SpMat.eye_mulVec this]
      · rw [if_neg hlt]
        have he : i + a * j = (SpMat.eye (a * (b + 2 - 1)) : SpMat K).rows + i := by
          change i + a * j = a * (b + 2 - 1) + i
          rw [show j = b + 2 - 1 by omega, Nat.add_comm]
        rw [he, SpMat.vstack_mulVec_ge]
        · rw [SpMat.hstack_mulVec, SpMat.zeros_mulVec, add_zero, SpMat.eye_mulVec hi, Nat.mul_zero,
            Nat.add_zero]
        · change a * (b + 2 - 1) = a + a * (b + 2 - 2)
          rw [show b + 2 - 1 = b + 1 by omega, show b + 2 - 2 = b by omega]; ring
  · refine ⟨rfl, ?_, fun _ h => h, ?_, ?_⟩
    · change a * (b + 2 - 1) + a = a * (b + 2)
      rw [show b + 2 - 1 = b + 1 by omega]; ring
    · intro j hj; simp only [] at hj ⊢; omega
    · intro v i j hi hj
      simp only [] at hi hj ⊢
      rw [SpMat.hstack_mulVec, SpMat.zeros_mulVec, add_zero, SpMat.eye_mulVec (idx_lt hi hj)]

/-- Where a mirrored line comes from. -/
def fold (n i : Nat) : Nat := if i < (n + 1) / 2 then i else n - 1 - i

theorem fold_lt {n i : Nat} (h : i < n) : fold n i < (n + 1) / 2 := by
  unfold fold; split <;> omega

/-- The transpose of a matrix that keeps the first lines of every block. -/
theorem Pull.keep {A : SpMat K} {b n m : Nat} (hr : A.rows = n) (hc : A.cols = m) (hmn : m ≤ n)
    (hent : ∀ i j, j < m → A.ent i j = if i = j then 1 else 0) :
    Pull (SpMat.transpose (SpMat.blockDiag b A)) (m, b) (n, b) (fun i => i) (fun j => j) := by
  subst hr hc
  refine ⟨Nat.mul_comm _ _, Nat.mul_comm _ _, fun i hi => Nat.lt_of_lt_of_le hi hmn, fun _ h => h,
    fun v i j hi hj => ?_⟩
  simp only [] at hi hj ⊢
  simp only [SpMat.mulVec, SpMat.transpose, SpMat.blockDiag]
  rw [SpMat.sum_range_mul, Finset.sum_eq_single_of_mem j (Finset.mem_range.2 hj)]
  · rw [Finset.sum_eq_single_of_mem i (Finset.mem_range.2 (by omega))]
    · rw [SpMat.add_mul_div' (by omega), SpMat.add_mul_div' hi, if_pos rfl,
        SpMat.add_mul_mod' (by omega), SpMat.add_mul_mod' hi, hent _ _ hi, if_pos rfl, one_mul]
    · intro k hk hne
      have hk := Finset.mem_range.1 hk
      rw [SpMat.add_mul_div' hk, SpMat.add_mul_div' hi, if_pos rfl,
        SpMat.add_mul_mod' hk, SpMat.add_mul_mod' hi, hent _ _ hi, if_neg hne, zero_mul]
  · intro c _ hne
    refine Finset.sum_eq_zero fun k hk => ?_
    have hk := Finset.mem_range.1 hk
    rw [SpMat.add_mul_div' hk, SpMat.add_mul_div' hi, if_neg hne, zero_mul]

theorem symmetry_x {s : Nat × Nat} :
    ∃ A R : SpMat K, symmetryMatrix s .y = .ok (A, R) ∧
      Pull A s ((s.1 + 1) / 2, s.2) (fold s.1) (fun j => j) ∧
      Pull R ((s.1 + 1) / 2, s.2) s (fun i => i) (fun j => j) := by
  obtain ⟨n, b⟩ := s
  refine ⟨_, _, rfl, ?_, ?_⟩
  · simp only []
    generalize hB : (if n % 2 = 1 then
      SpMat.hstack (SpMat.flipCols (SpMat.eye (n / 2))) (SpMat.zeros (n / 2) 1)
      else SpMat.flipCols (SpMat.eye (n / 2)) : SpMat K) = B
    have hBr : B.rows = n / 2 := by rw [← hB]; split <;> rfl
    have hBc : B.cols = (n + 1) / 2 := by
      rw [← hB]; split
      · change n / 2 + 1 = (n + 1) / 2; omega
      · change n / 2 = (n + 1) / 2; omega
    have hBa : ∀ (v : Nat → K) i, i < n / 2 → B.mulVec v i = v (n / 2 - 1 - i) := by
      intro v i hi
      rw [← hB]; split
      · rw [SpMat.hstack_mulVec, SpMat.zeros_mulVec, add_zero, SpMat.flipCols_mulVec,
          SpMat.eye_mulVec hi]; rfl
      · rw [SpMat.flipCols_mulVec, SpMat.eye_mulVec hi]; rfl
    have := Pull.blockDiag (b := b) (A := SpMat.vstack (SpMat.eye ((n + 1) / 2) : SpMat K) B)
      (f := fold n) ?_ ?_
    · change Pull _ ((n + 1) / 2 + B.rows, b) ((n + 1) / 2, b) _ _ at this
      rw [hBr, show (n + 1) / 2 + n / 2 = n by omega] at this
      exact this
    · intro i hi
      change i < (n + 1) / 2 + B.rows at hi
      exact fold_lt (by rw [hBr] at hi; omega)
    · intro v i hi
      change i < (n + 1) / 2 + B.rows at hi
      rw [hBr] at hi
      unfold fold
      by_cases hlt : i < (n + 1) / 2
      · rw [if_pos hlt, SpMat.vstack_mulVec_lt _ hlt, SpMat.eye_mulVec hlt]
      · rw [if_neg hlt]
        have he : i = (SpMat.eye ((n + 1) / 2) : SpMat K).rows + (i - (n + 1) / 2) := by
          change i = (n + 1) / 2 + (i - (n + 1) / 2); omega
        rw [he, SpMat.vstack_mulVec_ge (by rw [hBc]; rfl), hBa _ _ (by omega), ← he]
        congr 1; omega
  · apply Pull.keep
    · change (n + 1) / 2 + _ = n
      have : (if n % 2 = 1 then
        SpMat.hstack (SpMat.flipCols (SpMat.eye (n / 2))) (SpMat.zeros (n / 2) 1)
        else SpMat.flipCols (SpMat.eye (n / 2)) : SpMat K).rows = n / 2 := by split <;> rfl
      change (n + 1) / 2 + (SpMat.rows (if n % 2 = 1 then _ else _)) = n
      rw [this]; omega
    · rfl
    · simp only []; omega
    · intro i j hj
      simp only [] at hj
      change (if i < (n + 1) / 2 then (if i = j then (1 : K) else 0) else 0) = _
      by_cases hi : i < (n + 1) / 2
      · rw [if_pos hi]
      · rw [if_neg hi, if_neg (by omega)]

theorem symmetry_y {s : Nat × Nat} (h : 2 ≤ s.2) :
    ∃ A R : SpMat K, symmetryMatrix s .x = .ok (A, R) ∧
      Pull A s (s.1, (s.2 + 1) / 2) (fun i => i) (fold s.2) ∧
      Pull R (s.1, (s.2 + 1) / 2) s (fun i => i) (fun j => j) := by
  obtain ⟨a, n⟩ := s
  simp only [] at h
  simp only [symmetryMatrix]
  generalize hB : (if n % 2 = 1 then
    SpMat.hstack (SpMat.flipCols (SpMat.blockDiag (n / 2) (SpMat.flipCols (SpMat.eye a))))
      (SpMat.zeros (a * (n / 2)) a)
    else SpMat.flipCols (SpMat.blockDiag (n / 2) (SpMat.flipCols (SpMat.eye a))) : SpMat K) = B
  have hBr : B.rows = a * (n / 2) := by
    rw [← hB]; split <;> exact Nat.mul_comm _ _
  have hBc : B.cols = a * ((n + 1) / 2) := by
    rw [← hB]; split
    · change n / 2 * a + a = _
      rw [show (n + 1) / 2 = n / 2 + 1 by omega]; ring
    · change n / 2 * a = _
      rw [show (n + 1) / 2 = n / 2 by omega]; ring
  have hcore : ∀ (v : Nat → K) i j, i < a → j < n / 2 →
      (SpMat.flipCols (SpMat.blockDiag (n / 2) (SpMat.flipCols (SpMat.eye a)))).mulVec v (i + a * j)
        = v (i + a * (n / 2 - 1 - j)) := by
    intro v i j hi hj
    rw [SpMat.flipCols_mulVec]
    have := SpMat.blockDiag_mulVec (A := SpMat.flipCols (SpMat.eye a : SpMat K)) (k := n / 2)
      (i := i) (b := j) hi hj
      (fun j => v ((SpMat.blockDiag (n / 2) (SpMat.flipCols (SpMat.eye a : SpMat K))).cols - 1 - j))
    change (SpMat.blockDiag (n / 2) (SpMat.flipCols (SpMat.eye a : SpMat K))).mulVec _ (i + a * j) = _
      at this
    rw [this, SpMat.flipCols_mulVec, SpMat.eye_mulVec hi]
    congr 1
    change n / 2 * a - 1 - (a - 1 - i + a * j) = _
    obtain ⟨d, hd⟩ : ∃ d, n / 2 = j + 1 + d := ⟨n / 2 - (j + 1), by omega⟩
    rw [hd, show j + 1 + d - 1 - j = d by omega]
    have : (j + 1 + d) * a = a * j + a + a * d := by ring
    rw [this]; omega
  have hBa : ∀ (v : Nat → K) i j, i < a → j < n / 2 →
      B.mulVec v (i + a * j) = v (i + a * (n / 2 - 1 - j)) := by
    intro v i j hi hj
    rw [← hB]; split
    · rw [SpMat.hstack_mulVec, SpMat.zeros_mulVec, add_zero, hcore v i j hi hj]
    · exact hcore v i j hi hj
  rw [if_neg (by omega)]
  refine ⟨_, _, rfl, ?_, ?_⟩
  · refine ⟨?_, rfl, fun _ h => h, fun j hj => fold_lt hj, ?_⟩
    · change a * ((n + 1) / 2) + B.rows = a * n
      rw [hBr, ← Nat.mul_add]; congr 1; omega
    · intro v i j hi hj
      simp only [] at hi hj ⊢
      unfold fold
      by_cases hlt : j < (n + 1) / 2
      · rw [if_pos hlt, SpMat.vstack_mulVec_lt _ (idx_lt hi hlt), SpMat.eye_mulVec (idx_lt hi hlt)]
      · rw [if_neg hlt]
        obtain ⟨d, rfl⟩ : ∃ d, j = (n + 1) / 2 + d := ⟨j - (n + 1) / 2, by omega⟩
        have he : i + a * ((n + 1) / 2 + d)
            = (SpMat.eye (a * ((n + 1) / 2)) : SpMat K).rows + (i + a * d) := by
          change _ = a * ((n + 1) / 2) + (i + a * d)
          ring
        rw [he, SpMat.vstack_mulVec_ge (by rw [hBc]; rfl), hBa _ _ _ hi (by omega)]
        congr 3; omega
  · refine ⟨rfl, ?_, fun _ h => h, ?_, ?_⟩
    · change a * ((n + 1) / 2) + B.rows = a * n
      rw [hBr, ← Nat.mul_add]; congr 1; omega
    · intro j hj; simp only [] at hj ⊢; omega
    · intro v i j hi hj
      simp only [] at hi hj ⊢
      have : ∀ (w : Nat → K) k, (SpMat.transpose (SpMat.zeros B.rows B.cols : SpMat K)).mulVec w k = 0 := by
        intro w k; simp [SpMat.mulVec, SpMat.transpose, SpMat.zeros]
      rw [SpMat.hstack_mulVec, this, add_zero, SpMat.eye_mulVec (idx_lt hi hj)]

theorem periodic_x {s : Nat × Nat} {p : Nat} (hp : 0 < p) (h : s.1 % p = 0) (h0 : 0 < s.1) :
    ∃ A R : SpMat K, periodicMatrix s .x p = .ok (A, R) ∧
      Pull A s (s.1 / p, s.2) (fun i => i % (s.1 / p)) (fun j => j) ∧
      Pull R (s.1 / p, s.2) s (fun i => i) (fun j => j) := by
  obtain ⟨n, b⟩ := s
  simp only [] at h h0
  obtain ⟨m, rfl⟩ := Nat.dvd_of_mod_eq_zero h
  have hdiv : p * m / p = m := Nat.mul_div_cancel_left m hp
  have hm : 0 < m := Nat.pos_of_mul_pos_left h0
  simp only [periodicMatrix, h, Nat.lt_irrefl, if_false, hdiv]
  refine ⟨_, _, rfl, ?_, ?_⟩
  · have hrow : (SpMat.vstackList m (List.replicate p (SpMat.eye m : SpMat K))).rows = p * m := by
      rw [SpMat.vstackList_rows m m _ (fun A hA => by rw [List.eq_of_mem_replicate hA]; rfl),
        List.length_replicate, Nat.mul_comm]
    have := Pull.blockDiag (b := b)
      (A := SpMat.vstackList m (List.replicate p (SpMat.eye m : SpMat K)))
      (f := fun i => i % m) ?_ ?_
    · rw [hrow, SpMat.vstackList_cols] at this
      exact this
    · intro i _
      rw [SpMat.vstackList_cols]
      exact Nat.mod_lt _ hm
    · intro v i hi
      rw [hrow] at hi
      have hlt : i / m < p := Nat.div_lt_of_lt_mul (by rwa [Nat.mul_comm] at hi)
      conv_lhs => rw [← Nat.mod_add_div i m]
      rw [SpMat.vstackList_mulVec _ (fun A hA => by rw [List.eq_of_mem_replicate hA]; rfl)
        (fun A hA => by rw [List.eq_of_mem_replicate hA]; rfl) v (Nat.mod_lt _ hm) (i / m)
        (by rwa [List.length_replicate]), List.getElem_replicate, SpMat.eye_mulVec (Nat.mod_lt _ hm)]
  · apply Pull.keep
    · rw [SpMat.vstackList_rows m m]
      · rw [List.length_cons, List.length_replicate, show p - 1 + 1 = p by omega, Nat.mul_comm]
      · intro A hA
        rcases List.mem_cons.1 hA with rfl | hA
        · rfl
        · rw [List.eq_of_mem_replicate hA]; rfl
    · exact SpMat.vstackList_cols _ _
    · exact Nat.le_mul_of_pos_left m hp
    · have hz : ∀ k i j, (SpMat.vstackList m (List.replicate k (SpMat.zeros m m : SpMat K))).ent i j = 0 := by
        intro k
        induction k with
        | zero => intro i j; rfl
        | succ k ih =>
          intro i j
          simp only [List.replicate_succ, SpMat.vstackList]
          split
          · rfl
          · exact ih _ _
      intro i j hj
      simp only [SpMat.vstackList, SpMat.eye, hz]
      split
      · rfl
      · rw [if_neg (by omega)]

theorem periodic_y {s : Nat × Nat} {p : Nat} (hp : 0 < p) (h : s.2 % p = 0) (h0 : 0 < s.2) :
    ∃ A R : SpMat K, periodicMatrix s .y p = .ok (A, R) ∧
      Pull A s (s.1, s.2 / p) (fun i => i) (fun j => j % (s.2 / p)) ∧
      Pull R (s.1, s.2 / p) s (fun i => i) (fun j => j) := by
  obtain ⟨a, n⟩ := s
  simp only [] at h h0
  obtain ⟨m, rfl⟩ := Nat.dvd_of_mod_eq_zero h
  have hdiv : p * m / p = m := Nat.mul_div_cancel_left m hp
  have hm : 0 < m := Nat.pos_of_mul_pos_left h0
  simp only [periodicMatrix, h, Nat.lt_irrefl, if_false, hdiv]
  refine ⟨_, _, rfl, ?_, ?_⟩
  · have hrow : (SpMat.vstackList (m * a) (List.replicate p (SpMat.eye (m * a) : SpMat K))).rows
        = a * (p * m) := by
      rw [SpMat.vstackList_rows _ (m * a) _
        (fun A hA => by rw [List.eq_of_mem_replicate hA]; rfl), List.length_replicate]
      ring
    refine ⟨hrow, ?_, fun _ h => h, fun j _ => Nat.mod_lt _ hm, ?_⟩
    · rw [SpMat.vstackList_cols, Nat.mul_comm]
    · intro v i j hi hj
      simp only [] at hi hj ⊢
      have hlt : j / m < p := Nat.div_lt_of_lt_mul (by rwa [Nat.mul_comm] at hj)
      have hin : i + a * (j % m) < m * a := by
        rw [Nat.mul_comm m a]; exact idx_lt hi (Nat.mod_lt _ hm)
      have he : i + a * j = (i + a * (j % m)) + m * a * (j / m) := by
        conv_lhs => rw [← Nat.mod_add_div j m]
        ring
      rw [he, SpMat.vstackList_mulVec _ (fun A hA => by rw [List.eq_of_mem_replicate hA]; rfl)
        (fun A hA => by rw [List.eq_of_mem_replicate hA]; rfl) v hin (j / m)
        (by rwa [List.length_replicate]), List.getElem_replicate, SpMat.eye_mulVec hin]
  · have hz : ∀ k i j, (SpMat.vstackList (m * a)
        (List.replicate k (SpMat.zeros (m * a) (m * a) : SpMat K))).ent i j = 0 := by
      intro k
      induction k with
      | zero => intro i j; rfl
      | succ k ih =>
        intro i j
        simp only [List.replicate_succ, SpMat.vstackList]
        split
        · rfl
        · exact ih _ _
    have hrow : (SpMat.vstackList (m * a) (SpMat.eye (m * a) ::
        List.replicate (p - 1) (SpMat.zeros (m * a) (m * a) : SpMat K))).rows = a * (p * m) := by
      rw [SpMat.vstackList_rows _ (m * a)]
      · rw [List.length_cons, List.length_replicate, show p - 1 + 1 = p by omega]; ring
      · intro A hA
        rcases List.mem_cons.1 hA with rfl | hA
        · rfl
        · rw [List.eq_of_mem_replicate hA]; rfl
    have hle : m ≤ p * m := Nat.le_mul_of_pos_left m hp
    refine ⟨?_, hrow, fun _ h => h, ?_, ?_⟩
    · change (SpMat.vstackList (m * a) _).cols = a * m
      rw [SpMat.vstackList_cols, Nat.mul_comm]
    · intro j hj; simp only [] at hj ⊢; omega
    · intro v i j hi hj
      simp only [] at hi hj ⊢
      have hin : i + a * j < m * a := by rw [Nat.mul_comm m a]; exact idx_lt hi hj
      have hin' : i + a * j < a * (p * m) := idx_lt hi (by omega)
      simp only [SpMat.mulVec]
      change ∑ k ∈ Finset.range (SpMat.vstackList (m * a) (SpMat.eye (m * a) ::
        List.replicate (p - 1) (SpMat.zeros (m * a) (m * a) : SpMat K))).rows, _ = _
      rw [hrow, Finset.sum_eq_single_of_mem (i + a * j) (Finset.mem_range.2 hin')]
      · simp only [SpMat.transpose, SpMat.vstackList, SpMat.eye]
        rw [if_pos hin]
        simp
      · intro k _ hk
        simp only [SpMat.transpose, SpMat.vstackList, SpMat.eye, hz, hk, if_false, ite_self, zero_mul]

end Verif.Cubic
