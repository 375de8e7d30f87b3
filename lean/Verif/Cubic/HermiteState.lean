import Verif.Cubic.HermiteProps

/-!
# C114: gradient, initial values and saved states of a Hermite parametrization
-/

set_option linter.unusedVariables false
set_option linter.unusedSectionVars false
set_option linter.unusedSimpArgs false

namespace Verif.Cubic

open Finset Set

/-! ## Gradient and range -/

/-- C114: the gradient is the derivative of the structure: along every line of parameter vectors,
every entry of the structure has the derivative that the gradient matrix gives. -/
theorem hermite_gradient (P : HermiteParam) (d : List ℝ) (hv : P.vector.length = P.vec2f.cols)
    (hd : d.length = P.vec2f.cols) :
    ∃ (A : SpMat ℝ) (S : ℝ → List ℝ), P.calculateGradient = .ok A ∧
      (∀ t, (P.at (List.zipWith (fun x y => x + t * y) P.vector d) P.k).getStructure = .ok (S t)) ∧
      A.rows = P.vec2f.rows ∧ A.cols = P.vector.length ∧
      ∀ r < P.vec2f.rows, HasDerivAt (fun t => vals (S t) r) (A.mulVec (vals d) r) 0 := by
  have hS : ∀ t, ∃ s, (P.at (List.zipWith (fun x y => x + t * y) P.vector d) P.k).getStructure = .ok s :=
    fun t => hermite_structure_ok (by
      change P.vec2f.cols = (List.zipWith (fun x y => x + t * y) P.vector d).length
      simp [hv, hd])
  choose S hS using hS
  have hline : ∀ t r, r < P.vec2f.rows → vals (S t) r
      = sigmoid P.k (P.vec2f.mulVec (vals P.vector) r + t * P.vec2f.mulVec (vals d) r) := by
    intro t r hr
    have h3 := (hermite_structure_spec (hS t)).2.2 r hr
    unfold vals at *
    refine h3.trans ?_
    rw [← mulVec_line]
    change sigmoid P.k (P.vec2f.mulVec _ r) = _
    congr 1
    unfold SpMat.mulVec
    refine Finset.sum_congr rfl fun j hj => ?_
    congr 1
    have hj' := mem_range.1 hj
    change (List.zipWith (fun x y => x + t * y) P.vector d).getD j 0
      = P.vector.getD j 0 + t * d.getD j 0
    rw [List.getD_eq_getElem _ _ (by simp; omega), List.getD_eq_getElem _ _ (by omega),
      List.getD_eq_getElem _ _ (by omega)]
    simp
  obtain ⟨z, hz⟩ : ∃ z, matVec P.vec2f P.vector = .ok z := by
    unfold matVec; rw [if_pos hv.symm]; exact ⟨_, rfl⟩
  obtain ⟨z1, z2, z3⟩ := matVec_spec hz
  obtain ⟨A, hA, hAr, hAc, hAm⟩ := SpMat.matmul_ok
    (A := SpMat.diags z.length fun i => sigmoidD P.k (z.getD i 0)) (B := P.vec2f) z2
  refine ⟨A, S, ?_, hS, hAr.trans z2, hAc.trans hv.symm, fun r hr => ?_⟩
  · unfold HermiteParam.calculateGradient
    rw [hz]
    exact hA
  · have hlin : HasDerivAt (fun t : ℝ => P.vec2f.mulVec (vals P.vector) r + t * P.vec2f.mulVec (vals d) r)
        (P.vec2f.mulVec (vals d) r) 0 := by
      have := ((hasDerivAt_id (0 : ℝ)).mul_const (P.vec2f.mulVec (vals d) r)).const_add
        (P.vec2f.mulVec (vals P.vector) r)
      simpa using this
    have : (fun t => vals (S t) r)
        = fun t => sigmoid P.k (P.vec2f.mulVec (vals P.vector) r + t * P.vec2f.mulVec (vals d) r) := by
      funext t
      exact hline t r hr
    rw [this, hAm, SpMat.diags_mulVec (by rw [z2]; exact hr), z3 r hr]
    have h0 : P.vec2f.mulVec (vals P.vector) r
        = P.vec2f.mulVec (vals P.vector) r + 0 * P.vec2f.mulVec (vals d) r := by ring
    have hsig := sigmoid_hasDerivAt P.k (P.vec2f.mulVec (vals P.vector) r)
    rw [h0] at hsig
    have := HasDerivAt.comp (0 : ℝ) hsig hlin
    rw [← h0] at this
    exact this

/-- C114: every entry of the structure lies strictly between 0 and 1, whatever the parameters are. -/
theorem hermite_structure_range (P : HermiteParam) {s : List ℝ} (hs : P.getStructure = .ok s) :
    ∀ z ∈ s, 0 < z ∧ z < 1 := by
  obtain ⟨h1, h2, h3⟩ := hermite_structure_spec hs
  intro z hz
  obtain ⟨r, hr, rfl⟩ := List.getElem_of_mem hz
  have := h3 r (by omega)
  rw [List.getD_eq_getElem _ _ hr] at this
  rw [this]
  unfold sigmoid
  have hpos := Real.exp_pos (-P.k * (2 * P.vec2f.mulVec (vals P.vector) r - 1))
  refine ⟨by positivity, ?_⟩
  rw [div_lt_one (by positivity)]
  linarith

/-! ## Bounds and saving -/

/-- C114: `from_vector` accepts the parameter vectors; the parameters end up between the bounds, and
nothing that lies between them is changed. -/
theorem hermite_from_vector (P : HermiteParam) (hb : P.lower ≤ P.upper) {v : List ℝ}
    (hv : v.length = P.geometry.cols) :
    ∃ Q, P.fromVector v = .ok Q ∧ Q.vec2f = P.vec2f ∧ Q.k = P.k ∧
      (∀ x ∈ Q.toVector, P.lower ≤ x ∧ x ≤ P.upper) ∧ Q.toVector.length = v.length ∧
      ((∀ x ∈ v, P.lower ≤ x ∧ x ≤ P.upper) ↔ Q.toVector = v) := by
  refine ⟨({ P with vector := v } : HermiteParam).project, ?_, rfl, rfl, ?_, ?_, ?_⟩
  · unfold HermiteParam.fromVector HermiteParam.decode
    simp only []
    rw [if_pos hv]
  · intro x hx
    obtain ⟨y, _, rfl⟩ := List.mem_map.1 hx
    exact ⟨le_min (le_max_right _ _) hb, min_le_right _ _⟩
  · simp [HermiteParam.toVector, HermiteParam.project]
  · constructor
    · intro h
      have : ∀ x ∈ v, min (max x P.lower) P.upper = x := fun x hx => by
        rw [max_eq_left (h x hx).1, min_eq_left (h x hx).2]
      change v.map _ = v
      conv_rhs => rw [← List.map_id v]
      exact List.map_congr_left this
    · intro h x hx
      have h' : v.map (fun x => min (max x P.lower) P.upper) = v := h
      rw [← h'] at hx
      obtain ⟨y, _, rfl⟩ := List.mem_map.1 hx
      exact ⟨le_min (le_max_right _ _) hb, min_le_right _ _⟩

/-- C114: what is saved is restored exactly, by an object for the same grid, if and only if the
parameters lie between the bounds. -/
theorem hermite_saved (P Q : HermiteParam) (hb : P.lower ≤ P.upper) (hlo : Q.lower = P.lower)
    (hhi : Q.upper = P.upper) (hv : P.vector.length = Q.geometry.cols) :
    ∃ Q', Q.deserialize P.serialize = .ok Q' ∧ Q'.k = P.k ∧
      (Q'.toVector = P.toVector ↔ ∀ x ∈ P.toVector, P.lower ≤ x ∧ x ≤ P.upper) := by
  obtain ⟨Q', h1, _, _, _, _, h5⟩ := hermite_from_vector Q (by rw [hlo, hhi]; exact hb) hv
  refine ⟨Q'.setK P.k, ?_, rfl, ?_⟩
  · unfold HermiteParam.deserialize HermiteParam.serialize HermiteParam.toVector
    simp only []
    rw [h1]
  · rw [hlo, hhi] at h5
    exact h5.symm

/-! ## Initial values -/

section
variable {init : Init} {xs ys X Y : List ℝ} {sym : Bool × Bool} {p : Nat × Nat} {lo hi scale : ℝ}
  {bds : Option (ℝ × ℝ)} {P : HermiteParam}

/-- The parameters that a grid of values is turned into. -/
theorem hermite_grid_vector {l : List ℝ} (hx : Increasing xs) (hy : Increasing ys)
    (ux : HFits xs.length sym.1 p.1) (uy : HFits ys.length sym.2 p.2)
    (hm : mkHermiteParam (.array l) xs ys X Y sym (p.1 != 0, p.2 != 0) p lo hi bds scale = .ok P)
    (hl : l.length = xs.length * ys.length)
    (h1 : l.length ≠ 4 * (freePoints xs.length sym.1 p.1 * freePoints ys.length sym.2 p.2))
    (h2 : l.length ≠ 4 * (bLen (p.1 != 0) xs.length * bLen (p.2 != 0) ys.length)) :
    P.vector.length = P.vec2f.cols ∧ 3 ≤ xs.length ∧ 3 ≤ ys.length ∧
    derivativeMatrix xs ys (derivScaling scale (meanStep X)) = .ok P.derivative ∧
    ∀ c i j, c < 4 → i < freePoints xs.length sym.1 p.1 → j < freePoints ys.length sym.2 p.2 →
      vals P.vector (i + freePoints xs.length sym.1 p.1 * j +
          freePoints xs.length sym.1 p.1 * freePoints ys.length sym.2 p.2 * c) =
        sw sym (p.1 != 0, p.2 != 0)
            (uLen (p.1 != 0 && sym.1) (pLen p.1 (bLen (p.1 != 0) xs.length)))
            (uLen (p.2 != 0 && sym.2) (pLen p.2 (bLen (p.2 != 0) ys.length))) c i j *
          P.derivative.mulVec (vals l) (i + xs.length * j + xs.length * ys.length * c) := by
  obtain ⟨ax, ay⟩ := hfits_axis ux uy
  obtain ⟨⟨n3, m3⟩, enx, eny, hg, hd, hiv, _, _, _, hr, hc, hl'⟩ := mkHermite_gen hx hy ax ay hm
  obtain ⟨G, R, he, hGr, hGc, hGa, hRr, hRc, hRa⟩ := hermite_geometry_ok (xs := xs) (ys := ys) ux uy
  rw [he] at hg
  obtain ⟨rfl, rfl⟩ := Prod.mk.inj (Except.ok.inj hg)
  obtain ⟨D, hD, hDr, hDc, _⟩ := derivativeMatrix_act (derivScaling scale (meanStep X)) hx hy n3 m3
  rw [hD] at hd
  have hDD := Except.ok.inj hd
  subst hDD
  obtain ⟨M, hM, hMr, hMc, hMa⟩ := SpMat.matmul_ok (A := P.reverse) (B := P.derivative) (hRc.trans hDr.symm)
  unfold hermiteInit at hiv
  simp only [] at hiv
  rw [if_neg (by rw [hGc]; exact h1), if_neg (by rw [hGr]; exact h2), if_pos (by rw [hDc, hl]), hM] at hiv
  simp only [] at hiv
  obtain ⟨m1, m2, m3'⟩ := matVec_spec hiv
  refine ⟨by rw [m2, hMr, hRr, hc], n3, m3, hD, fun c i j hc' hi hj => ?_⟩
  have hlt : i + freePoints xs.length sym.1 p.1 * j +
      freePoints xs.length sym.1 p.1 * freePoints ys.length sym.2 p.2 * c < M.rows := by
    rw [hMr, hRr, hGc, Nat.mul_comm 4]
    exact idx_lt (idx_lt hi hj) hc'
  unfold vals
  rw [m3' _ hlt, hMa, hRa _ c i j hc' hi hj]

/-- C114: initialised with a grid of values that has the symmetries, whose length is not that of a
parameter vector, the structure takes these values (under the sigmoid) at the fine points that are
coarse points. -/
theorem hermite_initial_grid_partial {l : List ℝ} (hx : Increasing xs) (hy : Increasing ys)
    (ux : HFits xs.length sym.1 p.1) (uy : HFits ys.length sym.2 p.2)
    (hm : mkHermiteParam (.array l) xs ys X Y sym (p.1 != 0, p.2 != 0) p lo hi bds scale = .ok P)
    (hl : l.length = xs.length * ys.length)
    (h1 : l.length ≠ 4 * (freePoints xs.length sym.1 p.1 * freePoints ys.length sym.2 p.2))
    (h2 : l.length ≠ 4 * (bLen (p.1 != 0) xs.length * bLen (p.2 != 0) ys.length))
    (hinv : Invariant xs.length ys.length sym p (gridVal xs.length (vals l))) (k : ℝ) :
    ∃ s, (P.setK k).getStructure = .ok s ∧
      ∀ a b i j, a < X.length → b < Y.length → i < xs.length → j < ys.length →
        X.getD a 0 = xs.getD i 0 → Y.getD b 0 = ys.getD j 0 →
        gridVal X.length (vals s) a b = sigmoid k (gridVal xs.length (vals l) i j) := by
  obtain ⟨hlen, n3, m3, hd, hval⟩ := hermite_grid_vector hx hy ux uy hm hl h1 h2
  obtain ⟨enx, eny, hr, hc, hgc, _⟩ := mkHermite_spec hx hy ux uy hm
  obtain ⟨D, hD, hDr, hDc, hDa⟩ := derivativeMatrix_act (derivScaling scale (meanStep X)) hx hy n3 m3
  rw [hd] at hD
  have hDD := Except.ok.inj hD
  subst hDD
  obtain ⟨s, hs⟩ := hermite_structure_ok (P := P.setK k) hlen.symm
  refine ⟨s, hs, fun a b i j ha hb hi hj hxa hyb => ?_⟩
  rw [hermite_structure_level hx hy ux uy hm (w := P.vector) (k := k) (Q := P.setK k) rfl rfl rfl hs ha hb,
    hxa, hyb]
  congr 1
  unfold hSurface
  rw [(surfaceH_nodes hx hy enx.two eny.two _ _ _ _ hi hj).1, nodal_wrap ux.fits uy.fits _ _ hi hj]
  have hsx := srcIdx_lt ux.fits hi
  have hsy := srcIdx_lt uy.fits hj
  have hltx := lt_of_lt_of_le hsx (freePoints_le ux.fits)
  have hlty := lt_of_lt_of_le hsy (freePoints_le uy.fits)
  unfold nodal
  rw [hval 0 _ _ (by decide) hsx hsy, Nat.mul_zero, Nat.add_zero, (hDa (vals l) _ _ hltx hlty).1]
  simp only [sw, derivScaling, Nat.zero_mod, Nat.zero_ne_one, if_false, mul_one,
    one_mul, show ¬ (2 ≤ 0) by decide]
  change gridVal xs.length (vals l) _ _ = _
  rw [along_axis ux.fits (fun a => gridVal xs.length (vals l) a (srcIdx ys.length sym.2 p.2 j))
    (fun hs a ha => hinv.mirror_x hs a _ ha hlty) (fun hp a ha => hinv.repeat_x hp a _ ha hlty) hi]
  exact along_axis uy.fits (fun b => gridVal xs.length (vals l) i b)
    (fun hs b hb => hinv.mirror_y hs i b hi hb) (fun hp b hb => hinv.repeat_y hp i b hi hb) hj

/-! ## Values and derivatives of a grid without periods -/

theorem axis_id {n p : Nat} {s : Bool} (h : Fits n s p) (o : Prop) [Decidable o] (g : Nat → ℝ)
    (hmir : s = true → ∀ i < n, g (n - 1 - i) = if o then -g i else g i)
    (hrep : p ≠ 0 → ∀ i, i + (n - 1) / p < n → g (i + (n - 1) / p) = g i) {i : Nat} (hi : i < n) :
    (if o then dSign n s p i else 1) * ((if o then dSign n s p (srcIdx n s p i) else 1) *
      g (srcIdx n s p i)) = g i := by
  by_cases ho : o
  · simp only [ho, if_true] at hmir ⊢
    exact dSign_axis h g hmir hrep hi
  · simp only [ho, if_false] at hmir ⊢
    rw [one_mul, one_mul]
    exact along_axis h g hmir hrep hi

/-- Four blocks on a whole grid without periods, with the symmetries of values and derivatives. -/
structure Symmetric4 (n m : Nat) (sym : Bool × Bool) (q : Nat → Nat → Nat → ℝ) : Prop where
  mirror_x : sym.1 = true → ∀ c i j, c < 4 → i < n → j < m →
    q c (n - 1 - i) j = if c % 2 = 1 then -q c i j else q c i j
  mirror_y : sym.2 = true → ∀ c i j, c < 4 → i < n → j < m →
    q c i (m - 1 - j) = if 2 ≤ c then -q c i j else q c i j

theorem nodal_id {n m : Nat} (fx : Fits n sym.1 0) (fy : Fits m sym.2 0) {q : Nat → Nat → Nat → ℝ}
    (hq : Symmetric4 n m sym q) {v : Nat → ℝ}
    (hv : ∀ c i j, c < 4 → i < freePoints n sym.1 0 → j < freePoints m sym.2 0 →
      v (i + freePoints n sym.1 0 * j + freePoints n sym.1 0 * freePoints m sym.2 0 * c) =
        (if c % 2 = 1 then dSign n sym.1 0 i else 1) * (if 2 ≤ c then dSign m sym.2 0 j else 1) * q c i j)
    {c i j : Nat} (hc : c < 4) (hi : i < n) (hj : j < m) :
    nodal n m sym (0, 0) v c i j = q c i j := by
  have hsx := srcIdx_lt fx hi
  have hsy := srcIdx_lt fy hj
  have hltx := lt_of_lt_of_le hsx (freePoints_le fx)
  have hlty := lt_of_lt_of_le hsy (freePoints_le fy)
  have ex := axis_id fx (c % 2 = 1) (fun i => q c i (srcIdx m sym.2 0 j))
    (fun hs i hi => hq.mirror_x hs c i _ hc hi hlty) (fun h => absurd rfl h) hi
  have ey := axis_id fy (2 ≤ c) (fun j => q c i j)
    (fun hs j hj => hq.mirror_y hs c i j hc hi hj) (fun h => absurd rfl h) hj
  unfold nodal
  simp only []
  rw [hv c _ _ hc hsx hsy]
  rw [← ey, ← ex]
  ring

theorem sw_zero {n m : Nat} (fx : Fits n sym.1 0) (fy : Fits m sym.2 0) {c i j : Nat} :
    (sw sym ((0 : Nat) != 0, (0 : Nat) != 0) (uLen ((0 : Nat) != 0 && sym.1) (pLen 0 (bLen ((0 : Nat) != 0) n)))
      (uLen ((0 : Nat) != 0 && sym.2) (pLen 0 (bLen ((0 : Nat) != 0) m))) c i j : ℝ)
    = (if c % 2 = 1 then dSign n sym.1 0 i else 1) * (if 2 ≤ c then dSign m sym.2 0 j else 1) := by
  simp [sw, sg, dSign, uLen, pLen, bLen]

theorem slope_sum_swap {zs : List ℝ} (F : Nat → Nat → ℝ) (ys : List ℝ) (D : Nat → Nat → ℝ) (i : Nat) (y : ℝ) :
    herm1 false ys (fun j => slope false zs (fun m => F m j) i) (fun j => slope false zs (fun m => D m j) i) y
      = slope false zs (fun m => herm1 false ys (F m) (D m) y) i := by
  unfold slope threePoint herm1 hermite
  simp only [Bool.false_eq_true, if_false]
  split
  · ring
  · split <;> ring

theorem herm1_slope (ys : List ℝ) (f : Nat → ℝ) (y : ℝ) :
    herm1 false ys f (slope false ys f) y = interp false ys f y := rfl

/-- C114: without periods, initialised with the same grid of values (with the symmetries, on a mirrored
grid, of a length that is not taken for something else), the Hermite parametrization and the cubic
parametrization with the same sigmoid give the same structure. -/
theorem hermite_equals_cubic {l : List ℝ} {C : CubicParam} {lo' hi' : ℝ} {bds' : Option (ℝ × ℝ)}
    (hx : Increasing xs) (hy : Increasing ys)
    (fx : Fits xs.length sym.1 0) (fy : Fits ys.length sym.2 0)
    (hd : scale * meanStep X ≠ 0)
    (mx : sym.1 = true → ∃ c, Mirrored xs c) (my : sym.2 = true → ∃ c, Mirrored ys c)
    (hm : mkHermiteParam (.array l) xs ys X Y sym (false, false) (0, 0) lo hi bds scale = .ok P)
    (hC : mkCubicParam (.array l) xs ys X Y sym (false, false) (0, 0) lo' hi' bds' = .ok C)
    (hl : l.length = xs.length * ys.length)
    (h1 : l.length ≠ 4 * (freePoints xs.length sym.1 0 * freePoints ys.length sym.2 0))
    (hinv : Invariant xs.length ys.length sym (0, 0) (gridVal xs.length (vals l))) {k : ℝ} (hk : k ≠ 0) :
    ∃ s, (P.setK k).getStructure = .ok s ∧ (C.setK k).getStructure = .ok s := by
  have ux : HFits xs.length sym.1 (0, 0).1 := ⟨fx, fun _ => by decide⟩
  have uy : HFits ys.length sym.2 (0, 0).2 := ⟨fy, fun _ => by decide⟩
  have hpos : 0 < xs.length * ys.length := Nat.mul_pos fx.pos fy.pos
  obtain ⟨hlen, n3, m3, hdm, hval⟩ := hermite_grid_vector (p := (0, 0)) hx hy ux uy hm hl h1 (by
    simp only [bLen, bne_self_eq_false, Bool.false_eq_true, if_false]
    omega)
  obtain ⟨enx, eny, hr, hc, hgc, hlev⟩ := mkHermite_spec (p := (0, 0)) hx hy ux uy hm
  obtain ⟨D, hD, hDr, hDc, hDa⟩ := derivativeMatrix_act (derivScaling scale (meanStep X)) hx hy n3 m3
  rw [hdm] at hD
  have hDD := Except.ok.inj hD
  subst hDD
  obtain ⟨s, hs⟩ := hermite_structure_ok (P := P.setK k) hlen.symm
  refine ⟨s, hs, ?_⟩
  -- the blocks
  let q : Nat → Nat → Nat → ℝ := fun c i j =>
    P.derivative.mulVec (vals l) (i + xs.length * j + xs.length * ys.length * c)
  have q0 : ∀ i j, i < xs.length → j < ys.length → q 0 i j = gridVal xs.length (vals l) i j := by
    intro i j hi hj
    have := (hDa (vals l) i j hi hj).1
    simp only [derivScaling, one_mul] at this
    exact this
  have q1 : ∀ i j, i < xs.length → j < ys.length → q 1 i j = (scale * meanStep X) *
      slope false xs (fun m => gridVal xs.length (vals l) m j) i :=
    fun i j hi hj => (hDa (vals l) i j hi hj).2.1
  have q2 : ∀ i j, i < xs.length → j < ys.length → q 2 i j = (scale * meanStep X) *
      slope false ys (fun m => gridVal xs.length (vals l) i m) j :=
    fun i j hi hj => (hDa (vals l) i j hi hj).2.2.1
  have q3 : ∀ i j, i < xs.length → j < ys.length → q 3 i j = (scale * meanStep X) ^ 2 *
      slope false xs (fun m => slope false ys (fun m' => gridVal xs.length (vals l) m m') j) i := by
    intro i j hi hj
    rw [mul_pow]
    exact (hDa (vals l) i j hi hj).2.2.2
  have wf : ∀ n i, wrap false n i = i := fun n i => by simp [wrap]
  have e3 : ∀ {zs : List ℝ}, 3 ≤ zs.length → Enough false zs.length := by
    intro zs h; simpa [Enough] using h
  have anti : ∀ {zs : List ℝ}, 3 ≤ zs.length → (∃ c, Mirrored zs c) → ∀ {f : Nat → ℝ},
      (∀ i < zs.length, f (zs.length - 1 - i) = f i) → ∀ i < zs.length,
      slope false zs f (zs.length - 1 - i) = -slope false zs f i := by
    intro zs h3 ⟨c, hc⟩ f hf i hi
    have := slope_mirror (per := false) (e3 h3) hc (f := f) (fun i hi => by rw [wf, wf]; exact hf i hi) hi
    rwa [wf, wf] at this
  have slope_eq : ∀ {zs : List ℝ} {f g : Nat → ℝ}, 3 ≤ zs.length → (∀ m < zs.length, f m = g m) →
      ∀ i < zs.length, slope false zs f i = slope false zs g i := by
    intro zs f g h3 h i hi
    exact slope_congr (e3 h3) (fun m hm => h m (by simpa [freeLen] using hm)) (by simpa [freeLen] using hi)
  have slope_neg : ∀ (zs : List ℝ) (f : Nat → ℝ) (i : Nat),
      slope false zs (fun m => -f m) i = -slope false zs f i := by
    intro zs f i
    unfold slope threePoint
    simp only [Bool.false_eq_true, if_false]
    split
    · ring
    · split <;> ring
  have hq : Symmetric4 xs.length ys.length sym q := by
    refine ⟨fun hsx c i j hc hi hj => ?_, fun hsy c i j hc hi hj => ?_⟩
    · have hi' : xs.length - 1 - i < xs.length := by omega
      have mir := fun j (hj : j < ys.length) i hi => hinv.mirror_x hsx i j hi hj
      have h4 : c = 0 ∨ c = 1 ∨ c = 2 ∨ c = 3 := by omega
      rcases h4 with rfl | rfl | rfl | rfl
      · rw [if_neg (by decide), q0 _ _ hi' hj, q0 _ _ hi hj, mir j hj i hi]
      · rw [if_pos (by decide), q1 _ _ hi' hj, q1 _ _ hi hj, anti n3 (mx hsx) (mir j hj) i hi]
        ring
      · rw [if_neg (by decide), q2 _ _ hi' hj, q2 _ _ hi hj]
        congr 1
        exact slope_eq m3 (fun m hm => mir m hm i hi) j hj
      · rw [if_pos (by decide), q3 _ _ hi' hj, q3 _ _ hi hj, anti n3 (mx hsx) ?_ i hi]
        · ring
        · intro i hi
          exact slope_eq m3 (fun m hm => mir m hm i hi) j hj
    · have hj' : ys.length - 1 - j < ys.length := by omega
      have mir := fun i (hi : i < xs.length) j hj => hinv.mirror_y hsy i j hi hj
      have h4 : c = 0 ∨ c = 1 ∨ c = 2 ∨ c = 3 := by omega
      rcases h4 with rfl | rfl | rfl | rfl
      · rw [if_neg (by decide), q0 _ _ hi hj', q0 _ _ hi hj, mir i hi j hj]
      · rw [if_neg (by decide), q1 _ _ hi hj', q1 _ _ hi hj]
        congr 1
        exact slope_eq n3 (fun m hm => mir m hm j hj) i hi
      · rw [if_pos (by decide), q2 _ _ hi hj', q2 _ _ hi hj, anti m3 (my hsy) (mir i hi) j hj]
        ring
      · rw [if_pos (by decide), q3 _ _ hi hj', q3 _ _ hi hj, ← mul_neg, ← slope_neg]
        congr 1
        exact slope_eq n3 (fun m hm => anti m3 (my hsy) (mir m hm) j hj) i hi
  have hnod : ∀ c i j, c < 4 → i < xs.length → j < ys.length →
      nodal xs.length ys.length sym (0, 0) (vals P.vector) c i j = q c i j := by
    intro c i j hc hi hj
    refine nodal_id fx fy hq (fun c i j hc hi hj => ?_) hc hi hj
    rw [← sw_zero fx fy]
    exact hval c i j hc hi hj
  -- the cubic parametrization
  obtain ⟨enx', eny', hr', hc', hlev', _, _, _, hrr, hrc, hra, hiv, hgc'⟩ :=
    mkCubicParam_spec (p := (0, 0)) hx hy fx fy hC
  have hpar : C.vector.length = C.vec2f.cols ∧
      ∀ i j, i < freePoints xs.length sym.1 0 → j < freePoints ys.length sym.2 0 →
        vals C.vector (i + freePoints xs.length sym.1 0 * j) = gridVal xs.length (vals l) i j := by
    unfold initVector at hiv
    simp only [] at hiv
    split at hiv
    · rename_i hlen
      have hv := Except.ok.inj hiv
      rw [← hv]
      refine ⟨by rw [hlen, hrr, hc'], fun i j hi hj => ?_⟩
      rw [hrr, hl] at hlen
      have h1 := freePoints_le fx
      have h2 := freePoints_le fy
      have hfx : freePoints xs.length sym.1 0 = xs.length := by
        by_contra hne
        have : freePoints xs.length sym.1 0 * freePoints ys.length sym.2 0
            < xs.length * ys.length :=
          Nat.mul_lt_mul_of_lt_of_le (by omega) h2 fy.pos
        simp only [] at hlen
        omega
      unfold gridVal
      rw [hfx]
    · split at hiv
      · obtain ⟨m1, m2, m3⟩ := matVec_spec hiv
        refine ⟨by rw [m2, hrr, hc'], fun i j hi hj => ?_⟩
        unfold vals gridVal
        rw [m3 _ (by rw [hrr]; exact idx_lt hi hj)]
        exact hra _ i j hi hj
      · cases hiv
  obtain ⟨s', hs'⟩ := getStructure_ok (P := C.setK k) hpar.1.symm
  rw [hs']
  congr 1
  have hsl := (hermite_structure_spec hs).2.1.trans hr
  have hsl' := (getStructure_spec hs').2.1.trans hr'
  refine List.ext_getElem (hsl'.trans hsl.symm) (fun r hr1 hr2 => ?_)
  have hX : 0 < X.length := by
    rcases Nat.eq_zero_or_pos X.length with h | h
    · rw [h, Nat.zero_mul] at hsl'; omega
    · exact h
  have hra' : r % X.length < X.length := Nat.mod_lt _ hX
  have hrb : r / X.length < Y.length := Nat.div_lt_of_lt_mul (by omega)
  have hre : r % X.length + X.length * (r / X.length) = r := Nat.mod_add_div r X.length
  have A := hermite_structure_level (p := (0, 0)) hx hy ux uy hm (w := P.vector) (k := k) (Q := P.setK k)
    rfl rfl rfl hs hra' hrb
  have B := structure_level (p := (0, 0)) hx hy fx fy hC (w := C.vector) (k := k)
    (show ((C.decode C.vector).setK k).getStructure = .ok s' from hs') hra' hrb
  unfold gridVal at A B
  rw [hre] at A B
  unfold vals at A B
  rw [List.getD_eq_getElem _ _ hr2] at A
  rw [List.getD_eq_getElem _ _ hr1] at B
  rw [A, B]
  unfold shaped
  rw [if_pos hk]
  congr 1
  -- the surfaces
  have fl : ∀ n i, i < freeLen false n → i < n := fun n i h => by simpa [freeLen] using h
  have hL : level xs ys sym (0, 0) (vals C.vector) (X.getD (r % X.length) 0) (Y.getD (r / X.length) 0)
      = interp false xs (fun i => interp false ys (fun j => gridVal xs.length (vals l) i j)
          (Y.getD (r / X.length) 0)) (X.getD (r % X.length) 0) := by
    unfold level
    refine (interp_congr enx' (fun i hi => (interp_congr eny' (fun j hj => ?_) _).1) _).1
    have hi := fl _ _ hi
    have hj := fl _ _ hj
    have hsx := srcIdx_lt fx hi
    have hsy := srcIdx_lt fy hj
    have hlty := lt_of_lt_of_le hsy (freePoints_le fy)
    refine (hpar.2 _ _ hsx hsy).trans ?_
    rw [along_axis fx (fun a => gridVal xs.length (vals l) a (srcIdx ys.length sym.2 0 j))
      (fun hs a ha => hinv.mirror_x hs a _ ha hlty) (fun hp a ha => hinv.repeat_x hp a _ ha hlty) hi]
    exact along_axis fy (fun b => gridVal xs.length (vals l) i b)
      (fun hs b hb => hinv.mirror_y hs i b hi hb) (fun hp b hb => hinv.repeat_y hp i b hi hb) hj
  refine Eq.trans hL ?_
  symm
  unfold hSurface
  have hcong := surfaceH_congr (per := (false, false)) (xs := xs) (ys := ys) (e3 n3) (e3 m3)
    (g := nodal xs.length ys.length sym (0, 0) (vals P.vector) 0)
    (gx := fun i j => (scale * meanStep X)⁻¹ * nodal xs.length ys.length sym (0, 0) (vals P.vector) 1 i j)
    (gy := fun i j => (scale * meanStep X)⁻¹ * nodal xs.length ys.length sym (0, 0) (vals P.vector) 2 i j)
    (gxy := fun i j => ((scale * meanStep X) ^ 2)⁻¹ *
      nodal xs.length ys.length sym (0, 0) (vals P.vector) 3 i j)
    (g' := fun i j => gridVal xs.length (vals l) i j)
    (gx' := fun i j => slope false xs (fun m => gridVal xs.length (vals l) m j) i)
    (gy' := fun i j => slope false ys (fun m => gridVal xs.length (vals l) i m) j)
    (gxy' := fun i j => slope false xs (fun m => slope false ys (fun m' => gridVal xs.length (vals l) m m') j) i)
    (fun i j hi hj => by
      have hi := fl _ _ hi
      have hj := fl _ _ hj
      refine ⟨?_, ?_, ?_, ?_⟩
      · rw [hnod 0 i j (by decide) hi hj, q0 i j hi hj]
      · rw [hnod 1 i j (by decide) hi hj, q1 i j hi hj, inv_mul_cancel_left₀ hd]
      · rw [hnod 2 i j (by decide) hi hj, q2 i j hi hj, inv_mul_cancel_left₀ hd]
      · rw [hnod 3 i j (by decide) hi hj, q3 i j hi hj, inv_mul_cancel_left₀ (pow_ne_zero 2 hd)])
    (X.getD (r % X.length) 0) (Y.getD (r / X.length) 0)
  refine Eq.trans hcong ?_
  unfold surfaceH
  simp only [slope_sum_swap]
  rfl

/-! ## Whole states -/

/-- C114: without periods, a whole state (values and derivatives at all coarse points) that has the
symmetries, given to the constructed object, is what the structure interpolates; in particular the
state blown up from any parameters gives the structure of these parameters. -/
theorem hermite_full_state (hx : Increasing xs) (hy : Increasing ys)
    (fx : Fits xs.length sym.1 0) (fy : Fits ys.length sym.2 0)
    (hm : mkHermiteParam init xs ys X Y sym (false, false) (0, 0) lo hi bds scale = .ok P)
    {w : List ℝ} (hw : w.length = P.geometry.cols) (k : ℝ) :
    ∃ st Q s, matVec P.geometry w = .ok st ∧ P.decode (.array st) = .ok Q ∧
      (Q.setK k).getStructure = .ok s ∧ (P.at w k).getStructure = .ok s := by
  have ux : HFits xs.length sym.1 (0, 0).1 := ⟨fx, fun _ => by decide⟩
  have uy : HFits ys.length sym.2 (0, 0).2 := ⟨fy, fun _ => by decide⟩
  obtain ⟨ax, ay⟩ := hfits_axis (p := (0, 0)) ux uy
  obtain ⟨⟨n3, m3⟩, _, _, hg, _⟩ := mkHermite_gen (per := ((0 : Nat) != 0, (0 : Nat) != 0)) hx hy ax ay hm
  obtain ⟨enx, eny, hr, hc, hgc, hlev⟩ := mkHermite_spec (p := (0, 0)) hx hy ux uy hm
  obtain ⟨G, R, he, hGr, hGc, hGa, hRr, hRc, hRa⟩ := hermite_geometry_ok (p := (0, 0)) (xs := xs) (ys := ys) ux uy
  have hg' := he.symm.trans hg
  obtain ⟨rfl, rfl⟩ := Prod.mk.inj (Except.ok.inj hg')
  obtain ⟨st, hst⟩ : ∃ st, matVec P.geometry w = .ok st := by
    unfold matVec; rw [if_pos hw.symm]; exact ⟨_, rfl⟩
  obtain ⟨_, st2, st3⟩ := matVec_spec hst
  have hrows : P.geometry.rows = 4 * (xs.length * ys.length) := by
    rw [hGr]; simp [bLen]
  obtain ⟨s, hs⟩ := hermite_structure_ok (P := P.at w k) (by
    change P.vec2f.cols = w.length
    rw [hw, hgc])
  have hblk : ∀ c i j, c < 4 → i < xs.length → j < ys.length →
      vals st (i + xs.length * j + xs.length * ys.length * c)
        = nodal xs.length ys.length sym (0, 0) (vals w) c i j := by
    intro c i j hc hi hj
    rw [← hGa (vals w) c i j hc (by simpa [freeLen] using hi) (by simpa [freeLen] using hj)]
    have := st3 (i + xs.length * j + xs.length * ys.length * c) (by
      rw [hrows, Nat.mul_comm 4]; exact idx_lt (idx_lt hi hj) hc)
    unfold vals
    rw [this]
    simp [blk, freeLen]
  by_cases hlen : st.length = P.geometry.cols
  · -- no symmetry: the state is the vector
    have hfe : freePoints xs.length sym.1 0 = xs.length ∧ freePoints ys.length sym.2 0 = ys.length := by
      rw [st2, hrows, hGc] at hlen
      have h1 := freePoints_le fx
      have h2 := freePoints_le fy
      have := fx.pos
      have := fy.pos
      simp only [] at hlen
      have hle : xs.length * ys.length = freePoints xs.length sym.1 0 * freePoints ys.length sym.2 0 := by
        omega
      constructor
      · by_contra hne
        have : freePoints xs.length sym.1 0 * freePoints ys.length sym.2 0 < xs.length * ys.length :=
          Nat.mul_lt_mul_of_lt_of_le (by omega) h2 fy.pos
        omega
      · by_contra hne
        have : freePoints xs.length sym.1 0 * freePoints ys.length sym.2 0 < xs.length * ys.length :=
          Nat.mul_lt_mul_of_le_of_lt h1 (by omega) fx.pos
        omega
    have hns : ∀ {n : Nat} {σ : Bool}, 3 ≤ n → freePoints n σ 0 = n → σ = false := by
      intro n σ h3 h
      cases σ
      · rfl
      · simp only [freePoints] at h; omega
    have sx := hns n3 hfe.1
    have sy := hns m3 hfe.2
    have hstw : st = w := by
      have hl : st.length = w.length := by rw [hlen, hw]
      refine List.ext_getElem hl (fun r hr1 hr2 => ?_)
      have hr4 : r < 4 * (xs.length * ys.length) := by rw [st2, hrows] at hr1; exact hr1
      have hnm : 0 < xs.length * ys.length := Nat.mul_pos fx.pos fy.pos
      have e1 : r % (xs.length * ys.length) + xs.length * ys.length * (r / (xs.length * ys.length)) = r :=
        Nat.mod_add_div _ _
      have e2 : r % (xs.length * ys.length) % xs.length +
          xs.length * (r % (xs.length * ys.length) / xs.length) = r % (xs.length * ys.length) :=
        Nat.mod_add_div _ _
      have i1 : r % (xs.length * ys.length) % xs.length < xs.length := Nat.mod_lt _ fx.pos
      have i2 : r % (xs.length * ys.length) / xs.length < ys.length :=
        Nat.div_lt_of_lt_mul (Nat.mod_lt _ hnm)
      have i3 : r / (xs.length * ys.length) < 4 := Nat.div_lt_of_lt_mul (by omega)
      have := hblk _ _ _ i3 i1 i2
      unfold nodal at this
      simp only [srcIdx_zero, sIdx, sx, sy, Bool.false_eq_true, if_false, dSign_false, ite_self, one_mul] at this
      simp only [freePoints] at this
      rw [e2, e1] at this
      unfold vals at this
      rw [List.getD_eq_getElem _ _ hr1, List.getD_eq_getElem _ _ hr2] at this
      exact this
    refine ⟨st, { P with vector := st }, s, hst, ?_, ?_, hs⟩
    · unfold HermiteParam.decode
      simp only []
      rw [if_pos hlen]
    · rw [hstw]; exact hs
  · obtain ⟨v, hv⟩ : ∃ v, matVec P.reverse st = .ok v := by
      unfold matVec
      rw [if_pos (by rw [hRc, st2, hrows])]
      exact ⟨_, rfl⟩
    obtain ⟨v1, v2, v3⟩ := matVec_spec hv
    obtain ⟨s', hs'⟩ := hermite_structure_ok (P := ({ P with vector := v } : HermiteParam).setK k) (by
      change P.vec2f.cols = v.length
      rw [v2, hRr, hgc])
    have hss : s' = s := by
      have l1 := (hermite_structure_spec hs).2.1.trans hr
      have l2 := (hermite_structure_spec hs').2.1.trans hr
      refine List.ext_getElem (l2.trans l1.symm) (fun r hr1 hr2 => ?_)
      have hX : 0 < X.length := by
        rcases Nat.eq_zero_or_pos X.length with h | h
        · rw [h, Nat.zero_mul] at l1; omega
        · exact h
      have hra' : r % X.length < X.length := Nat.mod_lt _ hX
      have hrb : r / X.length < Y.length := Nat.div_lt_of_lt_mul (by omega)
      have hre : r % X.length + X.length * (r / X.length) = r := Nat.mod_add_div r X.length
      have A := hermite_structure_level (p := (0, 0)) hx hy ux uy hm (w := w) (k := k) (Q := P.at w k)
        rfl rfl rfl hs hra' hrb
      have B := hermite_structure_level (p := (0, 0)) hx hy ux uy hm (w := v) (k := k)
        (Q := ({ P with vector := v } : HermiteParam).setK k) rfl rfl rfl hs' hra' hrb
      unfold gridVal at A B
      rw [hre] at A B
      unfold vals at A B
      rw [List.getD_eq_getElem _ _ hr2] at A
      rw [List.getD_eq_getElem _ _ hr1] at B
      rw [A, B]
      congr 1
      have hq : Symmetric4 xs.length ys.length sym
          (fun c i j => nodal xs.length ys.length sym (0, 0) (vals w) c i j) :=
        ⟨fun hs c i j _ hi _ => nodal_mirror_x (p := (0, 0)) fx hs _ _ _ hi,
          fun hs c i j _ _ hj => nodal_mirror_y (p := (0, 0)) fy hs _ _ _ hj⟩
      have hn : ∀ c i j, c < 4 → i < xs.length → j < ys.length →
          nodal xs.length ys.length sym (0, 0) (vals v) c i j
            = nodal xs.length ys.length sym (0, 0) (vals w) c i j := by
        intro c i j hc hi hj
        refine nodal_id fx fy hq (fun c i j hc hi hj => ?_) hc hi hj
        have := v3 (i + freePoints xs.length sym.1 0 * j +
            freePoints xs.length sym.1 0 * freePoints ys.length sym.2 0 * c) (by
          rw [hRr, hGc, Nat.mul_comm 4]
          exact idx_lt (idx_lt hi hj) hc)
        unfold vals
        rw [this, hRa _ c i j hc hi hj, ← sw_zero fx fy]
        congr 1
        have i1 := lt_of_lt_of_le hi (freePoints_le fx)
        have i2 := lt_of_lt_of_le hj (freePoints_le fy)
        exact hblk c i j hc i1 i2
      unfold hSurface
      refine surfaceH_congr enx eny (fun i j hi hj => ?_) _ _
      have hi' : i < xs.length := by simpa [freeLen] using hi
      have hj' : j < ys.length := by simpa [freeLen] using hj
      have h0 := hn 0 i j (by decide) hi' hj'
      have h1 := hn 1 i j (by decide) hi' hj'
      have h2 := hn 2 i j (by decide) hi' hj'
      have h3 := hn 3 i j (by decide) hi' hj'
      unfold vals at h0 h1 h2 h3
      exact ⟨h0, by rw [h1], by rw [h2], by rw [h3]⟩
    refine ⟨st, { P with vector := v }, s, hst, ?_, hss ▸ hs', hs⟩
    unfold HermiteParam.decode
    simp only []
    rw [if_neg hlen, if_pos st2, hv]

/-- C114: an array of parameters or a whole state, given as initial value, makes the parameters that the
same array makes when it is given to an object that exists (`hermite_full_state`). -/
theorem hermite_initial_state {per : Bool × Bool} (hm : mkHermiteParam init xs ys X Y sym per p lo hi bds scale = .ok P)
    {l : List ℝ} {Q : HermiteParam} (hd : P.decode (.array l) = .ok Q) :
    mkHermiteParam (.array l) xs ys X Y sym per p lo hi bds scale = .ok { P with vector := Q.vector } := by
  simp only [mkHermiteParam, bind, Except.bind] at hm ⊢
  cases hg : makeGeometryMatrixHermite (K := ℝ) (xs.length, ys.length) sym per p with
  | error e => rw [hg] at hm; cases hm
  | ok GR =>
    obtain ⟨G, R⟩ := GR
    rw [hg] at hm
    simp only [] at hm ⊢
    cases hD : derivativeMatrix xs ys (derivScaling scale (meanStep X)) with
    | error e => rw [hD] at hm; cases hm
    | ok D =>
      rw [hD] at hm
      simp only [] at hm ⊢
      cases hi' : hermiteInit G R D init with
      | error e => rw [hi'] at hm; cases hm
      | ok vec =>
        rw [hi'] at hm
        simp only [] at hm
        cases hc : cubicMatricesDeriv X Y xs ys per (derivScaling scale (meanStep X)) with
        | error e => rw [hc] at hm; cases hm
        | ok m =>
          obtain ⟨f, fx', fy'⟩ := m
          rw [hc] at hm
          simp only [] at hm
          cases hC : f.matmul G with
          | error e => rw [hC] at hm; cases hm
          | ok C =>
            rw [hC] at hm
            simp only [pure, Except.pure] at hm
            have hP := Except.ok.inj hm
            have e1 : P.geometry = G := by rw [← hP]
            have e2 : P.reverse = R := by rw [← hP]
            have hv : hermiteInit G R D (.array l) = .ok Q.vector := by
              unfold HermiteParam.decode at hd
              unfold hermiteInit
              simp only [e1, e2] at hd ⊢
              split
              · rename_i h
                rw [if_pos h] at hd
                rw [← Except.ok.inj hd]
              · rename_i h
                rw [if_neg h] at hd
                split
                · rename_i h'
                  rw [if_pos h'] at hd
                  cases hmv : matVec R l with
                  | error e => rw [hmv] at hd; cases hd
                  | ok v => rw [hmv] at hd; rw [← Except.ok.inj hd]
                · rename_i h'
                  rw [if_neg h'] at hd
                  cases hd
            rw [hv]
            simp only [hc, hC, pure, Except.pure]
            rw [← hP]

/-- C114 fails: with a periodic axis a whole state is never accepted.  A state on the lines without
the duplicated ones (as many as the rows of the geometry matrix) meets a matrix of the wrong size, and
a state on all lines is refused. -/
theorem hermite_periodic_state_false (hx : Increasing xs) (hy : Increasing ys)
    (ux : HFits xs.length sym.1 p.1) (uy : HFits ys.length sym.2 p.2) (hp : p.1 ≠ 0 ∨ p.2 ≠ 0)
    (hm : mkHermiteParam init xs ys X Y sym (p.1 != 0, p.2 != 0) p lo hi bds scale = .ok P)
    (l : List ℝ) (hne : l.length ≠ P.geometry.cols) :
    (l.length = P.geometry.rows → P.decode (.array l) = .error .dims) ∧
    (l.length = 4 * (xs.length * ys.length) → P.decode (.array l) = .error .initial) := by
  obtain ⟨ax, ay⟩ := hfits_axis ux uy
  obtain ⟨_, _, _, hg, _⟩ := mkHermite_gen hx hy ax ay hm
  obtain ⟨G, R, he, hGr, hGc, hGa, hRr, hRc, hRa⟩ := hermite_geometry_ok (xs := xs) (ys := ys) ux uy
  rw [he] at hg
  obtain ⟨rfl, rfl⟩ := Prod.mk.inj (Except.ok.inj hg)
  have hlt : bLen (p.1 != 0) xs.length * bLen (p.2 != 0) ys.length < xs.length * ys.length := by
    have b1 : ∀ q n, bLen (q != 0) n ≤ n := fun q n => by unfold bLen; split <;> omega
    have b2 : ∀ {q n}, q ≠ 0 → 0 < n → bLen (q != 0) n < n := fun {q n} h h' => by
      unfold bLen; rw [if_pos (by simpa using h)]; omega
    rcases hp with h | h
    · exact Nat.mul_lt_mul_of_lt_of_le (b2 h ux.fits.pos) (b1 _ _) uy.fits.pos
    · exact Nat.mul_lt_mul_of_le_of_lt (b1 _ _) (b2 h uy.fits.pos) ux.fits.pos
  constructor
  · intro h
    unfold HermiteParam.decode
    simp only []
    rw [if_neg hne, if_pos h]
    unfold matVec
    rw [if_neg (by rw [hRc, h, hGr]; omega)]
  · intro h
    unfold HermiteParam.decode
    simp only []
    rw [if_neg hne, if_neg (by rw [h, hGr]; omega)]

end

/-! ## What fails -/

theorem three_increasing : Increasing ([0, 1, 2] : List ℝ) := by
  intro i j hij hj
  have : j < 3 := hj
  interval_cases j <;> interval_cases i <;> norm_num

theorem four_increasing : Increasing ([0, 1, 2, 3] : List ℝ) := by
  intro i j hij hj
  have : j < 4 := hj
  interval_cases j <;> interval_cases i <;> norm_num

theorem sigmoid_injective {k x y : ℝ} (hk : k ≠ 0) (h : sigmoid k x = sigmoid k y) : x = y := by
  unfold sigmoid at h
  have h1 := Real.exp_pos (-k * (2 * x - 1))
  have h2 := Real.exp_pos (-k * (2 * y - 1))
  rw [div_eq_div_iff (by positivity) (by positivity)] at h
  have h3 : Real.exp (-k * (2 * x - 1)) = Real.exp (-k * (2 * y - 1)) := by linarith
  have h4 := Real.exp_injective h3
  have h5 := mul_left_cancel₀ (neg_ne_zero.2 hk) h4
  linarith

/-- All parameters equal to `c` do not make a uniform structure. -/
theorem constant_vector_level {xs : List ℝ} {n3 : 3 ≤ xs.length} (h0 : xs.getD 0 0 = 0) (h1 : xs.getD 1 0 = 1)
    (hx : Increasing xs) {sym : Bool × Bool} (hs : sym = (false, false) ∨ (sym = (true, true) ∧ 4 ≤ xs.length))
    (c d : ℝ) (hd : d ≠ 0) (N : Nat) (hN : N = 4 * (freePoints xs.length sym.1 0 * freePoints xs.length sym.2 0)) :
    hSurface xs xs sym (0, 0) d (vals (List.replicate N c)) 0 0 = c ∧
    hSurface xs xs sym (0, 0) d (vals (List.replicate N c)) (1 / 4) 0 = c + c / d * (3 / 32) := by
  have fits : Fits xs.length sym.1 0 ∧ Fits xs.length sym.2 0 :=
    ⟨⟨by omega, fun _ => by omega, fun h => absurd rfl h⟩, ⟨by omega, fun _ => by omega, fun h => absurd rfl h⟩⟩
  have hv : ∀ b i j, b < 4 → i < xs.length → j < xs.length →
      nodal xs.length xs.length sym (0, 0) (vals (List.replicate N c)) b i j
        = (if b % 2 = 1 then dSign xs.length sym.1 0 i else 1) *
          (if 2 ≤ b then dSign xs.length sym.2 0 j else 1) * c := by
    intro b i j hb hi hj
    unfold nodal
    congr 1
    unfold vals
    rw [List.getD_eq_getElem _ _ ?_]
    · exact List.getElem_replicate _
    · rw [List.length_replicate, hN, Nat.mul_comm 4]
      exact idx_lt (idx_lt (srcIdx_lt fits.1 hi) (srcIdx_lt fits.2 hj)) hb
  have sgn : ∀ i, i < 2 → ∀ σ, (σ = sym.1 ∨ σ = sym.2) → (dSign xs.length σ 0 i : ℝ) = 1 := by
    intro i hi σ hσ
    cases σ with
    | false => exact dSign_false _ _ _
    | true =>
      have h4 : 4 ≤ xs.length := by
        rcases hs with h | h
        · rw [h] at hσ; simp at hσ
        · exact h.2
      unfold dSign signAt
      simp only [if_true]
      rw [if_pos (by omega)]
      simp
  have hv1 : ∀ b i j, b < 4 → i < 2 → j < 2 →
      nodal xs.length xs.length sym (0, 0) (vals (List.replicate N c)) b i j = c := by
    intro b i j hb hi hj
    rw [hv b i j hb (by omega) (by omega), sgn i hi _ (Or.inl rfl), sgn j hj _ (Or.inr rfl)]
    simp
  have wf : ∀ n i, wrap ((0 : Nat) != 0) n i = i := fun n i => by simp [wrap]
  have hy0 : ∀ f d : Nat → ℝ, herm1 ((0 : Nat) != 0) xs f d 0 = f 0 := by
    intro f d
    have := (herm1_node ((0 : Nat) != 0) hx (by omega) f d (i := 0) (by omega)).1
    rw [h0, wf] at this
    exact this
  unfold hSurface surfaceH
  simp only [hy0]
  refine ⟨hv1 0 0 0 (by decide) (by decide) (by decide), ?_⟩
  rw [(herm1_closed _ hx _ _ (k := 0) (by omega) (by rw [h0]; norm_num) (by rw [h1]; norm_num)).1]
  rw [wf, wf, hv1 0 0 0 (by decide) (by decide) (by decide), hv1 0 (0 + 1) 0 (by decide) (by decide) (by decide),
    hv1 1 0 0 (by decide) (by decide) (by decide), hv1 1 (0 + 1) 0 (by decide) (by decide) (by decide)]
  rw [show (0 : Nat) + 1 = 1 from rfl, h0, h1]
  unfold hermite
  rw [div_eq_mul_inv c d]
  ring

theorem quarter_step : meanStep [0, 1 / 4] = 1 / 4 := by norm_num [meanStep]

/-- C114 fails: initialised with a number other than 0, the structure is not uniform, as the number is
also taken for the derivatives. -/
theorem hermite_number_false (c scale : ℝ) (hc : c ≠ 0) (hs : scale ≠ 0) :
    ∃ P s, mkHermiteParam (.number c) [0, 1, 2] [0, 1, 2] [0, 1 / 4] [0] (false, false) (false, false) (0, 0)
        0 1 none scale = .ok P ∧ P.getStructure = .ok s ∧
      gridVal 2 (vals s) 0 0 = sigmoid 4 c ∧ gridVal 2 (vals s) 1 0 ≠ gridVal 2 (vals s) 0 0 := by
  have f3 : HFits 3 false 0 := ⟨⟨by decide, fun h => by simp at h, fun h => absurd rfl h⟩, fun h => by simp at h⟩
  obtain ⟨P, hP⟩ := hermite_param_exists (init := .number c) (xs := [0, 1, 2]) (ys := [0, 1, 2])
    (X := [0, 1 / 4]) (Y := [0]) (sym := (false, false)) (p := (0, 0)) (lo := 0) (hi := 1) (bds := none)
    (scale := scale) three_increasing three_increasing f3 f3 (by simp) (by simp) (by norm_num [pyGet])
    (by norm_num [pyGet]) (fun l hl => by cases hl)
  obtain ⟨ax, ay⟩ := hfits_axis (xs := ([0, 1, 2] : List ℝ)) (ys := ([0, 1, 2] : List ℝ))
    (sym := (false, false)) (p := (0, 0)) f3 f3
  obtain ⟨_, _, _, _, _, hiv, hk, _⟩ := mkHermite_gen three_increasing three_increasing ax ay hP
  obtain ⟨_, _, hr, hcol, hgc, hlev⟩ := mkHermite_spec (sym := (false, false)) (p := (0, 0))
    three_increasing three_increasing f3 f3 hP
  have hvec : P.vector = List.replicate (4 * (3 * 3)) c := by
    unfold hermiteInit at hiv
    have := (Except.ok.inj hiv).symm
    rw [this, hgc, hcol, mul_one]
    rfl
  obtain ⟨s, hs'⟩ := hermite_structure_ok (P := P) (by rw [hcol, hvec]; rfl)
  obtain ⟨e1, e2⟩ := constant_vector_level (xs := [0, 1, 2]) (n3 := by simp) (by simp) (by simp) three_increasing
    (sym := (false, false)) (Or.inl rfl) c (scale * (1 / 4)) (by simpa using hs) (4 * (3 * 3)) rfl
  have A := hermite_structure_level (p := (0, 0)) three_increasing three_increasing f3 f3 hP
    (w := P.vector) (k := 4) (Q := P) rfl rfl hk hs' (a := 0) (b := 0) (by simp) (by simp)
  have B := hermite_structure_level (p := (0, 0)) three_increasing three_increasing f3 f3 hP
    (w := P.vector) (k := 4) (Q := P) rfl rfl hk hs' (a := 1) (b := 0) (by simp) (by simp)
  simp only [List.length_cons, List.length_nil, Nat.zero_add, Nat.reduceAdd, List.getD_cons_zero,
    List.getD_cons_succ, quarter_step, hvec] at A B
  rw [e1] at A
  rw [e2] at B
  refine ⟨P, s, hP, hs', A, ?_⟩
  rw [A, B]
  intro h
  have := sigmoid_injective (by norm_num) h
  have hz : c / (scale * (1 / 4)) * (3 / 32) = 0 := by linarith
  have : c / (scale * (1 / 4)) ≠ 0 := div_ne_zero hc (by simpa using hs)
  rcases mul_eq_zero.1 hz with h | h
  · exact this h
  · norm_num at h

/-- C114 fails: with both symmetries and an even number of points along both axes, a grid of values has
as many entries as a parameter vector and is taken for one: a uniform grid does not make a uniform
structure. -/
theorem hermite_initial_grid_false (c scale : ℝ) (hc : c ≠ 0) (hs : scale ≠ 0) :
    ∃ P s, mkHermiteParam (.array (List.replicate (4 * 4) c)) [0, 1, 2, 3] [0, 1, 2, 3] [0, 1 / 4] [0]
        (true, true) (false, false) (0, 0) 0 1 none scale = .ok P ∧ P.getStructure = .ok s ∧
      gridVal 2 (vals s) 1 0 ≠ gridVal 2 (vals s) 0 0 := by
  have f4 : HFits 4 true 0 := ⟨⟨by decide, fun h => by decide, fun h => absurd rfl h⟩, fun h => by decide⟩
  obtain ⟨P, hP⟩ := hermite_param_exists (init := .array (List.replicate (4 * 4) c)) (xs := [0, 1, 2, 3])
    (ys := [0, 1, 2, 3])
    (X := [0, 1 / 4]) (Y := [0]) (sym := (true, true)) (p := (0, 0)) (lo := 0) (hi := 1) (bds := none)
    (scale := scale) four_increasing four_increasing f4 f4 (by simp) (by simp) (by norm_num [pyGet])
    (by norm_num [pyGet]) (fun l hl => by cases hl; exact Or.inl (by rw [List.length_replicate]; rfl))
  obtain ⟨ax, ay⟩ := hfits_axis (xs := ([0, 1, 2, 3] : List ℝ)) (ys := ([0, 1, 2, 3] : List ℝ))
    (sym := (true, true)) (p := (0, 0)) f4 f4
  obtain ⟨_, _, _, _, _, hiv, hk, _⟩ := mkHermite_gen four_increasing four_increasing ax ay hP
  obtain ⟨_, _, hr, hcol, hgc, hlev⟩ := mkHermite_spec (sym := (true, true)) (p := (0, 0))
    four_increasing four_increasing f4 f4 hP
  have hvec : P.vector = List.replicate (4 * 4) c := by
    unfold hermiteInit at hiv
    simp only [] at hiv
    rw [if_pos (by rw [hgc, hcol, List.length_replicate]; rfl)] at hiv
    exact (Except.ok.inj hiv).symm
  obtain ⟨s, hs'⟩ := hermite_structure_ok (P := P) (by rw [hcol, hvec, List.length_replicate]; rfl)
  obtain ⟨e1, e2⟩ := constant_vector_level (xs := [0, 1, 2, 3]) (n3 := by simp) (by simp) (by simp) four_increasing
    (sym := (true, true)) (Or.inr ⟨rfl, by simp⟩) c (scale * (1 / 4)) (by simpa using hs) (4 * 4) rfl
  have A := hermite_structure_level (p := (0, 0)) four_increasing four_increasing f4 f4 hP
    (w := P.vector) (k := 4) (Q := P) rfl rfl hk hs' (a := 0) (b := 0) (by simp) (by simp)
  have B := hermite_structure_level (p := (0, 0)) four_increasing four_increasing f4 f4 hP
    (w := P.vector) (k := 4) (Q := P) rfl rfl hk hs' (a := 1) (b := 0) (by simp) (by simp)
  rw [hvec] at A B
  simp only [List.length_cons, List.length_nil, Nat.zero_add, Nat.reduceAdd, List.getD_cons_zero,
    List.getD_cons_succ, quarter_step] at A B
  rw [e1] at A
  rw [e2] at B
  refine ⟨P, s, hP, hs', ?_⟩
  rw [A, B]
  intro h
  have := sigmoid_injective (by norm_num) h
  have hz : c / (scale * (1 / 4)) * (3 / 32) = 0 := by linarith
  have : c / (scale * (1 / 4)) ≠ 0 := div_ne_zero hc (by simpa using hs)
  rcases mul_eq_zero.1 hz with h | h
  · exact this h
  · norm_num at h

/-- C114 fails for one period with a symmetry: the duplicated line is then not taken into the cell that
is mirrored, and the structure is not its own mirror image: at the points 1 and 2 of an axis from 0 to 3
it is the sigmoid of different parameters. -/
theorem hermite_one_period_false (scale : ℝ) (w : List ℝ) (k : ℝ) (hw : w.length = 4 * (2 * 3)) :
    ∃ P s, mkHermiteParam (.number 0) [0, 1, 2, 3] [0, 1, 2] [1, 2] [0] (true, false) (true, false) (1, 0)
        0 1 none scale = .ok P ∧ Mirrored ([0, 1, 2, 3] : List ℝ) 3 ∧ (P.at w k).getStructure = .ok s ∧
      gridVal 2 (vals s) 0 0 = sigmoid k (vals w 1) ∧ gridVal 2 (vals s) 1 0 = sigmoid k (vals w 0) ∧
      (k ≠ 0 → vals w 0 ≠ vals w 1 → gridVal 2 (vals s) 0 0 ≠ gridVal 2 (vals s) 1 0) := by
  have ax : AxisOk 4 true true 1 false := ⟨fun _ => by decide, by decide, fun _ => by decide, fun _ => by decide⟩
  have ay : AxisOk 3 false false 0 false := ⟨fun h => by simp at h, by decide, fun h => absurd rfl h,
    fun h => by simp at h⟩
  have hu : unitHermite (1, 0) (true, false) = (false, false) := by decide
  obtain ⟨G, R, he, hG, hR⟩ := hermiteGeometry_pull (K := ℝ) 4 3 (true, false) (true, false) (1, 0)
    (false, false) ax ay
  have e4 : Enough true 4 := by simp [Enough]
  have e3 : Enough false 3 := by simp [Enough]
  obtain ⟨D, hD, hDr, hDc, _⟩ := derivativeMatrix_act (derivScaling scale (meanStep [1, 2])) four_increasing
    three_increasing (by simp) (by simp)
  have hin : fineInside ([1, 2] : List ℝ) [0, 1, 2, 3] = true ∧ fineInside ([0] : List ℝ) [0, 1, 2] = true := by
    have := (interpolation_exists (X := ([1, 2] : List ℝ)) (Y := [0]) (per := (false, false)) four_increasing
      three_increasing).2 ⟨⟨by norm_num [pyGet], by norm_num [pyGet]⟩, by simp, by simp⟩
    have := (cubicMatrices_ok_iff four_increasing three_increasing).1 this
    exact ⟨this.1, this.2.1⟩
  obtain ⟨f, fx', fy', hc, hfr, hfc, _⟩ := cubicMatricesDeriv_eval (per := (true, false))
    (derivScaling scale (meanStep [1, 2])) four_increasing three_increasing e4 e3 hin.1 hin.2
  obtain ⟨C, hC, _⟩ := SpMat.matmul_ok (A := f) (B := G) (by rw [hfc, hG.rows]; rfl)
  obtain ⟨P, hP⟩ : ∃ P, mkHermiteParam (.number 0) [0, 1, 2, 3] [0, 1, 2] [1, 2] [0] (true, false) (true, false)
      (1, 0) 0 1 none scale = .ok P := by
    have he' : makeGeometryMatrixHermite (([0, 1, 2, 3] : List ℝ).length, ([0, 1, 2] : List ℝ).length)
        (true, false) (true, false) (1, 0) = .ok (G, R) := by
      unfold makeGeometryMatrixHermite
      rw [hu]; exact he
    simp only [mkHermiteParam, he', bind, Except.bind, hD, hermiteInit, hc, hC, pure, Except.pure]
    exact ⟨_, rfl⟩
  obtain ⟨_, _, _, hg, _, _, _, _, _, hr, hcol, hlev⟩ := mkHermite_gen (sym := (true, false)) (p := (1, 0))
    four_increasing three_increasing (by rw [hu]; exact ax) (by rw [hu]; exact ay) hP
  have hg' : P.geometry = G ∧ P.reverse = R := by
    have he' : makeGeometryMatrixHermite (([0, 1, 2, 3] : List ℝ).length, ([0, 1, 2] : List ℝ).length)
        (true, false) (true, false) (1, 0) = .ok (G, R) := by
      unfold makeGeometryMatrixHermite
      rw [hu]; exact he
    rw [he'] at hg
    obtain ⟨h1, h2⟩ := Prod.mk.inj (Except.ok.inj hg)
    exact ⟨h1.symm, h2.symm⟩
  obtain ⟨s, hs⟩ := hermite_structure_ok (P := P.at w k) (by
    change P.vec2f.cols = w.length
    rw [hcol, hg'.1, hG.cols, hw]; rfl)
  obtain ⟨_, hsl, hsv⟩ := hermite_structure_spec hs
  have node : ∀ a i, a < 2 → i < 3 → ([1, 2] : List ℝ).getD a 0 = ([0, 1, 2, 3] : List ℝ).getD i 0 →
      gridVal 2 (vals s) a 0 = sigmoid k (vals w (fold 3 i)) := by
    intro a i ha hi hai
    have h1 := hsv (a + 2 * 0) (by
      change _ < P.vec2f.rows
      rw [hr]; simpa using ha)
    have h2 := hlev (vals w) a 0 ha (by simp)
    have h3 : P.vec2f.mulVec (vals w) (a + 2 * 0) = vals w (fold 3 i) := by
      refine Eq.trans h2 ?_
      rw [hai, show ([0] : List ℝ).getD 0 0 = ([0, 1, 2] : List ℝ).getD 0 0 from rfl]
      refine Eq.trans (surfaceH_nodes (per := (true, false)) four_increasing three_increasing (by simp) (by simp)
        _ _ _ _ (i := i) (j := 0) (by simp; omega) (by simp)).1 ?_
      have hw1 : wrap true ([0, 1, 2, 3] : List ℝ).length i = i := by
        unfold wrap; rw [if_neg (by simp; omega)]
      have hw2 : wrap false ([0, 1, 2] : List ℝ).length 0 = 0 := by simp [wrap]
      simp only [hw1, hw2]
      rw [hg'.1]
      have := hG.act (vals w) 0 i 0 (by decide) (by simpa [bLen] using hi) (by simp [bLen])
      unfold blk
      refine Eq.trans this ?_
      interval_cases i <;> simp [sw, redIdx, redLen, sIdx, sLen, uLen, pLen, bLen, pIdx, fold]
    have h4 : gridVal 2 (vals s) a 0 = sigmoid k (P.vec2f.mulVec (vals w) (a + 2 * 0)) := h1
    rw [h4, h3]
  have n1 : gridVal 2 (vals s) 0 0 = sigmoid k (vals w 1) := node 0 1 (by decide) (by decide) (by simp)
  have n2 : gridVal 2 (vals s) 1 0 = sigmoid k (vals w 0) := node 1 2 (by decide) (by decide) (by simp)
  refine ⟨P, s, hP, ?_, hs, n1, n2, fun hk hne h => hne (sigmoid_injective hk ?_)⟩
  · intro i hi
    have : i < 4 := hi
    interval_cases i <;> norm_num
  · rw [← n1, ← n2, h]

/-- Non-vacuity: a mirrored grid along x, two periods with a mirror symmetry along y. -/
example : HFits 5 true 0 ∧ HFits 7 true 2 ∧ (7 / 4 : ℝ) * meanStep [0, 1 / 4] ≠ 0 ∧
    Mirrored ([0, 1, 3, 4, 5, 7, 8] : List ℝ) 8 := by
  refine ⟨⟨⟨by decide, fun _ => by decide, fun h => absurd rfl h⟩, fun _ => by decide⟩,
    ⟨⟨by decide, fun _ => by decide, fun _ => by decide⟩, fun _ => by decide⟩, ?_, ?_⟩
  · rw [quarter_step]; norm_num
  · intro i hi
    have : i < 7 := hi
    interval_cases i <;> norm_num

end Verif.Cubic
