import Verif.Render.DrawSpec
import Verif.Render.PolygonProps
import Verif.Render.PaintProps
/-
Lemmas for C87: a polygon is nowhere outside of its box, the windows, and the values of the cells.
-/
set_option linter.unusedVariables false
set_option linter.unusedSectionVars false
namespace Verif.Render.Draw

open Verif.Render Verif.Render.Polygon Set MeasureTheory

/-! ### Outside of the box -/

theorem pathSum_difference {A : Type} (h : A → ℝ) (u v : A) (l : List A) :
    pathSum (fun a b => h b - h a) u (l ++ [v]) = h v - h u := by
  induction l generalizing u with
  | nil => simp [pathSum]
  | cons w l ih =>
    simp only [List.cons_append, pathSum, ih]
    ring

theorem xAt_between {p q : ℝ × ℝ} {y xlo xhi : ℝ} (h : p.2 < y ∧ y ≤ q.2 ∨ q.2 < y ∧ y ≤ p.2) (hp : xlo ≤ p.1 ∧ p.1 ≤ xhi)
    (hq : xlo ≤ q.1 ∧ q.1 ≤ xhi) : xlo ≤ xAt p q y ∧ xAt p q y ≤ xhi := by
  have ht : 0 ≤ (y - p.2) / (q.2 - p.2) ∧ (y - p.2) / (q.2 - p.2) ≤ 1 := by
    rcases h with ⟨h1, h2⟩ | ⟨h1, h2⟩
    · exact ⟨div_nonneg (by linarith) (by linarith), (div_le_one (by linarith)).2 (by linarith)⟩
    · rw [← neg_div_neg_eq]
      exact ⟨div_nonneg (by linarith) (by linarith), (div_le_one (by linarith)).2 (by linarith)⟩
  unfold xAt
  generalize (y - p.2) / (q.2 - p.2) = t at *
  obtain ⟨t0, t1⟩ := ht
  constructor <;> nlinarith

theorem winding_outside {poly : List (ℝ × ℝ)} {xlo xhi ylo yhi : ℝ} (hbox : ∀ u ∈ poly, Box xlo xhi ylo yhi u) {z : ℝ × ℝ}
    (h : z.1 ≤ xlo ∨ xhi < z.1 ∨ z.2 ≤ ylo ∨ yhi < z.2) : (winding poly z : ℝ) = 0 := by
  rw [winding_eq]
  cases poly with
  | nil => simp [edges]
  | cons p l =>
    rw [edges_eq]
    have hm : ∀ s ∈ pairs p (l ++ [p]), Box xlo xhi ylo yhi s.1 ∧ Box xlo xhi ylo yhi s.2 := by
      intro s hs
      obtain ⟨h1, h2⟩ := pairs_mem p (l ++ [p]) s hs
      exact ⟨hbox _ (closed_mem p l _ h1), hbox _ (closed_mem p l _ h2)⟩
    rcases h with h | h | h | h
    · refine List.sum_eq_zero fun y hy => ?_
      obtain ⟨s, hs, rfl⟩ := List.mem_map.1 hy
      obtain ⟨b1, b2⟩ := hm s hs
      unfold crossing
      rw [if_neg, if_neg, Int.cast_zero]
      · rintro ⟨h1, h2, h3⟩
        have := (xAt_between (p := s.1) (q := s.2) (Or.inr ⟨h1, h2⟩) ⟨b1.x0, b1.x1⟩ ⟨b2.x0, b2.x1⟩).1
        linarith
      · rintro ⟨h1, h2, h3⟩
        have := (xAt_between (p := s.1) (q := s.2) (Or.inl ⟨h1, h2⟩) ⟨b1.x0, b1.x1⟩ ⟨b2.x0, b2.x1⟩).1
        linarith
    · have key : ∀ s ∈ pairs p (l ++ [p]), (crossing s.1 s.2 z : ℝ) =
          (fun a b : ℝ × ℝ => (if z.2 ≤ b.2 then (1 : ℝ) else 0) - if z.2 ≤ a.2 then 1 else 0) s.1 s.2 := by
        intro s hs
        obtain ⟨b1, b2⟩ := hm s hs
        unfold crossing
        by_cases hp : z.2 ≤ s.1.2 <;> by_cases hq : z.2 ≤ s.2.2
        · simp [hp, hq, not_lt.2 hp, not_lt.2 hq]
        · have := (xAt_between (p := s.1) (q := s.2) (Or.inr ⟨not_le.1 hq, hp⟩) ⟨b1.x0, b1.x1⟩ ⟨b2.x0, b2.x1⟩).2
          rw [if_neg fun h' => hq h'.2.1, if_pos ⟨not_le.1 hq, hp, by linarith⟩]
          simp [hp, hq]
        · have := (xAt_between (p := s.1) (q := s.2) (Or.inl ⟨not_le.1 hp, hq⟩) ⟨b1.x0, b1.x1⟩ ⟨b2.x0, b2.x1⟩).2
          rw [if_pos ⟨not_le.1 hp, hq, by linarith⟩]
          simp [hp, hq]
        · simp [hp, hq]
      rw [List.map_congr_left key]
      rw [pathSum_pairs (fun a b : ℝ × ℝ => (if z.2 ≤ b.2 then (1 : ℝ) else 0) - if z.2 ≤ a.2 then 1 else 0) p (l ++ [p]),
        pathSum_difference (fun a : ℝ × ℝ => if z.2 ≤ a.2 then (1 : ℝ) else 0) p p l, sub_self]
    · refine List.sum_eq_zero fun y hy => ?_
      obtain ⟨s, hs, rfl⟩ := List.mem_map.1 hy
      obtain ⟨b1, b2⟩ := hm s hs
      unfold crossing
      rw [if_neg fun h' => absurd h'.1 (not_lt.2 (h.trans b1.y0)), if_neg fun h' => absurd h'.1 (not_lt.2 (h.trans b2.y0)),
        Int.cast_zero]
    · refine List.sum_eq_zero fun y hy => ?_
      obtain ⟨s, hs, rfl⟩ := List.mem_map.1 hy
      obtain ⟨b1, b2⟩ := hm s hs
      unfold crossing
      rw [if_neg fun h' => absurd (h'.2.1.trans b2.y1) (not_le.2 h), if_neg fun h' => absurd (h'.2.1.trans b1.y1) (not_le.2 h),
        Int.cast_zero]

/-- The part of a rectangle covered by a polygon, as `raster_2D` finds it. -/
noncomputable def share (poly : List (ℝ × ℝ)) (I J : ℝ × ℝ) : ℝ :=
  |∫ y in J.1..J.2, ∫ x in I.1..I.2, (winding poly (x, y) : ℝ)| / ((I.2 - I.1) * (J.2 - J.1))

theorem share_outside {poly : List (ℝ × ℝ)} {xlo xhi ylo yhi : ℝ} (hbox : ∀ u ∈ poly, Box xlo xhi ylo yhi u) {I J : ℝ × ℝ}
    (hI : I.1 ≤ I.2) (hJ : J.1 ≤ J.2) (h : (I.2 ≤ xlo ∨ xhi ≤ I.1) ∨ (J.2 ≤ ylo ∨ yhi ≤ J.1)) : share poly I J = 0 := by
  have : ∫ y in J.1..J.2, ∫ x in I.1..I.2, (winding poly (x, y) : ℝ) = 0 := by
    rw [intervalIntegral.integral_of_le hJ]
    refine setIntegral_eq_zero_of_forall_eq_zero fun y hy => ?_
    rw [intervalIntegral.integral_of_le hI]
    refine setIntegral_eq_zero_of_forall_eq_zero fun x hx => ?_
    refine winding_outside hbox ?_
    simp only
    rcases h with (h | h) | (h | h)
    · exact Or.inl (hx.2.trans h)
    · exact Or.inr (Or.inl (h.trans_lt hx.1))
    · exact Or.inr (Or.inr (Or.inl (hy.2.trans h)))
    · exact Or.inr (Or.inr (Or.inr (h.trans_lt hy.1)))
  rw [share, this, abs_zero, zero_div]

/-! ### Sides of the cells -/

theorem comp_side (p own : Bool) (e : List ℝ) (hn : 2 ≤ e.length) (k : Nat) (hk : k + 1 < e.length) :
    at' (compEdges p (if own then 0 else 1 / 2) e) k = (yeeCell p own e k).1 ∧
    at' (compEdges p (if own then 0 else 1 / 2) e) (k + 1) = (yeeCell p own e k).2 := by
  cases own
  · simp only [Bool.false_eq_true, if_false, yeeCell]
    have h0 : (1 / 2 : ℝ) ≠ 0 := by norm_num
    rw [at'_comp_succ p (1 / 2) h0 e k (by omega), at'_ghost p e k hk]
    refine ⟨?_, by simp only [at']; ring⟩
    cases k with
    | zero =>
      rw [at'_comp_first p (1 / 2) h0 e (by omega), if_pos rfl]
      have hl : e.length - 1 = (widths e).length := (widths_length e).symm
      rw [widthsGhost, hl, at'_append_last, ← hl]
      have h2 : e.length - 1 - 1 = e.length - 2 := by omega
      cases p
      · simp only [Bool.false_eq_true, if_false]
        rw [at'_widths e _ (by omega), h2]
        have h3 : e.length - 2 + 1 = e.length - 1 := by omega
        rw [h3]
        simp only [at']
        ring
      · simp only [if_true]
        rw [at'_widths e _ (by omega)]
        simp only [at']
        ring
    | succ k =>
      rw [at'_comp_succ p (1 / 2) h0 e k (by omega), at'_ghost p e k (by omega), if_neg (by omega)]
      simp only [at', Nat.add_sub_cancel]
      ring
  · simp only [if_true, yeeCell]
    rw [at'_comp_zero p e k (by omega), at'_comp_zero p e (k + 1) (by omega)]
    exact ⟨rfl, rfl⟩

variable {g : Grid3 ℝ} (hg : YeeGrid g)
include hg

theorem side_edges (n : Fin 3) (c : Fin 3 → Nat) (hc : OnGrid g c) (a : Fin 3) :
    at' (compEdges (g.periodic a) (g.comp n a) (g.exyz a)) (c a) = (side g n c a).1 ∧
    at' (compEdges (g.periodic a) (g.comp n a) (g.exyz a)) (c a + 1) = (side g n c a).2 := by
  have h := comp_side (g.periodic a) (decide (a = n)) (g.exyz a) (hg.two a) (c a) (hc a)
  rw [hg.comp n a]
  simpa [side] using h

theorem yeeShifts (n a : Fin 3) : YeeShifts (g.shift n a) (g.comp n a) := by
  rw [hg.comp n a, hg.shift n a]
  by_cases h : a = n
  · simp [h, YeeShifts]
  · simp [h, YeeShifts]

theorem side_lt (n : Fin 3) (c : Fin 3 → Nat) (hc : OnGrid g c) (a : Fin 3) : (side g n c a).1 < (side g n c a).2 := by
  obtain ⟨h1, h2⟩ := side_edges hg n c hc a
  rw [← h1, ← h2]
  have hs : 0 ≤ g.comp n a ∧ g.comp n a ≤ 1 := by
    rw [hg.comp n a]
    split <;> norm_num
  refine at'_lt (comp_increasing (g.periodic a) (g.comp n a) hs.1 hs.2 (g.exyz a) (hg.inc a) (hg.two a))
    (Nat.lt_succ_self _) ?_
  have := hc a
  have := hg.two a
  by_cases h0 : g.comp n a = 0
  · rw [h0, comp_length_zero _ _ (by omega)]
    omega
  · rw [comp_length _ _ h0 _ (by omega)]
    omega

theorem window_fits {n a : Fin 3} {z0 z1 : ℝ} {w : Nat × Nat × List ℝ}
    (h : WindowFor (compEdges (g.periodic a) (g.comp n a) (g.exyz a)) ((g.exyz a).length - 1) z0 z1 w) :
    fits w ((g.exyz a).length - 1) := by
  have h1 := h.le
  have h2 := h.lt
  have h3 := h.len
  unfold fits
  omega

theorem window_edges {n a : Fin 3} {z0 z1 : ℝ} {w : Nat × Nat × List ℝ}
    (h : WindowFor (compEdges (g.periodic a) (g.comp n a) (g.exyz a)) ((g.exyz a).length - 1) z0 z1 w)
    {c : Fin 3 → Nat} (hc : OnGrid g c) (hin : inWindow w (c a)) :
    at' w.2.2 (c a - w.1) = (side g n c a).1 ∧ at' w.2.2 (c a - w.1 + 1) = (side g n c a).2 := by
  obtain ⟨h1, h2⟩ := side_edges hg n c hc a
  obtain ⟨i1, i2⟩ := hin
  have e1 : w.1 + (c a - w.1) = c a := by omega
  have e2 : w.1 + (c a - w.1 + 1) = c a + 1 := by omega
  rw [h.edges _ (by omega), h.edges _ (by omega), e1, e2]
  exact ⟨h1, h2⟩

theorem window_out {n a : Fin 3} {z0 z1 : ℝ} {w : Nat × Nat × List ℝ}
    (h : WindowFor (compEdges (g.periodic a) (g.comp n a) (g.exyz a)) ((g.exyz a).length - 1) z0 z1 w)
    {c : Fin 3 → Nat} (hc : OnGrid g c) (hin : ¬ inWindow w (c a)) :
    (side g n c a).2 ≤ z0 ∨ z1 ≤ (side g n c a).1 := by
  obtain ⟨h1, h2⟩ := side_edges hg n c hc a
  have := hc a
  have := h.out (c a) (by omega) hin
  rwa [h1, h2] at this

/-! ### One polygon -/

section component
variable {E : Type} [AddCommGroup E] [Module ℝ E]

/-- `render_polygon` adds a polygon to each cell with the product of the covered parts in the plane and along the extrusion
axis. -/
theorem renderComponent_spec (n : Fin 3) (poly : List (ℝ × ℝ)) (hl : 3 ≤ poly.length) (hp : HasExtent poly) (z0 z1 : ℝ)
    (hz : RoundingHarmless (g.exyz g.ext) z0 z1) (eps : E) (f : Cells ℝ E) :
    ∃ f', renderComponent g n poly z0 z1 eps f = .ok f' ∧ ∀ c, OnGrid g c → f' c =
      renderPolygon (f c) (share poly (side g n c (planar g.ext).1) (side g n c (planar g.ext).2) *
        covered (min z0 z1) (max z0 z1) (side g n c g.ext).1 (side g n c g.ext).2) eps := by
  cases poly with
  | nil => simp at hl
  | cons p l =>
    have hbox := box_mem p l
    have hbp := hbox p List.mem_cons_self
    have wx := planeWindow_for (g.periodic (planar g.ext).1) _ _ (yeeShifts hg n (planar g.ext).1) (g.exyz (planar g.ext).1)
      (hg.inc _) (hg.two _) (lowest p.1 (l.map Prod.fst)) (highest p.1 (l.map Prod.fst)) (hbp.x0.trans hbp.x1)
    have wy := planeWindow_for (g.periodic (planar g.ext).2) _ _ (yeeShifts hg n (planar g.ext).2) (g.exyz (planar g.ext).2)
      (hg.inc _) (hg.two _) (lowest p.2 (l.map Prod.snd)) (highest p.2 (l.map Prod.snd)) (hbp.y0.trans hbp.y1)
    have wz := zWindow_for (g.periodic g.ext) _ _ (yeeShifts hg n g.ext) (g.exyz g.ext) (hg.inc _) (hg.two _) z0 z1 hz
    simp only [renderComponent]
    rw [if_neg (by omega)]
    generalize axisWindow (g.periodic (planar g.ext).1) _ _ _ (lowest p.1 (l.map Prod.fst)) (highest p.1 (l.map Prod.fst)) = vx at *
    generalize axisWindow (g.periodic (planar g.ext).2) _ _ _ (lowest p.2 (l.map Prod.snd)) (highest p.2 (l.map Prod.snd)) = vy at *
    generalize zWindow (g.periodic g.ext) _ _ _ z0 z1 = vz at *
    have lx := wx.len
    have ly := wy.len
    have lz := wz.len
    have dx := wx.le
    have dy := wy.le
    have dz := wz.le
    obtain ⟨img, hi1, hi2, hi3, hi4⟩ := raster_exact ⟨wx.inc, wy.inc, by omega, by omega⟩ (p :: l) hp
    obtain ⟨w, hw1, hw2, hw3⟩ := raster_1d_fraction z0 z1 vz.2.2 wz.inc (by omega)
    simp only [hi1, hw1]
    rw [if_pos ⟨window_fits hg wx, window_fits hg wy, window_fits hg wz⟩]
    refine ⟨_, rfl, fun c hc => ?_⟩
    by_cases hin : inWindow vx (c (planar g.ext).1) ∧ inWindow vy (c (planar g.ext).2) ∧ inWindow vz (c g.ext)
    · rw [if_pos hin]
      obtain ⟨ix, iy, iz⟩ := hin
      obtain ⟨ex1, ex2⟩ := window_edges hg wx hc ix
      obtain ⟨ey1, ey2⟩ := window_edges hg wy hc iy
      obtain ⟨ez1, ez2⟩ := window_edges hg wz hc iz
      have h2 := hi4 (c (planar g.ext).1 - vx.1) (c (planar g.ext).2 - vy.1) (by obtain ⟨_, _⟩ := ix; omega)
        (by obtain ⟨_, _⟩ := iy; omega)
      have h3 := hw3 (c g.ext - vz.1) (by obtain ⟨_, _⟩ := iz; omega)
      congr 2
      · change pixel img _ _ = _
        rw [h2]
        change |∫ y in at' vy.2.2 _..at' vy.2.2 _, ∫ x in at' vx.2.2 _..at' vx.2.2 _, _| /
          ((at' vx.2.2 _ - at' vx.2.2 _) * (at' vy.2.2 _ - at' vy.2.2 _)) = _
        rw [ex1, ex2, ey1, ey2, share]
      · rw [at', List.getD_eq_getElem?_getD, h3, Option.getD_some, ez1, ez2]
    · rw [if_neg hin]
      have h0 : share (p :: l) (side g n c (planar g.ext).1) (side g n c (planar g.ext).2) *
          covered (min z0 z1) (max z0 z1) (side g n c g.ext).1 (side g n c g.ext).2 = 0 := by
        by_cases ix : inWindow vx (c (planar g.ext).1)
        · by_cases iy : inWindow vy (c (planar g.ext).2)
          · have iz : ¬ inWindow vz (c g.ext) := fun iz => hin ⟨ix, iy, iz⟩
            rcases window_out hg wz hc iz with h | h
            · rw [covered_left h, mul_zero]
            · rw [covered_right h, mul_zero]
          · rw [share_outside hbox (side_lt hg n c hc _).le (side_lt hg n c hc _).le (Or.inr (window_out hg wy hc iy)),
              zero_mul]
        · rw [share_outside hbox (side_lt hg n c hc _).le (side_lt hg n c hc _).le (Or.inl (window_out hg wx hc ix)),
            zero_mul]
      rw [h0]
      simp [renderPolygon]

/-! ### All polygons -/

variable {R : Type}

theorem renderPieces_spec (n : Fin 3) (outline : R → List (ℝ × ℝ)) (z0 z1 : ℝ) (hz : RoundingHarmless (g.exyz g.ext) z0 z1)
    (hzz : z0 ≤ z1) (ps : List (R × (Fin 3 → E))) (hps : ∀ p ∈ ps, 3 ≤ (outline p.1).length ∧ HasExtent (outline p.1))
    (f : Cells ℝ E) :
    ∃ f', renderPieces g n outline z0 z1 ps f = .ok f' ∧ ∀ c, OnGrid g c → ∀ acc : (Fin 3 → E) × ℝ,
      f c = (acc.1 n, acc.2) →
      f' c = ((ps.foldl (fun acc p => renderPolygon acc
        (share (outline p.1) (side g n c (planar g.ext).1) (side g n c (planar g.ext).2) *
          covered z0 z1 (side g n c g.ext).1 (side g n c g.ext).2) p.2) acc).1 n,
        (ps.foldl (fun acc p => renderPolygon acc
        (share (outline p.1) (side g n c (planar g.ext).1) (side g n c (planar g.ext).2) *
          covered z0 z1 (side g n c g.ext).1 (side g n c g.ext).2) p.2) acc).2) := by
  induction ps generalizing f with
  | nil => exact ⟨f, rfl, fun c _ acc h => h⟩
  | cons p ps ih =>
    obtain ⟨h1, h2⟩ := hps p List.mem_cons_self
    obtain ⟨f1, e1, v1⟩ := renderComponent_spec hg n (outline p.1) h1 h2 z0 z1 hz (p.2 n) f
    obtain ⟨f2, e2, v2⟩ := ih (fun q hq => hps q (List.mem_cons_of_mem _ hq)) f1
    refine ⟨f2, by simp only [renderPieces, e1, e2], fun c hc acc hacc => ?_⟩
    rw [List.foldl_cons]
    refine v2 c hc _ ?_
    rw [v1 c hc, hacc, min_eq_left hzz, max_eq_right hzz]
    simp [renderPolygon]

theorem renderLayers3_spec (n : Fin 3) (outline : R → List (ℝ × ℝ)) (lz : List ℝ) (hlz : lz.Pairwise (· < ·))
    (hz : ∀ k, k + 1 < lz.length → RoundingHarmless (g.exyz g.ext) (at' lz k) (at' lz (k + 1)))
    (ls : List (List (R × (Fin 3 → E)))) (hls : ∀ ps ∈ ls, ∀ p ∈ ps, 3 ≤ (outline p.1).length ∧ HasExtent (outline p.1))
    (i : Nat) (hi : i + ls.length + 1 ≤ lz.length ∨ ls = []) (f : Cells ℝ E) :
    ∃ f', renderLayers3 g n outline lz ls i f = .ok f' ∧ ∀ c, OnGrid g c → ∀ acc : (Fin 3 → E) × ℝ,
      f c = (acc.1 n, acc.2) →
      f' c = ((renderLayers (fun r => share (outline r) (side g n c (planar g.ext).1) (side g n c (planar g.ext).2))
        (fun a b => covered a b (side g n c g.ext).1 (side g n c g.ext).2) lz ls i acc).1 n,
        (renderLayers (fun r => share (outline r) (side g n c (planar g.ext).1) (side g n c (planar g.ext).2))
        (fun a b => covered a b (side g n c g.ext).1 (side g n c g.ext).2) lz ls i acc).2) := by
  induction ls generalizing i f with
  | nil => exact ⟨f, rfl, fun c _ acc h => h⟩
  | cons ps ls ih =>
    have hi : i + (ls.length + 1) + 1 ≤ lz.length := by
      rcases hi with h | h
      · simpa using h
      · cases h
    obtain ⟨f1, e1, v1⟩ := renderPieces_spec hg n outline (at' lz i) (at' lz (i + 1)) (hz i (by omega))
      (at'_lt hlz (Nat.lt_succ_self i) (by omega)).le ps (hls ps List.mem_cons_self) f
    obtain ⟨f2, e2, v2⟩ := ih (fun q hq => hls q (List.mem_cons_of_mem _ hq)) (i + 1) (Or.inl (by omega)) f1
    refine ⟨f2, by simp only [renderLayers3, e1, e2], fun c hc acc hacc => ?_⟩
    rw [renderLayers]
    exact v2 c hc _ (v1 c hc acc hacc)

end component

end Verif.Render.Draw
