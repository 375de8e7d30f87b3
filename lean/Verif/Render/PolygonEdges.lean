import Verif.Render.PolygonLemmas
/-
Lemmas for C86: the intersections of the segments of the polygon with the grid lines, and the list of vertices of the
expanded polygon.
-/
set_option linter.unusedVariables false
set_option linter.unusedSectionVars false
namespace Verif.Render.Polygon

open Verif.Render

variable {K : Type} [Field K] [LinearOrder K] [IsStrictOrderedRing K]

/-- The point at a fraction of the way from `p` to `q`. -/
def between (p q : K × K) (t : K) : K × K := (p.1 + (q.1 - p.1) * t, p.2 + (q.2 - p.2) * t)

theorem between_zero (p q : K × K) : between p q 0 = p := by simp [between]

theorem between_one (p q : K × K) : between p q 1 = q := by simp [between]

/-- All intersections are points of the segment. -/
theorem intersect_sound {p q : K × K} {b : (K × K) × (K × K)} {c : K × (K × K)} (h : intersect p q b = some c) :
    0 ≤ c.1 ∧ c.1 ≤ 1 ∧ c.2 = between p q c.1 := by
  simp only [intersect] at h
  split at h
  · cases h
  · split at h
    · rename_i hc
      cases h
      exact ⟨hc.1, hc.2.1, rfl⟩
    · cases h

theorem affine_bounds {h0 h1 t lo hi : K} (h0l : lo ≤ h0) (h0h : h0 ≤ hi) (h1l : lo ≤ h1) (h1h : h1 ≤ hi) (t0 : 0 ≤ t)
    (t1 : t ≤ 1) : lo ≤ h0 + (h1 - h0) * t ∧ h0 + (h1 - h0) * t ≤ hi := by
  constructor
  · nlinarith [mul_nonneg (sub_nonneg.2 h0l) (sub_nonneg.2 t1), mul_nonneg (sub_nonneg.2 h1l) t0]
  · nlinarith [mul_nonneg (sub_nonneg.2 h0h) (sub_nonneg.2 t1), mul_nonneg (sub_nonneg.2 h1h) t0]

/-- A vertical line is met where the segment has its coordinate. -/
theorem intersect_vertical {p q : K × K} {ylo yhi t : K} (hq : p.1 ≠ q.1) (hlt : ylo < yhi) (hp2 : ylo ≤ p.2 ∧ p.2 ≤ yhi)
    (hq2 : ylo ≤ q.2 ∧ q.2 ≤ yhi) (t0 : 0 ≤ t) (t1 : t ≤ 1) :
    intersect p q ((p.1 + (q.1 - p.1) * t, ylo), (p.1 + (q.1 - p.1) * t, yhi)) = some (t, between p q t) := by
  have hd : q.1 - p.1 ≠ 0 := sub_ne_zero.2 hq.symm
  have hh : yhi - ylo ≠ 0 := sub_ne_zero.2 hlt.ne'
  have hden : (yhi - ylo) * (q.1 - p.1) -
      ((p.1 + (q.1 - p.1) * t) - (p.1 + (q.1 - p.1) * t)) * (q.2 - p.2) ≠ 0 := by
    rw [sub_self, zero_mul, sub_zero]
    exact mul_ne_zero hh hd
  have hb := affine_bounds hp2.1 hp2.2 hq2.1 hq2.2 t0 t1
  have hfa : ((p.1 + (q.1 - p.1) * t - p.1) * (yhi - ylo) -
      (ylo - p.2) * ((p.1 + (q.1 - p.1) * t) - (p.1 + (q.1 - p.1) * t))) /
      ((yhi - ylo) * (q.1 - p.1) - ((p.1 + (q.1 - p.1) * t) - (p.1 + (q.1 - p.1) * t)) * (q.2 - p.2)) = t := by
    rw [div_eq_iff hden]
    ring
  have hfb : ((p.1 + (q.1 - p.1) * t - p.1) * (q.2 - p.2) - (ylo - p.2) * (q.1 - p.1)) /
      ((yhi - ylo) * (q.1 - p.1) - ((p.1 + (q.1 - p.1) * t) - (p.1 + (q.1 - p.1) * t)) * (q.2 - p.2)) =
      (p.2 + (q.2 - p.2) * t - ylo) / (yhi - ylo) := by
    rw [div_eq_div_iff hden hh]
    ring
  simp only [intersect]
  rw [if_neg hden, hfa, hfb, if_pos]
  · rfl
  · refine ⟨t0, t1, div_nonneg (by linarith) (by linarith), ?_⟩
    rw [div_le_one (by linarith)]
    linarith

/-- A horizontal line is met where the segment has its coordinate. -/
theorem intersect_horizontal {p q : K × K} {xlo xhi t : K} (hq : p.2 ≠ q.2) (hlt : xlo < xhi)
    (hp1 : xlo ≤ p.1 ∧ p.1 ≤ xhi) (hq1 : xlo ≤ q.1 ∧ q.1 ≤ xhi) (t0 : 0 ≤ t) (t1 : t ≤ 1) :
    intersect p q ((xlo, p.2 + (q.2 - p.2) * t), (xhi, p.2 + (q.2 - p.2) * t)) = some (t, between p q t) := by
  have hd : q.2 - p.2 ≠ 0 := sub_ne_zero.2 hq.symm
  have hh : xhi - xlo ≠ 0 := sub_ne_zero.2 hlt.ne'
  have hden : ((p.2 + (q.2 - p.2) * t) - (p.2 + (q.2 - p.2) * t)) * (q.1 - p.1) - (xhi - xlo) * (q.2 - p.2) ≠ 0 := by
    rw [sub_self, zero_mul, zero_sub]
    exact neg_ne_zero.2 (mul_ne_zero hh hd)
  have hb := affine_bounds hp1.1 hp1.2 hq1.1 hq1.2 t0 t1
  have hfa : ((xlo - p.1) * ((p.2 + (q.2 - p.2) * t) - (p.2 + (q.2 - p.2) * t)) -
      (p.2 + (q.2 - p.2) * t - p.2) * (xhi - xlo)) /
      (((p.2 + (q.2 - p.2) * t) - (p.2 + (q.2 - p.2) * t)) * (q.1 - p.1) - (xhi - xlo) * (q.2 - p.2)) = t := by
    rw [div_eq_iff hden]
    ring
  have hfb : ((xlo - p.1) * (q.2 - p.2) - (p.2 + (q.2 - p.2) * t - p.2) * (q.1 - p.1)) /
      (((p.2 + (q.2 - p.2) * t) - (p.2 + (q.2 - p.2) * t)) * (q.1 - p.1) - (xhi - xlo) * (q.2 - p.2)) =
      (p.1 + (q.1 - p.1) * t - xlo) / (xhi - xlo) := by
    rw [div_eq_div_iff hden hh]
    ring
  simp only [intersect]
  rw [if_neg hden, hfa, hfb, if_pos]
  · rfl
  · refine ⟨t0, t1, div_nonneg (by linarith) (by linarith), ?_⟩
    rw [div_le_one (by linarith)]
    linarith

/-! ### The fractions of the intersections -/

theorem mem_localGrid {lo hi c : K} {grid : List K} :
    c ∈ localGrid lo hi grid ↔ c = lo ∨ (c ∈ grid ∧ lo ≤ c ∧ c ≤ hi) ∨ c = hi := by
  simp [localGrid]

theorem mem_crossings {lines : List ((K × K) × (K × K))} {p q : K × K} {c : K × (K × K)} :
    c ∈ crossings lines p q ↔ ∃ b ∈ lines, intersect p q b = some c := by
  simp [crossings]

/-- The box of the polygon with positive sides, and its points. -/
structure Box (xlo xhi ylo yhi : K) (p : K × K) : Prop where
  x0 : xlo ≤ p.1
  x1 : p.1 ≤ xhi
  y0 : ylo ≤ p.2
  y1 : p.2 ≤ yhi

/-- A segment meets all the grid lines it should. -/
theorem crossing_x {xlo xhi ylo yhi : K} (hy : ylo < yhi) {gx gy : List K} {p q : K × K} (hp : Box xlo xhi ylo yhi p)
    (hq : Box xlo xhi ylo yhi q) (hne : p.1 ≠ q.1) {c t : K} (hc : c ∈ gx ∨ c = xlo) (t0 : 0 ≤ t) (t1 : t ≤ 1)
    (h : p.1 + (q.1 - p.1) * t = c) :
    (t, between p q t) ∈ crossings (gridLines xlo xhi ylo yhi gx gy) p q := by
  rw [mem_crossings]
  refine ⟨((c, ylo), (c, yhi)), ?_, ?_⟩
  · simp only [gridLines, List.mem_append, List.mem_map]
    refine Or.inr ⟨c, ?_, rfl⟩
    rw [mem_localGrid]
    have := affine_bounds hp.x0 hp.x1 hq.x0 hq.x1 t0 t1
    rw [h] at this
    rcases hc with hc | hc
    · exact Or.inr (Or.inl ⟨hc, this⟩)
    · exact Or.inl hc
  · rw [← h]
    exact intersect_vertical hne hy ⟨hp.y0, hp.y1⟩ ⟨hq.y0, hq.y1⟩ t0 t1

theorem crossing_y {xlo xhi ylo yhi : K} (hx : xlo < xhi) {gx gy : List K} {p q : K × K} (hp : Box xlo xhi ylo yhi p)
    (hq : Box xlo xhi ylo yhi q) (hne : p.2 ≠ q.2) {c t : K} (hc : c ∈ gy) (t0 : 0 ≤ t) (t1 : t ≤ 1)
    (h : p.2 + (q.2 - p.2) * t = c) :
    (t, between p q t) ∈ crossings (gridLines xlo xhi ylo yhi gx gy) p q := by
  rw [mem_crossings]
  refine ⟨((xlo, c), (xhi, c)), ?_, ?_⟩
  · simp only [gridLines, List.mem_append, List.mem_map]
    refine Or.inl ⟨c, ?_, rfl⟩
    rw [mem_localGrid]
    have := affine_bounds hp.y0 hp.y1 hq.y0 hq.y1 t0 t1
    rw [h] at this
    exact Or.inr (Or.inl ⟨hc, this⟩)
  · rw [← h]
    exact intersect_horizontal hne hx ⟨hp.x0, hp.x1⟩ ⟨hq.x0, hq.x1⟩ t0 t1

theorem crossings_sound {lines : List ((K × K) × (K × K))} {p q : K × K} {c : K × (K × K)}
    (h : c ∈ crossings lines p q) : 0 ≤ c.1 ∧ c.1 ≤ 1 ∧ c.2 = between p q c.1 := by
  obtain ⟨b, _, hb⟩ := mem_crossings.1 h
  exact intersect_sound hb

theorem crossings_sorted (lines : List ((K × K) × (K × K))) (p q : K × K) :
    (crossings lines p q).Pairwise fun a b => a.1 ≤ b.1 := by
  unfold crossings
  have : Std.Total (fun a b : K × (K × K) => a.1 ≤ b.1) := ⟨fun a b => le_total a.1 b.1⟩
  have : IsTrans (K × (K × K)) (fun a b : K × (K × K) => a.1 ≤ b.1) := ⟨fun a b c h1 h2 => le_trans h1 h2⟩
  exact List.pairwise_insertionSort _ _

/-! ### Neighbours on a segment -/

/-- One coordinate of the points of a segment, and the fractions `S` at which a line is met. -/
def Meets (cs : List K) (h0 h1 : K) (S : K → Prop) : Prop :=
  h0 ≠ h1 → ∀ c ∈ cs, ∀ t, 0 ≤ t → t ≤ 1 → h0 + (h1 - h0) * t = c → S t

theorem meets_notBetween {cs : List K} {h0 h1 : K} {S : K → Prop} (hm : Meets cs h0 h1 S) {a b : K} (a0 : 0 ≤ a)
    (hab : a ≤ b) (b1 : b ≤ 1) (hS : ∀ t, S t → t ≤ a ∨ b ≤ t) :
    NotBetween cs (h0 + (h1 - h0) * a) (h0 + (h1 - h0) * b) := by
  intro c hc
  have key : ∀ c ∈ cs, h0 ≠ h1 → ((c - h0) / (h1 - h0) ≤ a ∨ b ≤ (c - h0) / (h1 - h0)) ∨
      ¬ (0 ≤ (c - h0) / (h1 - h0) ∧ (c - h0) / (h1 - h0) ≤ 1) := by
    intro c hc hne
    by_cases hr : 0 ≤ (c - h0) / (h1 - h0) ∧ (c - h0) / (h1 - h0) ≤ 1
    · refine Or.inl (hS _ (hm hne c hc _ hr.1 hr.2 ?_))
      rw [mul_div_cancel₀ _ (sub_ne_zero.2 hne.symm)]
      ring
    · exact Or.inr hr
  rcases lt_trichotomy h0 h1 with hlt | heq | hgt
  · have hp : 0 < h1 - h0 := sub_pos.2 hlt
    have hmul : h0 + (h1 - h0) * ((c - h0) / (h1 - h0)) = c := by
      rw [mul_div_cancel₀ _ hp.ne']
      ring
    generalize hτ : (c - h0) / (h1 - h0) = τ at hmul
    have hk := key c hc hlt.ne
    rw [hτ] at hk
    have hab' : (h1 - h0) * a ≤ (h1 - h0) * b := mul_le_mul_of_nonneg_left hab hp.le
    refine ⟨fun ⟨u, v⟩ => ?_, fun ⟨u, v⟩ => by linarith⟩
    have u' : a < τ := lt_of_mul_lt_mul_left (by linarith : (h1 - h0) * a < (h1 - h0) * τ) hp.le
    have v' : τ < b := lt_of_mul_lt_mul_left (by linarith : (h1 - h0) * τ < (h1 - h0) * b) hp.le
    rcases hk with (hk | hk) | hk
    · linarith
    · linarith
    · exact hk ⟨by linarith, by linarith⟩
  · subst heq
    simp only [sub_self, zero_mul, add_zero]
    exact ⟨fun ⟨u, v⟩ => absurd (lt_trans u v) (lt_irrefl _), fun ⟨u, v⟩ => absurd (lt_trans u v) (lt_irrefl _)⟩
  · have hp : 0 < h0 - h1 := sub_pos.2 hgt
    have hmul : h0 + (h1 - h0) * ((c - h0) / (h1 - h0)) = c := by
      rw [mul_div_cancel₀ _ (by linarith)]
      ring
    generalize hτ : (c - h0) / (h1 - h0) = τ at hmul
    have hk := key c hc hgt.ne'
    rw [hτ] at hk
    have hab' : (h0 - h1) * a ≤ (h0 - h1) * b := mul_le_mul_of_nonneg_left hab hp.le
    refine ⟨fun ⟨u, v⟩ => by linarith, fun ⟨u, v⟩ => ?_⟩
    have u' : a < τ := lt_of_mul_lt_mul_left (by linarith : (h0 - h1) * a < (h0 - h1) * τ) hp.le
    have v' : τ < b := lt_of_mul_lt_mul_left (by linarith : (h0 - h1) * τ < (h0 - h1) * b) hp.le
    rcases hk with (hk | hk) | hk
    · linarith
    · linarith
    · exact hk ⟨by linarith, by linarith⟩

theorem closer_of_notBetween {cs : List K} {x y : K} (h : NotBetween cs x y) (he : ∀ c ∈ cs, x = c → y = c) :
    Closer cs x y := by
  intro c hc
  refine ⟨fun hx => ?_, fun hx => ?_, he c hc⟩
  · by_contra hy
    exact (h c hc).1 ⟨hx, not_le.1 hy⟩
  · by_contra hy
    exact (h c hc).2 ⟨not_le.1 hy, hx⟩

theorem meets_on {cs : List K} {h0 h1 : K} {S : K → Prop} (hm : Meets cs h0 h1 S) {a b : K} (a0 : 0 ≤ a) (a1 : a ≤ 1)
    (hab : S a → a = b) : ∀ c ∈ cs, h0 + (h1 - h0) * a = c → h0 + (h1 - h0) * b = c := by
  intro c hc h
  by_cases hne : h0 = h1
  · subst hne
    simpa using h
  · rw [← hab (hm hne c hc a a0 a1 h)]
    exact h

/-- The points of one segment: the intersections, and then the vertex at its end. -/
def edgeSteps (lines : List ((K × K) × (K × K))) (p q : K × K) : List (Step K) :=
  (crossings lines p q).map fun c => (c.2, false)

/-- The neighbours along a list of fractions, up to the end of the segment. -/
theorem along_fractions {gx gy : List K} {p q : K × K} {S : K → Prop} (hmx : Meets gx p.1 q.1 S)
    (hmy : Meets gy p.2 q.2 S) (ts : List (K × (K × K))) (hts : ∀ c ∈ ts, 0 ≤ c.1 ∧ c.1 ≤ 1 ∧ c.2 = between p q c.1)
    (hsort : ts.Pairwise fun a b => a.1 ≤ b.1) (a : K) (fl : Bool) (a0 : 0 ≤ a) (a1 : a ≤ 1)
    (ha : ∀ c ∈ ts, a ≤ c.1)
    (hS : ∀ t, S t → (t ≤ a ∧ ¬ (fl = true ∧ t = a)) ∨ ∃ c ∈ ts, c.1 = t) :
    Along (Linked gx gy) (between p q a, fl) (ts.map (fun c => (c.2, false)) ++ [(q, true)]) := by
  induction ts generalizing a fl with
  | nil =>
    have hno : ∀ t, S t → t ≤ a ∨ 1 ≤ t := fun t ht => by
      rcases hS t ht with h | ⟨c, hc, _⟩
      · exact Or.inl h.1
      · cases hc
    have nx := meets_notBetween hmx a0 a1 le_rfl hno
    have ny := meets_notBetween hmy a0 a1 le_rfl hno
    have hq : q = between p q 1 := (between_one p q).symm
    refine ⟨⟨?_, ?_, ?_⟩, trivial⟩
    · rw [hq]
      exact ⟨by simpa [between] using nx, by simpa [between] using ny⟩
    · intro hfl
      simp only at hfl
      have hsa : S a → a = 1 := by
        intro ht
        rcases hS a ht with h | ⟨c, hc, _⟩
        · exact absurd ⟨hfl, rfl⟩ h.2
        · cases hc
      have ex := meets_on hmx a0 a1 hsa
      have ey := meets_on hmy a0 a1 hsa
      have cx := closer_of_notBetween nx ex
      have cy := closer_of_notBetween ny ey
      exact ⟨by simpa [between] using cx, by simpa [between] using cy⟩
    · intro _
      have hsa : S 1 → (1 : K) = a := by
        intro ht
        rcases hS 1 ht with h | ⟨c, hc, _⟩
        · exact le_antisymm h.1 a1
        · cases hc
      have ex := meets_on hmx zero_le_one le_rfl hsa
      have ey := meets_on hmy zero_le_one le_rfl hsa
      have cx := closer_of_notBetween nx.symm ex
      have cy := closer_of_notBetween ny.symm ey
      exact ⟨by simpa [between] using cx, by simpa [between] using cy⟩
  | cons c ts ih =>
    obtain ⟨c0, c1, c2⟩ := hts c List.mem_cons_self
    have hac := ha c List.mem_cons_self
    obtain ⟨s1, s2⟩ := List.pairwise_cons.1 hsort
    have hno : ∀ t, S t → t ≤ a ∨ c.1 ≤ t := fun t ht => by
      rcases hS t ht with h | ⟨d, hd, rfl⟩
      · exact Or.inl h.1
      · rcases List.mem_cons.1 hd with rfl | hd
        · exact Or.inr le_rfl
        · exact Or.inr (s1 d hd)
    have nx := meets_notBetween hmx a0 hac c1 hno
    have ny := meets_notBetween hmy a0 hac c1 hno
    simp only [List.map_cons, List.cons_append]
    rw [c2]
    refine ⟨⟨⟨nx, ny⟩, ?_, fun h => by cases h⟩, ?_⟩
    · intro hfl
      simp only at hfl
      have hsa : S a → a = c.1 := by
        intro ht
        rcases hS a ht with h | ⟨d, hd, hda⟩
        · exact absurd ⟨hfl, rfl⟩ h.2
        · refine le_antisymm hac ?_
          rw [← hda]
          rcases List.mem_cons.1 hd with rfl | hd
          · exact le_rfl
          · exact s1 d hd
      exact ⟨closer_of_notBetween nx (meets_on hmx a0 a1 hsa), closer_of_notBetween ny (meets_on hmy a0 a1 hsa)⟩
    · refine ih (fun d hd => hts d (List.mem_cons_of_mem _ hd)) s2 c.1 false c0 c1 s1 ?_
      intro t ht
      rcases hS t ht with h | ⟨d, hd, hdt⟩
      · exact Or.inl ⟨le_trans h.1 hac, by simp⟩
      · rcases List.mem_cons.1 hd with rfl | hd
        · exact Or.inl ⟨hdt.ge, by simp⟩
        · exact Or.inr ⟨d, hd, hdt⟩

/-- The neighbours on a segment of the polygon. -/
theorem along_edge {xlo xhi ylo yhi : K} (hx : xlo < xhi) (hy : ylo < yhi) {gx gy : List K} {p q : K × K}
    (hp : Box xlo xhi ylo yhi p) (hq : Box xlo xhi ylo yhi q) :
    Along (Linked gx gy) (p, true) (edgeSteps (gridLines xlo xhi ylo yhi gx gy) p q ++ [(q, true)]) := by
  have h := along_fractions (gx := gx) (gy := gy) (p := p) (q := q)
    (S := fun t => (t, between p q t) ∈ crossings (gridLines xlo xhi ylo yhi gx gy) p q)
    (fun hne c hc t t0 t1 e => crossing_x hy hp hq hne (Or.inl hc) t0 t1 e)
    (fun hne c hc t t0 t1 e => crossing_y hx hp hq hne hc t0 t1 e)
    (crossings (gridLines xlo xhi ylo yhi gx gy) p q) (fun c hc => crossings_sound hc) (crossings_sorted _ p q)
    0 true le_rfl zero_le_one (fun c hc => (crossings_sound hc).1) (fun t ht => Or.inr ⟨_, ht, rfl⟩)
  rw [between_zero] at h
  exact h

/-! ### The expanded polygon -/

/-- The steps of the whole polygon. -/
def steps (lines : List ((K × K) × (K × K))) : K × K → List (K × K) → List (Step K)
  | _, [] => []
  | p, q :: l => edgeSteps lines p q ++ (q, true) :: steps lines q l

theorem along_steps {lines : List ((K × K) × (K × K))} {gx gy : List K} (p : K × K) (l : List (K × K))
    (h : Along (fun p q => Along (Linked gx gy) (p, true) (edgeSteps lines p q ++ [(q, true)])) p l) :
    Along (Linked gx gy) (p, true) (steps lines p l) := by
  induction l generalizing p with
  | nil => trivial
  | cons q l ih =>
    simp only [steps]
    rw [along_append]
    exact ⟨h.1, ih q h.2⟩

theorem pathSum_steps {lines : List ((K × K) × (K × K))} (f : Step K → Step K → K) (p : K × K) (l : List (K × K)) :
    pathSum f (p, true) (steps lines p l) =
      pathSum (fun p q => pathSum f (p, true) (edgeSteps lines p q ++ [(q, true)])) p l := by
  induction l generalizing p with
  | nil => rfl
  | cons q l ih =>
    simp only [steps, pathSum]
    rw [pathSum_append, ih]

theorem steps_append (lines : List ((K × K) × (K × K))) (p z : K × K) (l : List (K × K)) :
    ∃ m, steps lines p (l ++ [z]) = m ++ [(z, true)] ∧
      (pairs p (l ++ [z])).flatMap (fun e => (e.1, true) :: edgeSteps lines e.1 e.2) = (p, true) :: m := by
  induction l generalizing p with
  | nil =>
    refine ⟨edgeSteps lines p z, ?_, ?_⟩
    · simp [steps]
    · simp [pairs]
  | cons q l ih =>
    obtain ⟨m, h1, h2⟩ := ih q
    refine ⟨edgeSteps lines p q ++ (q, true) :: m, ?_, ?_⟩
    · simp only [List.cons_append, steps, h1, List.append_assoc]
    · simp only [List.cons_append, pairs, List.flatMap_cons, h2]

/-- The code's list of points is the list of the steps, those outside of the grid left out and the others clipped. -/
theorem filter_expand {gx gy : List K} (hx : gx.Pairwise (· < ·)) (hy : gy.Pairwise (· < ·)) (lx : 2 ≤ gx.length)
    (ly : 2 ≤ gy.length) (lines : List ((K × K) × (K × K))) (es : List ((K × K) × (K × K))) :
    (es.flatMap (expandEdge gx gy lines)).filter (onGrid gx gy) =
      ((es.flatMap fun e => (e.1, true) :: edgeSteps lines e.1 e.2).filter (kept gx gy)).map
        fun s => clipPoint gx gy s.1 := by
  induction es with
  | nil => rfl
  | cons e es ih =>
    simp only [List.flatMap_cons, List.filter_append, List.map_append, ih]
    congr 1
    have hc : ((crossings lines e.1 e.2).map fun c => clipPoint gx gy c.2).filter (onGrid gx gy) =
        ((edgeSteps lines e.1 e.2).filter (kept gx gy)).map fun s => clipPoint gx gy s.1 := by
      rw [List.filter_eq_self.2, List.filter_eq_self.2]
      · simp only [edgeSteps, List.map_map]
        rfl
      · intro s hs
        simp only [edgeSteps, List.mem_map] at hs
        obtain ⟨c, _, rfl⟩ := hs
        rfl
      · intro u hu
        obtain ⟨c, _, rfl⟩ := List.mem_map.1 hu
        exact clipPoint_onGrid hx hy lx ly _
    by_cases he : onGrid gx gy e.1 = true
    · rw [expandEdge, List.filter_cons_of_pos he, hc, List.filter_cons_of_pos (by simp [kept, he]), List.map_cons,
        clipPoint_self he]
    · rw [expandEdge, List.filter_cons_of_neg he, hc, List.filter_cons_of_neg (by simpa [kept] using he)]

/-- The closed path of the kept steps has the same area as that of all steps, and no line of the grid separates its
neighbours. -/
theorem drop_closed {gx gy : List K} {i j : Nat} (h : Sides gx gy i j) (s : Step K) (m : List (Step K))
    (hl : Along (Linked gx gy) s (m ++ [s])) (v : Step K) (vs : List (Step K))
    (hk : (s :: m).filter (kept gx gy) = v :: vs) :
    pathSum (stepArea gx gy i j) s (m ++ [s]) = pathSum (stepArea gx gy i j) v (vs ++ [v]) ∧
      Along (fun a b => Near gx gy a.1 b.1) v (vs ++ [v]) := by
  by_cases hs : kept gx gy s = true
  · rw [List.filter_cons_of_pos hs] at hk
    obtain ⟨rfl, rfl⟩ := List.cons.inj hk
    exact (drop_outside h m s hs).1 s hl
  · rw [List.filter_cons_of_neg hs] at hk
    -- the path begins at the first kept step instead
    obtain ⟨m1, m2, hm, hm1, hv, hm2⟩ : ∃ m1 m2, m = m1 ++ v :: m2 ∧ m1.filter (kept gx gy) = [] ∧ kept gx gy v = true ∧
        m2.filter (kept gx gy) = vs := by
      clear hl
      induction m with
      | nil => cases hk
      | cons w m ih =>
        by_cases hw : kept gx gy w = true
        · rw [List.filter_cons_of_pos hw] at hk
          obtain ⟨rfl, rfl⟩ := List.cons.inj hk
          exact ⟨[], m, rfl, rfl, hw, rfl⟩
        · rw [List.filter_cons_of_neg hw] at hk
          obtain ⟨m1, m2, a, b, c, d⟩ := ih hk
          refine ⟨w :: m1, m2, by rw [a]; rfl, ?_, c, d⟩
          rw [List.filter_cons_of_neg hw, b]
    subst hm
    rw [List.append_assoc, List.cons_append, along_append] at hl
    rw [List.append_assoc, List.cons_append, pathSum_append]
    have hrot : Along (Linked gx gy) v ((m2 ++ s :: m1) ++ [v]) := by
      rw [List.append_assoc, List.cons_append, along_append]
      exact ⟨hl.2, hl.1⟩
    obtain ⟨a, b⟩ := (drop_outside h (m2 ++ s :: m1) v hv).1 v hrot
    have hf : (m2 ++ s :: m1).filter (kept gx gy) = vs := by
      rw [List.filter_append, List.filter_cons_of_neg hs, hm1, hm2, List.append_nil]
    rw [hf] at a b
    refine ⟨?_, b⟩
    rw [← a, List.append_assoc, List.cons_append, pathSum_append _ v s m2 (m1 ++ [v]), add_comm]

end Verif.Render.Polygon
