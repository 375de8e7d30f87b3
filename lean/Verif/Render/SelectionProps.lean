import Verif.Render.Selection
import Mathlib.Algebra.Order.BigOperators.Group.List
import Mathlib.Algebra.BigOperators.Ring.List
import Mathlib.Algebra.Order.Ring.Rat
import Mathlib.Algebra.Module.BigOperators
import Mathlib.Tactic.Linarith
import Mathlib.Tactic.Ring
import Mathlib.Tactic.NormNum
import Mathlib.Tactic.FieldSimp
/-
C29: the selection matrix.
-/
set_option linter.unusedVariables false
set_option linter.unusedSectionVars false
namespace Verif.Render
variable {K : Type} [Field K] [LinearOrder K] [IsStrictOrderedRing K]
variable {E : Type} [AddCommGroup E] [Module K E]

/-! ### Specification -/

/-- The Yee cell has a quadrant in the design area. -/
def Touched (nx ny : Nat) (b : (Nat × Nat) × (Nat × Nat)) (comp : Fin 3) (i j : Nat) : Prop :=
  ∃ a c, b.1.1 ≤ a ∧ a ≤ b.2.1 ∧ b.1.2 ≤ c ∧ c ≤ b.2.2 ∧ quadCell nx ny comp a c = (i, j)

/-! ### Lemmas -/

theorem mem_structQuads (b : (Nat × Nat) × (Nat × Nat)) (q : Nat × Nat) :
    q ∈ structQuads b ↔ b.1.1 ≤ q.1 ∧ q.1 ≤ b.2.1 ∧ b.1.2 ≤ q.2 ∧ q.2 ≤ b.2.2 := by
  simp only [structQuads, List.mem_flatMap, List.mem_map, List.mem_range'_1]
  constructor
  · rintro ⟨a, ha, c, hc, rfl⟩
    simp only
    omega
  · rintro ⟨h1, h2, h3, h4⟩
    exact ⟨q.1, by omega, q.2, by omega, rfl⟩

theorem quarter_nonneg (nx ny : Nat) (comp : Fin 3) (ij q : Nat × Nat) : (0 : K) ≤ quarter nx ny comp ij q := by
  unfold quarter
  split
  · norm_num
  · exact le_refl _

/-- The sum of the quarters is positive for a cell that is touched and zero for the others. -/
theorem quarters_sum (nx ny : Nat) (b : (Nat × Nat) × (Nat × Nat)) (comp : Fin 3) (i j : Nat) :
    (Touched nx ny b comp i j → (0 : K) < ((structQuads b).map fun q => (quarter nx ny comp (i, j) q : K)).sum) ∧
    (¬ Touched nx ny b comp i j → ∀ q ∈ structQuads b, (quarter nx ny comp (i, j) q : K) = 0) := by
  constructor
  · rintro ⟨a, c, h1, h2, h3, h4, hq⟩
    have hm : (a, c) ∈ structQuads b := (mem_structQuads b (a, c)).2 ⟨h1, h2, h3, h4⟩
    have hpos : (0 : K) < quarter nx ny comp (i, j) (a, c) := by
      rw [quarter, if_pos hq]
      norm_num
    refine lt_of_lt_of_le hpos ?_
    refine List.single_le_sum ?_ _ (List.mem_map.2 ⟨(a, c), hm, rfl⟩)
    intro x hx
    obtain ⟨q, _, rfl⟩ := List.mem_map.1 hx
    exact quarter_nonneg _ _ _ _ _
  · intro h q hq
    obtain ⟨h1, h2, h3, h4⟩ := (mem_structQuads b q).1 hq
    rw [quarter, if_neg]
    intro hc
    exact h ⟨q.1, q.2, h1, h2, h3, h4, hc⟩

theorem struct2yee_sum (nx ny : Nat) (b : (Nat × Nat) × (Nat × Nat)) (comp : Fin 3) (i j : Nat)
    (h : Touched nx ny b comp i j) :
    ((structQuads b).map fun q => (struct2yee nx ny b comp (i, j) q : K)).sum = 1 := by
  have hpos := (quarters_sum (K := K) nx ny b comp i j).1 h
  simp only [struct2yee]
  rw [List.sum_map_mul_left]
  have : selNorm nx ny b comp (i, j) = ((structQuads b).map fun q => (quarter nx ny comp (i, j) q : K)).sum := by
    simp only [selNorm]
    rw [if_neg hpos.ne']
  rw [this, one_div, inv_mul_cancel₀ hpos.ne']

theorem struct2yee_zero (nx ny : Nat) (b : (Nat × Nat) × (Nat × Nat)) (comp : Fin 3) (i j : Nat)
    (h : ¬ Touched nx ny b comp i j) (q : Nat × Nat) (hq : q ∈ structQuads b) :
    (struct2yee nx ny b comp (i, j) q : K) = 0 := by
  rw [struct2yee, (quarters_sum nx ny b comp i j).2 h q hq, mul_zero]

theorem struct2yee_nonneg (nx ny : Nat) (b : (Nat × Nat) × (Nat × Nat)) (comp : Fin 3) (i j : Nat) (q : Nat × Nat) :
    (0 : K) ≤ struct2yee nx ny b comp (i, j) q := by
  have hn : (0 : K) < selNorm nx ny b comp (i, j) := by
    simp only [selNorm]
    split
    · norm_num
    · rename_i h
      refine lt_of_le_of_ne (List.sum_nonneg fun x hx => ?_) (Ne.symm h)
      obtain ⟨q, _, rfl⟩ := List.mem_map.1 hx
      exact quarter_nonneg _ _ _ _ _
  exact mul_nonneg (by positivity) (quarter_nonneg _ _ _ _ _)

theorem head_le_of_sorted {l : List Nat} (hl : l.Pairwise (· < ·)) {x y : Nat} (hx : l.head? = some x) (hy : y ∈ l) : x ≤ y := by
  cases l with
  | nil => cases hx
  | cons a l =>
    obtain rfl : a = x := by simpa using hx
    rcases List.mem_cons.1 hy with rfl | h
    · exact le_refl _
    · exact ((List.pairwise_cons.1 hl).1 y h).le

theorem le_last_of_sorted {l : List Nat} (hl : l.Pairwise (· < ·)) {x y : Nat} (hx : l.getLast? = some x) (hy : y ∈ l) : y ≤ x := by
  induction l with
  | nil => cases hy
  | cons a l ih =>
    obtain ⟨h1, h2⟩ := List.pairwise_cons.1 hl
    cases l with
    | nil =>
      obtain rfl : a = x := by simpa using hx
      simp at hy
      omega
    | cons b l =>
      rw [List.getLast?_cons_cons] at hx
      rcases List.mem_cons.1 hy with rfl | h
      · exact (h1 x (List.mem_of_getLast? hx)).le
      · exact ih h2 hx h

/-- Quadrants where all components differ are in the bounds. -/
theorem designQuad_in_bounds (mag : E → K) (nx ny nz : Nat) (bg fg : YeeField E) (b : (Nat × Nat) × (Nat × Nat))
    (hb : designBounds mag nx ny nz bg fg = some b) (a c : Nat) (ha : a < 2 * nx) (hc : c < 2 * ny)
    (h : designQuad mag nx ny nz bg fg a c = true) : b.1.1 ≤ a ∧ a ≤ b.2.1 ∧ b.1.2 ≤ c ∧ c ≤ b.2.2 := by
  simp only [designBounds] at hb
  split at hb
  · rename_i x0 y0 x1 y1 e1 e2 e3 e4
    obtain rfl := Option.some.inj hb
    have sx : ((List.range (2 * nx)).filter fun a =>
        (List.range (2 * ny)).any fun c => designQuad mag nx ny nz bg fg a c).Pairwise (· < ·) :=
      List.pairwise_lt_range.sublist List.filter_sublist
    have sy : ((List.range (2 * ny)).filter fun c =>
        (List.range (2 * nx)).any fun a => designQuad mag nx ny nz bg fg a c).Pairwise (· < ·) :=
      List.pairwise_lt_range.sublist List.filter_sublist
    have mx : a ∈ (List.range (2 * nx)).filter fun a =>
        (List.range (2 * ny)).any fun c => designQuad mag nx ny nz bg fg a c :=
      List.mem_filter.2 ⟨List.mem_range.2 ha, List.any_eq_true.2 ⟨c, List.mem_range.2 hc, h⟩⟩
    have my : c ∈ (List.range (2 * ny)).filter fun c =>
        (List.range (2 * nx)).any fun a => designQuad mag nx ny nz bg fg a c :=
      List.mem_filter.2 ⟨List.mem_range.2 hc, List.any_eq_true.2 ⟨a, List.mem_range.2 ha, h⟩⟩
    exact ⟨head_le_of_sorted sx e1 mx, le_last_of_sorted sx e3 mx, head_le_of_sorted sy e2 my, le_last_of_sorted sy e4 my⟩
  · cases hb

/-! ### Theorems -/

/-- **C29**. `create_selection_matrix` raises exactly when there is no quadrant where all three components differ by more
than the threshold. -/
theorem selection_raises (mag : E → K) (nx ny nz : Nat) (bg fg : YeeField E) (struct : Nat × Nat → K) :
    applySelection mag nx ny nz bg fg struct = none ↔
      ∀ a c, a < 2 * nx → c < 2 * ny → designQuad mag nx ny nz bg fg a c = false := by
  unfold applySelection
  constructor
  · intro h a c ha hc
    cases hd : designQuad mag nx ny nz bg fg a c with
    | false => rfl
    | true =>
      have mx : a ∈ (List.range (2 * nx)).filter fun a =>
          (List.range (2 * ny)).any fun c => designQuad mag nx ny nz bg fg a c :=
        List.mem_filter.2 ⟨List.mem_range.2 ha, List.any_eq_true.2 ⟨c, List.mem_range.2 hc, hd⟩⟩
      have my : c ∈ (List.range (2 * ny)).filter fun c =>
          (List.range (2 * nx)).any fun a => designQuad mag nx ny nz bg fg a c :=
        List.mem_filter.2 ⟨List.mem_range.2 hc, List.any_eq_true.2 ⟨a, List.mem_range.2 ha, hd⟩⟩
      have hb : ∃ b, designBounds mag nx ny nz bg fg = some b := by
        simp only [designBounds]
        generalize (List.range (2 * nx)).filter (fun a =>
          (List.range (2 * ny)).any fun c => designQuad mag nx ny nz bg fg a c) = lx at mx
        generalize (List.range (2 * ny)).filter (fun c =>
          (List.range (2 * nx)).any fun a => designQuad mag nx ny nz bg fg a c) = ly at my
        cases lx with
        | nil => cases mx
        | cons x lx =>
          cases ly with
          | nil => cases my
          | cons y ly =>
            rw [List.getLast?_cons, List.getLast?_cons]
            exact ⟨_, rfl⟩
      obtain ⟨b, hb⟩ := hb
      rw [hb] at h
      cases h
  · intro h
    have : designBounds mag nx ny nz bg fg = none := by
      have hx : (List.range (2 * nx)).filter (fun a =>
          (List.range (2 * ny)).any fun c => designQuad mag nx ny nz bg fg a c) = [] := by
        rw [List.filter_eq_nil_iff]
        intro a ha hc
        obtain ⟨c, hc1, hc2⟩ := List.any_eq_true.1 hc
        rw [h a c (List.mem_range.1 ha) (List.mem_range.1 hc1)] at hc2
        cases hc2
      simp only [designBounds, hx]
      rfl
    rw [this]

theorem sum_map_smul (l : List (Nat × Nat)) (f : Nat × Nat → K) (x : E) :
    (l.map fun q => f q • x).sum = (l.map f).sum • x := by
  induction l with
  | nil => simp
  | cons a l ih => simp only [List.map_cons, List.sum_cons, ih, add_smul]

/-- The weighted average of the structure in a cell. -/
theorem selection_value (mag : E → K) (nx ny nz : Nat) (bg fg eps : YeeField E) (struct : Nat × Nat → K)
    (b : (Nat × Nat) × (Nat × Nat)) (hb : designBounds mag nx ny nz bg fg = some b)
    (h : applySelection mag nx ny nz bg fg struct = some eps) (comp : Fin 3) (i j z : Nat) :
    eps comp i j z = bg comp i j z +
      ((structQuads b).map fun q => struct2yee nx ny b comp (i, j) q * struct q).sum • (fg comp i j z - bg comp i j z) := by
  simp only [applySelection, hb] at h
  obtain rfl := Option.some.inj h
  rw [← sum_map_smul]

/-- **C29**. Which quadrants a Yee cell has. Quadrants are half as wide as cells; along a direction in which the component is
on the cell edges the cell has the quadrants `2 i` and `2 i + 1`, along the others it has `2 i - 1` and `2 i`, periodically. -/
theorem quad_cell_spec (nx ny a c i j : Nat) (ha : a < 2 * nx) (hc : c < 2 * ny) (hi : i < nx) (hj : j < ny) :
    (quadCell nx ny 0 a c = (i, j) ↔ (a = 2 * i ∨ a = 2 * i + 1) ∧ (c = 2 * j ∨ c + 1 = 2 * j ∨ (j = 0 ∧ c + 1 = 2 * ny))) ∧
    (quadCell nx ny 1 a c = (i, j) ↔ (a = 2 * i ∨ a + 1 = 2 * i ∨ (i = 0 ∧ a + 1 = 2 * nx)) ∧ (c = 2 * j ∨ c = 2 * j + 1)) ∧
    (quadCell nx ny 2 a c = (i, j) ↔ (a = 2 * i ∨ a + 1 = 2 * i ∨ (i = 0 ∧ a + 1 = 2 * nx)) ∧
      (c = 2 * j ∨ c + 1 = 2 * j ∨ (j = 0 ∧ c + 1 = 2 * ny))) := by
  have hr : ∀ n x k : Nat, x < 2 * n → k < n →
      (((x + 1) % (2 * n)) / 2 = k ↔ (x = 2 * k ∨ x + 1 = 2 * k ∨ (k = 0 ∧ x + 1 = 2 * n))) := by
    intro n x k hx hk
    by_cases h : x + 1 = 2 * n
    · rw [h, Nat.mod_self]
      omega
    · rw [Nat.mod_eq_of_lt (by omega)]
      omega
  have hs : ∀ x k : Nat, x / 2 = k ↔ (x = 2 * k ∨ x = 2 * k + 1) := by
    intro x k
    omega
  simp only [quadCell, Prod.mk.injEq]
  rw [hr nx a i ha hi, hr ny c j hc hj, hs a i, hs c j]
  exact ⟨Iff.rfl, Iff.rfl, Iff.rfl⟩

/-- **C29**. The design area is the smallest rectangle that has all quadrants where all three components differ: each of its
four sides has such a quadrant. -/
theorem design_bounds_tight (mag : E → K) (nx ny nz : Nat) (bg fg : YeeField E) (b : (Nat × Nat) × (Nat × Nat))
    (hb : designBounds mag nx ny nz bg fg = some b) :
    (∀ a c, a < 2 * nx → c < 2 * ny → designQuad mag nx ny nz bg fg a c = true →
      b.1.1 ≤ a ∧ a ≤ b.2.1 ∧ b.1.2 ≤ c ∧ c ≤ b.2.2) ∧
    (∃ c, c < 2 * ny ∧ designQuad mag nx ny nz bg fg b.1.1 c = true) ∧
    (∃ c, c < 2 * ny ∧ designQuad mag nx ny nz bg fg b.2.1 c = true) ∧
    (∃ a, a < 2 * nx ∧ designQuad mag nx ny nz bg fg a b.1.2 = true) ∧
    (∃ a, a < 2 * nx ∧ designQuad mag nx ny nz bg fg a b.2.2 = true) ∧ b.2.1 < 2 * nx ∧ b.2.2 < 2 * ny := by
  refine ⟨fun a c ha hc h => designQuad_in_bounds mag nx ny nz bg fg b hb a c ha hc h, ?_⟩
  simp only [designBounds] at hb
  split at hb
  · rename_i x0 y0 x1 y1 e1 e2 e3 e4
    obtain rfl := Option.some.inj hb
    have hX : ∀ x ∈ (List.range (2 * nx)).filter fun a =>
        (List.range (2 * ny)).any fun c => designQuad mag nx ny nz bg fg a c,
        x < 2 * nx ∧ ∃ c, c < 2 * ny ∧ designQuad mag nx ny nz bg fg x c = true := by
      intro x hx
      obtain ⟨m1, m2⟩ := List.mem_filter.1 hx
      obtain ⟨c, hc1, hc2⟩ := List.any_eq_true.1 m2
      exact ⟨List.mem_range.1 m1, c, List.mem_range.1 hc1, hc2⟩
    have hY : ∀ x ∈ (List.range (2 * ny)).filter fun c =>
        (List.range (2 * nx)).any fun a => designQuad mag nx ny nz bg fg a c,
        x < 2 * ny ∧ ∃ a, a < 2 * nx ∧ designQuad mag nx ny nz bg fg a x = true := by
      intro x hx
      obtain ⟨m1, m2⟩ := List.mem_filter.1 hx
      obtain ⟨c, hc1, hc2⟩ := List.any_eq_true.1 m2
      exact ⟨List.mem_range.1 m1, c, List.mem_range.1 hc1, hc2⟩
    exact ⟨(hX _ (List.mem_of_mem_head? e1)).2, (hX _ (List.mem_of_getLast? e3)).2,
      (hY _ (List.mem_of_mem_head? e2)).2, (hY _ (List.mem_of_getLast? e4)).2,
      (hX _ (List.mem_of_getLast? e3)).1, (hY _ (List.mem_of_getLast? e4)).1⟩
  · cases hb

/-- **C29**. The quadrants that count as part of the design: for all three components, the difference in the cell of the
quadrant, summed along z, is more than a thousandth of the largest one. -/
theorem design_quad_spec (mag : E → K) (nx ny nz : Nat) (bg fg : YeeField E) (a c : Nat) :
    (designQuad mag nx ny nz bg fg a c = true ↔
      ∀ comp : Fin 3, selThreshold mag nx ny nz bg fg < diffGrid mag nz bg fg comp (quadCell nx ny comp a c)) ∧
    (∀ (comp : Fin 3) (a' c' : Nat), a' < 2 * nx → c' < 2 * ny →
      diffGrid mag nz bg fg comp (quadCell nx ny comp a' c') ≤ 1000 * selThreshold mag nx ny nz bg fg) ∧
    (0 < nx → 0 < ny → ∃ (comp : Fin 3) (a' c' : Nat), a' < 2 * nx ∧ c' < 2 * ny ∧
      diffGrid mag nz bg fg comp (quadCell nx ny comp a' c') = 1000 * selThreshold mag nx ny nz bg fg) := by
  have hall : ∀ comp : Fin 3, comp ∈ ([0, 1, 2] : List (Fin 3)) := by decide
  have hf : ∀ (l : List K) (x : K), (∀ y ∈ x :: l, y ≤ l.foldl max x) ∧ l.foldl max x ∈ x :: l := by
    intro l
    induction l with
    | nil => intro x; simp
    | cons y l ih =>
      intro x
      obtain ⟨h1, h2⟩ := ih (max x y)
      rw [List.foldl_cons]
      constructor
      · intro w hw
        have hm := h1 (max x y) (by simp)
        rcases List.mem_cons.1 hw with rfl | hw
        · exact le_trans (le_max_left _ _) hm
        · rcases List.mem_cons.1 hw with rfl | hw
          · exact le_trans (le_max_right _ _) hm
          · exact h1 w (by simp [hw])
      · rcases List.mem_cons.1 h2 with h | h
        · rw [h]
          rcases max_choice x y with h' | h' <;> rw [h'] <;> simp
        · simp [h]
  have hmax : ∀ l : List K, (∀ y ∈ l, y ≤ listMax l) ∧ (l ≠ [] → listMax l ∈ l) := by
    intro l
    cases l with
    | nil => simp
    | cons x l => exact ⟨(hf l x).1, fun _ => (hf l x).2⟩
  have hth : 1000 * selThreshold mag nx ny nz bg fg = listMax (([0, 1, 2] : List (Fin 3)).flatMap fun comp =>
      (quads nx ny).map fun q => diffGrid mag nz bg fg comp (quadCell nx ny comp q.1 q.2)) := by
    rw [selThreshold]
    ring
  have hmem : ∀ a' c', (a', c') ∈ quads nx ny ↔ a' < 2 * nx ∧ c' < 2 * ny := by
    intro a' c'
    simp [quads]
  refine ⟨?_, ?_, ?_⟩
  · simp only [designQuad, List.all_eq_true, decide_eq_true_eq]
    exact ⟨fun h comp => h comp (hall comp), fun h comp _ => h comp⟩
  · intro comp a' c' ha hc
    rw [hth]
    exact (hmax _).1 _ (List.mem_flatMap.2 ⟨comp, hall comp, List.mem_map.2 ⟨(a', c'), (hmem a' c').2 ⟨ha, hc⟩, rfl⟩⟩)
  · intro h1 h2
    have := (hmax (([0, 1, 2] : List (Fin 3)).flatMap fun comp =>
      (quads nx ny).map fun q => diffGrid mag nz bg fg comp (quadCell nx ny comp q.1 q.2))).2 (by
        apply List.ne_nil_of_mem (a := diffGrid mag nz bg fg 0 (quadCell nx ny 0 0 0))
        exact List.mem_flatMap.2 ⟨0, hall 0, List.mem_map.2 ⟨(0, 0), (hmem 0 0).2 (by omega), rfl⟩⟩)
    rw [← hth] at this
    obtain ⟨comp, _, hm⟩ := List.mem_flatMap.1 this
    obtain ⟨⟨a', c'⟩, hq, he⟩ := List.mem_map.1 hm
    exact ⟨comp, a', c', ((hmem a' c').1 hq).1, ((hmem a' c').1 hq).2, he⟩

/-- **C29**. With a structure of zeros, the permittivity is the background everywhere. -/
theorem selection_zeros (mag : E → K) (nx ny nz : Nat) (bg fg eps : YeeField E)
    (h : applySelection mag nx ny nz bg fg (fun _ => 0) = some eps) : eps = bg := by
  cases hb : designBounds mag nx ny nz bg fg with
  | none => simp [applySelection, hb] at h
  | some b =>
    funext comp i j z
    rw [selection_value mag nx ny nz bg fg eps _ b hb h]
    simp

/-- **C29**. With a structure of ones, the permittivity is the foreground on exactly the cells that have a quadrant in the
design area, and the background on the others. -/
theorem selection_ones (mag : E → K) (nx ny nz : Nat) (bg fg eps : YeeField E) (b : (Nat × Nat) × (Nat × Nat))
    (hb : designBounds mag nx ny nz bg fg = some b)
    (h : applySelection mag nx ny nz bg fg (fun _ => 1) = some eps) (comp : Fin 3) (i j z : Nat) :
    (Touched nx ny b comp i j → eps comp i j z = fg comp i j z) ∧
    (¬ Touched nx ny b comp i j → eps comp i j z = bg comp i j z) := by
  rw [selection_value mag nx ny nz bg fg eps _ b hb h]
  simp only [mul_one]
  constructor
  · intro ht
    rw [struct2yee_sum nx ny b comp i j ht, one_smul, add_sub_cancel]
  · intro ht
    have : ((structQuads b).map fun q => (struct2yee nx ny b comp (i, j) q : K)).sum = 0 := by
      refine List.sum_eq_zero fun x hx => ?_
      obtain ⟨q, hq, rfl⟩ := List.mem_map.1 hx
      exact struct2yee_zero nx ny b comp i j ht q hq
    rw [this, zero_smul, add_zero]

/-- **C29**. With any structure between zero and one, each permittivity is between the background and the foreground. -/
theorem selection_between (mag : E → K) (nx ny nz : Nat) (bg fg eps : YeeField E) (struct : Nat × Nat → K)
    (hs : ∀ q, 0 ≤ struct q ∧ struct q ≤ 1)
    (h : applySelection mag nx ny nz bg fg struct = some eps) (comp : Fin 3) (i j z : Nat) :
    ∃ t : K, 0 ≤ t ∧ t ≤ 1 ∧ eps comp i j z = bg comp i j z + t • (fg comp i j z - bg comp i j z) := by
  cases hb : designBounds mag nx ny nz bg fg with
  | none => simp [applySelection, hb] at h
  | some b =>
    refine ⟨_, ?_, ?_, selection_value mag nx ny nz bg fg eps struct b hb h comp i j z⟩
    · refine List.sum_nonneg fun x hx => ?_
      obtain ⟨q, _, rfl⟩ := List.mem_map.1 hx
      exact mul_nonneg (struct2yee_nonneg _ _ _ _ _ _ _) (hs q).1
    · have h1 : ((structQuads b).map fun q => (struct2yee nx ny b comp (i, j) q : K)).sum ≤ 1 := by
        by_cases ht : Touched nx ny b comp i j
        · rw [struct2yee_sum nx ny b comp i j ht]
        · have : ((structQuads b).map fun q => (struct2yee nx ny b comp (i, j) q : K)).sum = 0 := by
            refine List.sum_eq_zero fun x hx => ?_
            obtain ⟨q, hq, rfl⟩ := List.mem_map.1 hx
            exact struct2yee_zero nx ny b comp i j ht q hq
          rw [this]
          exact zero_le_one
      refine le_trans (List.sum_le_sum fun q _ => ?_) h1
      have h2 := struct2yee_nonneg (K := K) nx ny b comp i j q
      have h3 := (hs q).2
      nlinarith

/-- **C29**. The average is over the quadrants of the cell that are in the design area, all with the same weight: where the
structure has the same value in all of them, that is the value for the cell. -/
theorem selection_average (mag : E → K) (nx ny nz : Nat) (bg fg eps : YeeField E) (struct : Nat × Nat → K)
    (b : (Nat × Nat) × (Nat × Nat)) (hb : designBounds mag nx ny nz bg fg = some b)
    (h : applySelection mag nx ny nz bg fg struct = some eps) (comp : Fin 3) (i j z : Nat)
    (ht : Touched nx ny b comp i j) :
    let own := (structQuads b).filter fun q => quadCell nx ny comp q.1 q.2 = (i, j)
    eps comp i j z = bg comp i j z + ((own.map struct).sum / own.length) • (fg comp i j z - bg comp i j z) := by
  intro own
  rw [selection_value mag nx ny nz bg fg eps struct b hb h]
  congr 2
  have hq : ∀ (l : List (Nat × Nat)) (g : Nat × Nat → K),
      (l.map fun q => (quarter nx ny comp (i, j) q : K) * g q).sum =
        1 / 4 * ((l.filter fun q => quadCell nx ny comp q.1 q.2 = (i, j)).map g).sum := by
    intro l g
    induction l with
    | nil => simp
    | cons a l ih =>
      simp only [List.map_cons, List.sum_cons, ih, List.filter_cons]
      rw [quarter]
      by_cases hc : quadCell nx ny comp a.1 a.2 = (i, j)
      · simp only [hc, decide_true, if_true, List.map_cons, List.sum_cons]
        ring
      · simp only [hc, decide_false, if_false]
        simp
  have hs : ((structQuads b).map fun q => (quarter nx ny comp (i, j) q : K)).sum = 1 / 4 * own.length := by
    have := hq (structQuads b) fun _ => 1
    simp only [mul_one] at this
    rw [this]
    simp [own]
  have hpos := (quarters_sum (K := K) nx ny b comp i j).1 ht
  have hn : (selNorm nx ny b comp (i, j) : K) = 1 / 4 * own.length := by
    simp only [selNorm]
    rw [if_neg hpos.ne', hs]
  have hl : (own.length : K) ≠ 0 := by
    intro h0
    rw [hs, h0, mul_zero] at hpos
    exact lt_irrefl _ hpos
  simp only [struct2yee, mul_assoc]
  rw [List.sum_map_mul_left, hq, hn]
  field_simp
  rfl

/-- **C29**. Partial: when each Yee cell that differs has a quadrant where all three components differ by more than a
thousandth of the largest difference, the structure of ones gives the foreground on the whole grid. -/
theorem selection_foreground_partial (mag : E → K) (nx ny nz : Nat) (bg fg eps : YeeField E)
    (hd : ∀ comp i j z, i < nx → j < ny → z < nz → bg comp i j z ≠ fg comp i j z →
      ∃ a c, a < 2 * nx ∧ c < 2 * ny ∧ quadCell nx ny comp a c = (i, j) ∧ designQuad mag nx ny nz bg fg a c = true)
    (h : applySelection mag nx ny nz bg fg (fun _ => 1) = some eps)
    (comp : Fin 3) (i j z : Nat) (hi : i < nx) (hj : j < ny) (hz : z < nz) : eps comp i j z = fg comp i j z := by
  cases hb : designBounds mag nx ny nz bg fg with
  | none => simp [applySelection, hb] at h
  | some b =>
    obtain ⟨h1, h2⟩ := selection_ones mag nx ny nz bg fg eps b hb h comp i j z
    by_cases he : bg comp i j z = fg comp i j z
    · by_cases ht : Touched nx ny b comp i j
      · exact h1 ht
      · rw [h2 ht, he]
    · obtain ⟨a, c, ha, hc, hq, hD⟩ := hd comp i j z hi hj hz he
      obtain ⟨g1, g2, g3, g4⟩ := designQuad_in_bounds mag nx ny nz bg fg b hb a c ha hc hD
      exact h1 ⟨a, c, g1, g2, g3, g4, hq⟩

/-- Background of the examples. -/
def exBg : YeeField ℚ := fun _ _ _ _ => 1

/-- A foreground that differs in one cell for all components. -/
def exFg : YeeField ℚ := fun _ i j _ => if i = 1 ∧ j = 1 then 12 else 1

/-- A foreground that differs also in the x component of a cell at some distance. -/
def exFg' : YeeField ℚ := fun comp i j _ => if (i = 1 ∧ j = 1) ∨ (comp = 0 ∧ i = 2 ∧ j = 3) then 12 else 1

/-- The hypotheses of the theorems hold for a cell in the middle of a grid. -/
theorem exFg_bounds : designBounds (fun x : ℚ => |x|) 3 4 1 exBg exFg = some ((2, 2), (2, 2)) := by decide +kernel

example : ∃ eps, applySelection (fun x : ℚ => |x|) 3 4 1 exBg exFg (fun _ => 1) = some eps ∧ eps 0 1 1 0 = 12 ∧
    eps 0 0 1 0 = 1 := by
  refine ⟨_, by simp only [applySelection, exFg_bounds]; rfl, ?_, ?_⟩ <;> decide +kernel

example : ∀ comp i j z, i < 3 → j < 4 → z < 1 → exBg comp i j z ≠ exFg comp i j z →
    ∃ a c, a < 2 * 3 ∧ c < 2 * 4 ∧ quadCell 3 4 comp a c = (i, j) ∧
      designQuad (fun x : ℚ => |x|) 3 4 1 exBg exFg a c = true := by
  intro comp i j z hi hj hz h
  have : i = 1 ∧ j = 1 := by
    by_contra hc
    exact h (by simp [exBg, exFg, hc])
  obtain ⟨rfl, rfl⟩ := this
  refine ⟨2, 2, by norm_num, by norm_num, ?_, by decide +kernel⟩
  clear h
  revert comp
  decide

/-- **C29**. The property does not hold for all foregrounds: with a structure of ones, a cell where only one component
differs can keep the background. -/
theorem selection_foreground_false :
    ∃ eps, applySelection (fun x : ℚ => |x|) 3 4 1 exBg exFg' (fun _ => 1) = some eps ∧ eps 0 2 3 0 ≠ exFg' 0 2 3 0 := by
  have hb : designBounds (fun x : ℚ => |x|) 3 4 1 exBg exFg' = some ((2, 2), (2, 2)) := by decide +kernel
  refine ⟨_, by simp only [applySelection, hb]; rfl, ?_⟩
  decide +kernel

end Verif.Render
