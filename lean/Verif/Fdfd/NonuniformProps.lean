import Verif.Fdfd.Nonuniform
import Mathlib.Data.Rat.Floor
import Mathlib.Algebra.Order.Archimedean.Basic
import Mathlib.Tactic.Linarith
import Mathlib.Tactic.FieldSimp
import Mathlib.Tactic.Ring
import Mathlib.Tactic.Positivity
import Mathlib.Tactic.NormNum

/-!
# C109: non-uniform meshes
-/

namespace Verif.Fdfd.Nonuni

set_option linter.unusedSectionVars false
set_option linter.unusedSimpArgs false

variable {K : Type*} [Field K] [LinearOrder K] [IsStrictOrderedRing K] [FloorRing K]

/-! ## Helper lemmas -/

theorem meshBox_ge {grad : K} (hg : 0 ≤ grad) {b : Box1 K} (hb : 0 < b.mesh) (x : K) :
    b.mesh ≤ meshBox grad b x := by
  unfold meshBox
  have h1 : (0 : K) ≤ if x < b.lower then grad * (b.lower - x) + b.mesh else 0 := by
    split
    · rename_i h
      have := mul_nonneg hg (sub_nonneg.2 h.le)
      linarith
    · exact le_rfl
  have h2 : (0 : K) ≤ if b.upper < x then grad * (x - b.upper) + b.mesh else 0 := by
    split
    · rename_i h
      have := mul_nonneg hg (sub_nonneg.2 h.le)
      linarith
    · exact le_rfl
  linarith

theorem meshBox_inside {grad : K} {b : Box1 K} {x : K} (h1 : b.lower ≤ x) (h2 : x ≤ b.upper) :
    meshBox grad b x = b.mesh := by
  unfold meshBox
  rw [if_neg (not_lt.2 h1), if_neg (not_lt.2 h2)]
  ring

theorem meshAt_le_default (grad default : K) (boxes : List (Box1 K)) (x : K) :
    meshAt grad default boxes x ≤ default := by
  unfold meshAt
  induction boxes generalizing default with
  | nil => exact le_rfl
  | cons b bs ih => exact le_trans (ih _) (min_le_left _ _)

theorem meshAt_le_box (grad default : K) (boxes : List (Box1 K)) (x : K) {b : Box1 K}
    (hb : b ∈ boxes) : meshAt grad default boxes x ≤ meshBox grad b x := by
  induction boxes generalizing default with
  | nil => simp at hb
  | cons c bs ih =>
    rcases List.mem_cons.1 hb with rfl | hb
    · exact le_trans (meshAt_le_default grad _ bs x) (min_le_right _ _)
    · exact ih _ hb

theorem le_meshAt (grad default : K) (boxes : List (Box1 K)) (x : K) {m : K}
    (hd : m ≤ default) (hb : ∀ b ∈ boxes, m ≤ meshBox grad b x) :
    m ≤ meshAt grad default boxes x := by
  induction boxes generalizing default with
  | nil => exact hd
  | cons c bs ih =>
    exact ih _ (le_min hd (hb c (by simp))) (fun b h => hb b (by simp [h]))

/-- A positive lower bound for all mesh sizes. -/
theorem exists_floor (default : K) (boxes : List (Box1 K)) (hd : 0 < default)
    (hb : ∀ b ∈ boxes, 0 < b.mesh) :
    ∃ δ : K, 0 < δ ∧ δ ≤ default ∧ ∀ b ∈ boxes, δ ≤ b.mesh := by
  induction boxes with
  | nil => exact ⟨default, hd, le_rfl, by simp⟩
  | cons c bs ih =>
    obtain ⟨δ, h0, h1, h2⟩ := ih (fun b h => hb b (by simp [h]))
    refine ⟨min δ c.mesh, lt_min h0 (hb c (by simp)), le_trans (min_le_left _ _) h1, ?_⟩
    intro b hb'
    rcases List.mem_cons.1 hb' with rfl | hb'
    · exact min_le_right _ _
    · exact le_trans (min_le_left _ _) (h2 b hb')

theorem fineMesh_get {grad default lo hi step : K} {boxes : List (Box1 K)} (hs : 0 < step)
    {p : K} (h1 : p < hi) :
    (fineMesh grad default lo hi step boxes)[idx lo step p]?
      = some (meshAt grad default boxes (sample lo hi (count lo hi step) (idx lo step p))) := by
  have hle : idx lo step p ≤ count lo hi step := by
    unfold idx count
    apply Int.toNat_le_toNat
    apply Int.floor_le_floor
    apply div_le_div_of_nonneg_right _ hs.le
    have := Int.le_ceil hi
    linarith
  unfold fineMesh
  rw [List.getElem?_map, List.getElem?_range (by omega)]
  rfl

/-- The relation between neighbouring points of the walk. -/
def Step (grad default lo hi step : K) (boxes : List (Box1 K)) (a b : K) : Prop :=
  lo ≤ a ∧ a < hi ∧
    b = a + meshAt grad default boxes (sample lo hi (count lo hi step) (idx lo step a))

theorem walk_ok {grad default lo hi step : K} {boxes : List (Box1 K)} (hs : 0 < step)
    {δ : K} (hδ : 0 < δ) (hm : ∀ x, δ ≤ meshAt grad default boxes x) (n : Nat) (p : K)
    (hp : lo ≤ p) (hn : hi - p ≤ (n : K) * δ) :
    ∃ ys : List K, ∃ l : K,
      (∀ fuel, n < fuel → walk (fineMesh grad default lo hi step boxes) lo hi step fuel p
        = some (p :: ys)) ∧
      List.IsChain (Step grad default lo hi step boxes) (p :: ys) ∧
      (p :: ys).getLast? = some l ∧ hi ≤ l ∧ (l = p ∨ l < hi + default) ∧
      (∀ q ∈ p :: ys, q ≤ l) := by
  induction n generalizing p with
  | zero =>
    have hle : hi ≤ p := by
      have : hi - p ≤ 0 := by simpa using hn
      linarith
    refine ⟨[], p, ?_, List.IsChain.singleton _, rfl, hle, Or.inl rfl, by simp⟩
    intro fuel hf
    obtain ⟨f, rfl⟩ : ∃ f, fuel = f + 1 := ⟨fuel - 1, by omega⟩
    simp only [walk, if_neg (not_lt.2 hle)]
  | succ n ih =>
    by_cases hlt : p < hi
    · set d := meshAt grad default boxes (sample lo hi (count lo hi step) (idx lo step p)) with hd
      have hdδ : δ ≤ d := hm _
      obtain ⟨ys, l, h1, h2, h3, h4, h5, h6⟩ := ih (p + d) (by linarith) (by
        push_cast at hn
        linarith)
      refine ⟨(p + d) :: ys, l, ?_, ?_, ?_, h4, Or.inr ?_, ?_⟩
      · intro fuel hf
        obtain ⟨f, rfl⟩ : ∃ f, fuel = f + 1 := ⟨fuel - 1, by omega⟩
        simp only [walk, if_pos hlt, fineMesh_get hs hlt, Option.bind_some, ← hd,
          h1 f (by omega), Option.map_some]
      · exact List.IsChain.cons_cons ⟨hp, hlt, hd ▸ rfl⟩ h2
      · rw [List.getLast?_cons_cons]; exact h3
      · rcases h5 with rfl | h5
        · have := meshAt_le_default grad default boxes
            (sample lo hi (count lo hi step) (idx lo step p))
          rw [← hd] at this
          linarith
        · exact h5
      · intro q hq
        rcases List.mem_cons.1 hq with rfl | hq
        · have := h6 (q + d) (by simp)
          linarith
        · exact h6 q hq
    · have hle := not_lt.1 hlt
      refine ⟨[], p, ?_, List.IsChain.singleton _, rfl, hle, Or.inl rfl, by simp⟩
      intro fuel hf
      obtain ⟨f, rfl⟩ : ∃ f, fuel = f + 1 := ⟨fuel - 1, by omega⟩
      simp only [walk, if_neg hlt]

theorem le_foldl_max (ps : List K) (p : K) : p ≤ ps.foldl max p ∧ ∀ q ∈ ps, q ≤ ps.foldl max p := by
  induction ps generalizing p with
  | nil => simp
  | cons a as ih =>
    obtain ⟨h1, h2⟩ := ih (max p a)
    refine ⟨le_trans (le_max_left _ _) h1, ?_⟩
    intro q hq
    rcases List.mem_cons.1 hq with rfl | hq
    · exact le_trans (le_max_right _ _) h1
    · exact h2 q hq

theorem foldl_max_mem (ps : List K) (p : K) : ps.foldl max p ∈ p :: ps := by
  induction ps generalizing p with
  | nil => simp
  | cons a as ih =>
    have := ih (max p a)
    rcases List.mem_cons.1 this with h | h
    · rw [List.foldl_cons, h]
      rcases max_choice p a with h' | h' <;> rw [h'] <;> simp
    · rw [List.foldl_cons]; simp [h]

theorem foldl_max_last {p : K} {ps : List K} {l : K} (hl : (p :: ps).getLast? = some l)
    (hmax : ∀ q ∈ p :: ps, q ≤ l) : ps.foldl max p = l := by
  apply le_antisymm (hmax _ (foldl_max_mem ps p))
  have hmem : l ∈ p :: ps := List.mem_of_getLast? hl
  rcases List.mem_cons.1 hmem with rfl | h
  · exact (le_foldl_max ps _).1
  · exact (le_foldl_max ps p).2 l h

theorem isChain_map_of {α β : Type*} {R : α → α → Prop} {S : β → β → Prop} (f : α → β)
    (h : ∀ a b, R a b → S (f a) (f b)) : ∀ {l : List α}, List.IsChain R l → List.IsChain S (l.map f)
  | [], _ => List.IsChain.nil
  | [_], _ => List.IsChain.singleton _
  | _ :: _ :: _, hc => by
    cases hc with
    | cons_cons h1 h2 => exact List.IsChain.cons_cons (h _ _ h1) (isChain_map_of f h h2)

/-- If `step` divides the range, the sample that is looked up lies at most `step`
below the point. -/
theorem sample_near {lo hi step : K} (hs : 0 < step) {n : Nat} (hn0 : 0 < n)
    (hn : ((⌈hi⌉ : Int) : K) - ((⌊lo⌋ : Int) : K) = (n : K) * step) {p : K} (hp : lo ≤ p) :
    p - step < sample lo hi (count lo hi step) (idx lo step p) ∧
      sample lo hi (count lo hi step) (idx lo step p) ≤ p := by
  have hc : count lo hi step = n := by
    unfold count
    rw [hn, mul_div_assoc, div_self hs.ne', mul_one, Int.floor_natCast, Int.toNat_natCast]
  have hnK : (0 : K) < n := by exact_mod_cast hn0
  have hsmp : sample lo hi n (idx lo step p) = ((⌊lo⌋ : Int) : K) + (idx lo step p : K) * step := by
    unfold sample
    rw [hn]
    congr 2
    field_simp
  have hnn : (0 : K) ≤ (p - ((⌊lo⌋ : Int) : K)) / step := by
    apply div_nonneg _ hs.le
    have := Int.floor_le lo
    linarith
  have hidx : ((idx lo step p : Nat) : K) = ((⌊(p - ((⌊lo⌋ : Int) : K)) / step⌋ : Int) : K) := by
    unfold idx
    have : ((⌊(p - ((⌊lo⌋ : Int) : K)) / step⌋.toNat : Nat) : Int)
        = ⌊(p - ((⌊lo⌋ : Int) : K)) / step⌋ := Int.toNat_of_nonneg (Int.floor_nonneg.2 hnn)
    exact_mod_cast congrArg (Int.cast : Int → K) this
  rw [hc, hsmp, hidx]
  have h1 := Int.floor_le ((p - ((⌊lo⌋ : Int) : K)) / step)
  have h2 := Int.lt_floor_add_one ((p - ((⌊lo⌋ : Int) : K)) / step)
  rw [le_div_iff₀ hs] at h1
  rw [div_lt_iff₀ hs] at h2
  constructor
  · linarith
  · linarith

/-! ## The mesh along one axis -/

/-- **C109**: for borders in order with a positive upper border, positive mesh
sizes and a growth rate that is not negative, the generator comes to an end
and does not run out of its table.  The points increase, the last one
is the upper border, and all points are those of a walk from the lower border
shrunk by a common factor `r`, which is at most one and at least
`hi / (hi + default)`.  No cell is wider than the default or, if it starts in a box (further than `step` from
its lower end), than the mesh size of the box; and if no box asks for less
than the default, every cell is `r` times the default.

Partial: the first point is `r * lo` and not the lower border (see
`nonuniform_first_false`), and the upper border must be positive (see
`nonuniform_zero_false`). -/
theorem nonuniform_axis_partial {grad default lo hi step : K} {boxes : List (Box1 K)}
    (hlo : lo < hi) (hhi : 0 < hi) (hs : 0 < step) (hg : 0 ≤ grad) (hd : 0 < default)
    (hb : ∀ b ∈ boxes, 0 < b.mesh) :
    ∃ (n : Nat) (xs : List K) (r : K),
      (∀ fuel, n < fuel → makeAxis grad default lo hi step boxes fuel = some xs) ∧
      0 < r ∧ r ≤ 1 ∧ hi < r * (hi + default) ∧
      xs.head? = some (r * lo) ∧ xs.getLast? = some hi ∧
      List.IsChain (fun a b => a < b ∧ b - a ≤ r * default ∧
        ((∀ c ∈ boxes, default ≤ c.mesh) → b - a = r * default) ∧
        ∀ m : Nat, 0 < m → ((⌈hi⌉ : Int) : K) - ((⌊lo⌋ : Int) : K) = (m : K) * step →
          ∀ c ∈ boxes, c.pos - c.size / 2 + step ≤ a / r → a / r ≤ c.pos + c.size / 2 →
            b - a ≤ r * c.mesh) xs := by
  obtain ⟨δ, hδ0, hδd, hδb⟩ := exists_floor default boxes hd hb
  have hm : ∀ x, δ ≤ meshAt grad default boxes x := fun x =>
    le_meshAt grad default boxes x hδd
      (fun b h => le_trans (hδb b h) (meshBox_ge hg (hb b h) x))
  obtain ⟨n, hn⟩ : ∃ n : Nat, hi - lo ≤ (n : K) * δ := by
    obtain ⟨n, hn⟩ := exists_nat_ge ((hi - lo) / δ)
    exact ⟨n, by rwa [div_le_iff₀ hδ0] at hn⟩
  obtain ⟨ys, l, h1, h2, h3, h4, h5, h6⟩ :=
    walk_ok (grad := grad) (default := default) (boxes := boxes) hs hδ0 hm n lo le_rfl hn
  have hl0 : 0 < l := lt_of_lt_of_le hhi h4
  have hmax := foldl_max_last h3 h6
  have hllt : l < hi + default := by
    rcases h5 with rfl | h5
    · linarith
    · exact h5
  have hr0 : 0 < hi / l := div_pos hhi hl0
  refine ⟨n, (lo :: ys).map fun q => q / l * hi, hi / l, ?_, hr0,
    (div_le_one hl0).2 h4, ?_, ?_, ?_, ?_⟩
  · intro fuel hf
    simp only [makeAxis, h1 fuel hf, Option.bind_some, rescale, hmax, if_neg hl0.ne']
  · rw [div_mul_eq_mul_div, lt_div_iff₀ hl0]
    exact mul_lt_mul_of_pos_left hllt hhi
  · simp only [List.map_cons, List.head?_cons, Option.some.injEq]
    ring
  · rw [List.getLast?_map, h3, Option.map_some]
    congr 1
    field_simp
  · refine isChain_map_of _ ?_ h2
    rintro a b ⟨ha, hah, rfl⟩
    set d := meshAt grad default boxes (sample lo hi (count lo hi step) (idx lo step a)) with hdd
    have hd0 : 0 < d := lt_of_lt_of_le hδ0 (hm _)
    have hdiff : (a + d) / l * hi - a / l * hi = hi / l * d := by ring
    refine ⟨?_, ?_, ?_, ?_⟩
    · have : 0 < hi / l * d := mul_pos hr0 hd0
      linarith
    · rw [hdiff]
      exact mul_le_mul_of_nonneg_left (meshAt_le_default _ _ _ _) hr0.le
    · intro hc
      rw [hdiff]
      congr 1
      apply le_antisymm (meshAt_le_default _ _ _ _)
      exact le_meshAt _ _ _ _ le_rfl
        (fun b h => le_trans (hc b h) (meshBox_ge hg (hb b h) _))
    · intro m hm0 hmn c hc hin1 hin2
      have hback : a / l * hi / (hi / l) = a := by field_simp
      rw [hback] at hin1 hin2
      obtain ⟨hs1, hs2⟩ := sample_near hs hm0 hmn ha
      rw [hdiff]
      apply mul_le_mul_of_nonneg_left _ hr0.le
      rw [← meshBox_inside (grad := grad) (b := c)
        (x := sample lo hi (count lo hi step) (idx lo step a))
        (by unfold Box1.lower; linarith) (by unfold Box1.upper; linarith)]
      exact meshAt_le_box _ _ _ _ hc

/-- The hypotheses hold for a mesh with a finer box in the middle; here the walk
ends beyond the border, and all points shrink by 200/213. -/
example : makeAxis (K := ℚ) (1/10) 5 0 20 1 [⟨10, 6, 1⟩] 50
    = some [0, 180/71, 1040/213, 1480/213, 560/71, 1880/213, 2080/213, 760/71, 2480/213,
        2680/213, 960/71, 1100/71, 3760/213, 20] := by
  decide +kernel

/-- **C109**: with a lower border at zero the mesh starts at zero, so that the
first and last points are the two borders. -/
theorem nonuniform_from_zero {grad default hi step : K} {boxes : List (Box1 K)}
    (hhi : 0 < hi) (hs : 0 < step) (hg : 0 ≤ grad) (hd : 0 < default)
    (hb : ∀ b ∈ boxes, 0 < b.mesh) :
    ∃ (n : Nat) (xs : List K),
      (∀ fuel, n < fuel → makeAxis grad default 0 hi step boxes fuel = some xs) ∧
      xs.head? = some 0 ∧ xs.getLast? = some hi ∧ List.IsChain (fun a b => a < b) xs := by
  obtain ⟨n, xs, r, h1, -, -, -, h5, h6, h7⟩ := nonuniform_axis_partial (lo := 0) hhi hhi hs hg hd hb
  refine ⟨n, xs, h1, by simpa using h5, h6, ?_⟩
  exact h7.imp (fun _ _ h => h.1)

/-- **C109 fails**: the mesh need not start at the lower border.  From -10 to 10
with cells of 3 it starts at -100/11. -/
theorem nonuniform_first_false :
    makeAxis (K := ℚ) (1/20) 3 (-10) 10 1 [] 20
      = some [-100/11, -70/11, -40/11, -10/11, 20/11, 50/11, 80/11, 10] := by
  decide +kernel

/-- **C109 fails**: a mesh whose upper border is zero collapses: from -10 to 0
with cells of 3 all points are zero. -/
theorem nonuniform_zero_false :
    makeAxis (K := ℚ) (1/20) 3 (-10) 0 1 [] 20 = some [0, 0, 0, 0, 0] := by
  decide +kernel

/-- **C109 fails** in general for an upper border at zero: whatever is returned
has all its points at zero. -/
theorem nonuniform_zero {grad default lo step : K} {boxes : List (Box1 K)} {fuel : Nat}
    {xs : List K} (h : makeAxis grad default lo 0 step boxes fuel = some xs) :
    ∀ p ∈ xs, p = 0 := by
  unfold makeAxis at h
  obtain ⟨ys, _, h2⟩ := Option.bind_eq_some_iff.1 h
  cases ys with
  | nil => simp [rescale] at h2
  | cons y ys =>
    simp only [rescale] at h2
    split at h2
    · simp at h2
    · simp only [Option.some.injEq] at h2
      subst h2
      intro p hp
      obtain ⟨q, _, rfl⟩ := List.mem_map.1 hp
      simp

/-! ## The default mesh of the other axes -/

/-- **C109 fails**: the default of the `y` and `z` axes is not respected.  With
defaults 5, 1 and 1 the cells along `y` are 5 wide. -/
theorem nonuniform_default_false :
    makeGrid (K := ℚ) (fun _ => (0, 10)) (fun a => if a = 0 then 5 else 1) [] (1/20) 1 20 1 = some [0, 5, 10] := by
  decide +kernel

/-- The defaults of the second and third axis are never read. -/
theorem nonuniform_default_ignored (borders : Fin 3 → K × K) (d d' : Fin 3 → K)
    (boxes : List (Box3 K)) (grad step : K) (fuel : Nat) (h : d 0 = d' 0) :
    makeGrid borders d boxes grad step fuel = makeGrid borders d' boxes grad step fuel := by
  unfold makeGrid
  rw [h]

/-- Each axis of the grid is made from the borders and box sides of that axis. -/
theorem nonuniform_grid_axis (borders : Fin 3 → K × K) (dflt : Fin 3 → K)
    (boxes : List (Box3 K)) (grad step : K) (fuel : Nat) (a : Fin 3)
    (hsame : dflt a = dflt 0) :
    makeGrid borders dflt boxes grad step fuel a
      = makeAxis grad (dflt a) (borders a).1 (borders a).2 step
          (boxes.map fun b => ⟨b.pos a, b.size a, b.mesh a⟩) fuel := by
  unfold makeGrid
  rw [hsame]
  rfl

/-! ## The transition around a box -/

/-- **C109**: inside a box the mesh size is that of the box. -/
theorem mesh_box_inside (grad : K) (b : Box1 K) (x : K) (h1 : b.pos - b.size / 2 ≤ x)
    (h2 : x ≤ b.pos + b.size / 2) : meshBox grad b x = b.mesh :=
  meshBox_inside h1 h2

/-- **C109 fails**: "the mesh will change gradually by `grad_Mesh`".  However close
to a box, outside of it the mesh asked for is more than twice that of the box. -/
theorem mesh_box_jump {grad : K} (hg : 0 < grad) (b : Box1 K) (x : K)
    (hb : 0 ≤ b.size) (h : x < b.pos - b.size / 2 ∨ b.pos + b.size / 2 < x) :
    2 * b.mesh < meshBox grad b x := by
  unfold meshBox
  rcases h with h | h
  · have h' : x < b.lower := h
    have h'' : ¬ b.upper < x := by unfold Box1.upper; linarith
    rw [if_pos h', if_neg h'']
    have := mul_pos hg (sub_pos.2 h')
    linarith
  · have h' : b.upper < x := h
    have h'' : ¬ x < b.lower := by unfold Box1.lower; linarith
    rw [if_neg h'', if_pos h']
    have := mul_pos hg (sub_pos.2 h')
    linarith

/-- Between two points outside a box, on the same side, the mesh does change at the rate asked
for. -/
theorem mesh_box_slope {grad : K} (b : Box1 K) (x x' : K) (hb : 0 ≤ b.size)
    (h : b.pos + b.size / 2 < x) (h' : b.pos + b.size / 2 < x') :
    meshBox grad b x - meshBox grad b x' = grad * (x - x') := by
  unfold meshBox
  have h1 : ¬ x < b.lower := by unfold Box1.lower; linarith
  have h2 : ¬ x' < b.lower := by unfold Box1.lower; linarith
  have h3 : b.upper < x := h
  have h4 : b.upper < x' := h'
  rw [if_neg h1, if_neg h2, if_pos h3, if_pos h4]
  ring

/-- The same below the box. -/
theorem mesh_box_slope_below {grad : K} (b : Box1 K) (x x' : K) (hb : 0 ≤ b.size)
    (h : x < b.pos - b.size / 2) (h' : x' < b.pos - b.size / 2) :
    meshBox grad b x - meshBox grad b x' = grad * (x' - x) := by
  unfold meshBox
  have h1 : ¬ b.upper < x := by unfold Box1.upper; linarith
  have h2 : ¬ b.upper < x' := by unfold Box1.upper; linarith
  have h3 : x < b.lower := h
  have h4 : x' < b.lower := h'
  rw [if_neg h1, if_neg h2, if_pos h3, if_pos h4]
  ring

/-- A mesh size that changes by at most `grad` per unit of length. -/
def Gradual (grad : K) (f : K → K) : Prop := ∀ x x', |f x - f x'| ≤ grad * |x - x'|

/-- **C109 fails** for every box with a positive mesh size: the transition is not
gradual. -/
theorem mesh_box_gradual_false {grad : K} (hg : 0 < grad) (b : Box1 K) (hb : 0 ≤ b.size)
    (hm : 0 < b.mesh) : ¬ Gradual grad (meshBox grad b) := by
  intro hG
  have hpos : 0 < b.mesh / (2 * grad) := by positivity
  have h := hG (b.pos + b.size / 2 + b.mesh / (2 * grad)) (b.pos + b.size / 2)
  have h1 := mesh_box_jump hg b (b.pos + b.size / 2 + b.mesh / (2 * grad)) hb
    (Or.inr (by linarith))
  rw [mesh_box_inside grad b (b.pos + b.size / 2) (by linarith) le_rfl] at h
  rw [show b.pos + b.size / 2 + b.mesh / (2 * grad) - (b.pos + b.size / 2)
    = b.mesh / (2 * grad) by ring, abs_of_pos hpos,
    show grad * (b.mesh / (2 * grad)) = b.mesh / 2 by field_simp] at h
  have := le_abs_self (meshBox grad b (b.pos + b.size / 2 + b.mesh / (2 * grad)) - b.mesh)
  linarith

/-! ## Spacings of a periodic grid -/

theorem diffs_length : ∀ l : List K, (diffs l).length = l.length - 1
  | [] => rfl
  | [_] => rfl
  | _ :: q :: rest => by
    simp only [diffs, List.length_cons, diffs_length (q :: rest)]
    omega

/-- **C109 fails**: a periodic grid of `n` cells has `n` spacings, but one too few is
returned, for every axis of two or more cells. -/
theorem periodic_dx_length_false (p : List K) (hp : 2 ≤ p.length) :
    ∃ a b, periodicDx p = some (a, b) ∧ a.length + 1 = p.length ∧ b.length + 1 = p.length := by
  match p, hp with
  | p0 :: p1 :: rest, _ =>
    refine ⟨_, _, rfl, ?_, ?_⟩
    · rw [diffs_length]; simp
    · rw [diffs_length]; simp

theorem diffs_getD (l : List K) (i : Nat) (hi : i + 1 < l.length) :
    (diffs l)[i]? = some (l[i + 1] - l[i]) := by
  induction l generalizing i with
  | nil => simp at hi
  | cons a t ih =>
    cases t with
    | nil => simp at hi
    | cons b t =>
      cases i with
      | zero => simp [diffs]
      | succ i =>
        simp only [diffs, List.getElem?_cons_succ]
        rw [ih i (by simpa using hi)]
        simp

/-- **C109**: the first list of spacings are the distances between neighbouring
positions; the second the distances between neighbouring midpoints, where the
position after the last is as far from it as the second from the first. -/
theorem periodic_dx_spacing (p : List K) (hp : 2 ≤ p.length) (i : Nat) (hi : i + 1 < p.length) :
    ∃ a b, periodicDx p = some (a, b) ∧ a[i]? = some (p[i + 1] - p[i]) ∧
      b[i]? = some (((if h : i + 2 < p.length then p[i + 2]
        else p[p.length - 1] + (p[1] - p[0])) - p[i]) / 2) := by
  match p, hp, hi with
  | p0 :: p1 :: rest, _, hi =>
    refine ⟨_, _, rfl, diffs_getD _ i hi, ?_⟩
    have hlen : (List.zipWith (fun a b => (a + b) / 2) (p0 :: p1 :: rest)
      ((p1 :: rest) ++ [(p1 :: rest).getLast (by simp) + (p1 - p0)])).length
        = (p0 :: p1 :: rest).length := by simp
    rw [diffs_getD _ i (by rw [hlen]; exact hi)]
    congr 1
    simp only [List.getElem_zipWith]
    have e1 : ((p1 :: rest) ++ [(p1 :: rest).getLast (by simp) + (p1 - p0)])[i]'(by
        simp at hi ⊢; omega) = (p0 :: p1 :: rest)[i + 1] := by
      rw [List.getElem_append_left (by simpa using hi)]
      rfl
    have e2 : ((p1 :: rest) ++ [(p1 :: rest).getLast (by simp) + (p1 - p0)])[i + 1]'(by
        simp at hi ⊢; omega)
        = if h : i + 2 < (p0 :: p1 :: rest).length then (p0 :: p1 :: rest)[i + 2]
          else (p0 :: p1 :: rest)[(p0 :: p1 :: rest).length - 1] + (p1 - p0) := by
      split
      · rename_i h
        rw [List.getElem_append_left (by simpa using h)]
        rfl
      · rename_i h
        rw [List.getElem_append_right (by simp at h ⊢; omega)]
        simp only [List.getElem_singleton]
        congr 1
        rw [List.getLast_eq_getElem]
        rfl
    rw [e1, e2]
    simp only [List.getElem_cons_zero, List.getElem_cons_succ]
    ring

/-- On an evenly spaced axis every spacing is the pitch. -/
example : periodicDx (K := ℚ) [0, 2, 4, 6] = some ([2, 2, 2], [2, 2, 2]) := by
  decide +kernel

end Verif.Fdfd.Nonuni
