import Verif.Fdfd.GridLemmas
import Mathlib.Tactic.LinearCombination
import Mathlib.Tactic.IntervalCases
/-
C24: `apply_scpml` only changes the cells of the absorbing layers, keeps the real cell sizes, does nothing for
zero thickness and never writes to its input.

The statements use `GHeap.read` (the array an entry of `dxes` refers to). `none` is an exception.
-/
namespace Verif.Fdfd

/-! ### Specification -/

/-- `dxes` refers to existing arrays. The two rows may be the same list and may share arrays. -/
structure Allocated (hp : GHeap) (dx : DxRef) : Prop where
  e_lt : dx.e < hp.rows.length
  h_lt : dx.h < hp.rows.length
  arr : ∀ r ∈ hp.rows, ∀ a, r a < hp.arrays.length

/-- The requested thickness at the low (`front`) or high end of an axis: the list holds
`[x low, x high, y low, y high, z low, z high]`, a single number applies to all six. -/
def thickness (pml : Pml) (a : Fin 3) (front : Bool) : Int :=
  match pml with
  | .absent => 0
  | .scalar n => n
  | .layers l => l.getD (2 * a.val + if front then 0 else 1) 0

/-! ### Lemmas -/

theorem mem_zip_sides {l : List Int} {p : Int} {a : Fin 3} {f : Bool} (h : (p, a, f) ∈ l.zip sides) :
    l[2 * a.val + if f then 0 else 1]? = some p := by
  obtain ⟨k, hk⟩ := List.mem_iff_getElem?.1 h
  obtain ⟨h1, h2⟩ := List.getElem?_zip_eq_some.1 hk
  have hk6 : k < 6 := (List.getElem?_eq_some_iff.1 h2).1
  interval_cases k <;> (cases h2; exact h1)

theorem thickness_of_mem {pml : Pml} {p : Int} {a : Fin 3} {f : Bool}
    (h : (p, a, f) ∈ pml.toList.zip sides) : thickness pml a f = p := by
  have h1 := mem_zip_sides h
  cases pml with
  | absent => simp [Pml.toList] at h1
  | scalar n =>
    rw [Pml.toList, List.getElem?_replicate] at h1
    by_cases hlt : 2 * a.val + (if f then 0 else 1) < 6
    · rw [if_pos hlt] at h1; cases h1; rfl
    · rw [if_neg hlt] at h1; cases h1
  | layers l =>
    show l.getD _ 0 = p
    have h1' : l[2 * a.val + if f then 0 else 1]? = some p := h1
    rw [List.getD_eq_getElem?_getD, h1']; rfl

theorem mem_of_thickness {pml : Pml} {a : Fin 3} {f : Bool} (h : 0 < thickness pml a f) :
    (thickness pml a f, a, f) ∈ pml.toList.zip sides := by
  have key : ∀ l : List Int, l[2 * a.val + if f then 0 else 1]? = some (thickness pml a f) →
      (thickness pml a f, a, f) ∈ l.zip sides := by
    intro l hl
    refine List.mem_iff_getElem?.2 ⟨2 * a.val + if f then 0 else 1, ?_⟩
    refine List.getElem?_zip_eq_some.2 ⟨hl, ?_⟩
    fin_cases a <;> cases f <;> rfl
  apply key
  cases pml with
  | absent => simp [thickness] at h
  | scalar n =>
    rw [Pml.toList, List.getElem?_replicate, if_pos]
    · rfl
    · have := a.isLt
      split <;> omega
  | layers l =>
    show l[_]? = some (l.getD _ 0)
    have h' : 0 < l.getD (2 * a.val + if f then 0 else 1) 0 := h
    rw [List.getD_eq_getElem?_getD] at h' ⊢
    cases hx : l[2 * a.val + if f then 0 else 1]? with
    | none => rw [hx] at h'; simp at h'
    | some v => rfl

theorem sides_apart' : ∀ k m : Fin 6, k < m →
    (sides[k.val]?.getD (0, true)).1 = (sides[m.val]?.getD (0, true)).1 →
    (sides[k.val]?.getD (0, true)).2 = true ∧ (sides[m.val]?.getD (0, true)).2 = false := by decide

theorem sides_apart (k m : Nat) (hkm : k < m) (a : Fin 3) (fu fv : Bool) (hu : sides[k]? = some (a, fu))
    (hv : sides[m]? = some (a, fv)) : fu = true ∧ fv = false := by
  obtain ⟨hk, hk'⟩ := List.getElem?_eq_some_iff.1 hu
  obtain ⟨hm, hm'⟩ := List.getElem?_eq_some_iff.1 hv
  have := sides_apart' ⟨k, hk⟩ ⟨m, hm⟩ hkm
  simp only [hu, hv, Option.getD_some] at this
  exact this trivial

/-- What `apply_scpml` does, in one statement. -/
theorem apply_start (hp : GHeap) (dx : DxRef) (pml : Pml) (omega : ℂ) (ha : Allocated hp dx) :
    ∃ hp1 dx', GoodRef hp1 dx' ∧ hp.rows.length ≤ dx'.e ∧ hp.rows.length ≤ dx'.h ∧
      (∀ i, i < hp.arrays.length → hp1.arrays[i]? = hp.arrays[i]?) ∧
      (∀ i, i < hp.rows.length → hp1.rows[i]? = hp.rows[i]?) ∧
      hp.arrays.length ≤ hp1.arrays.length ∧ hp.rows.length ≤ hp1.rows.length ∧
      (∀ a, hp1.read dx'.e a = hp.read dx.e a) ∧ (∀ a, hp1.read dx'.h a = hp.read dx.h a) ∧
      applyScpml hp dx pml omega =
        (scpmlLoop dx' omega (pml.toList.zip sides) hp1).map fun hp' => (hp', dx') := by
  obtain ⟨c1, c2, c3, c4, c5, c6, c7⟩ := copyRow_spec hp dx.e ha.arr
  obtain ⟨d1, d2, d3, d4, d5, d6, d7⟩ := copyRow_spec (copyRow hp dx.e).1 dx.h c3
  refine ⟨(copyRow (copyRow hp dx.e).1 dx.h).1,
    ⟨(copyRow hp dx.e).2, (copyRow (copyRow hp dx.e).1 dx.h).2⟩, ⟨?_, ?_, ?_, d3⟩, ?_, ?_, ?_, ?_, ?_, ?_, ?_, ?_, ?_⟩
  · show (copyRow hp dx.e).2 ≠ (copyRow (copyRow hp dx.e).1 dx.h).2
    rw [c1, d1]; omega
  · show (copyRow hp dx.e).2 < _
    rw [c1]; omega
  · show (copyRow (copyRow hp dx.e).1 dx.h).2 < _
    rw [d1]; omega
  · show _ ≤ (copyRow hp dx.e).2
    rw [c1]
  · show _ ≤ (copyRow (copyRow hp dx.e).1 dx.h).2
    rw [d1]; omega
  · intro i hi
    rw [d4 i (Nat.lt_of_lt_of_le hi c6), c4 i hi]
  · intro i hi
    rw [d5 i (by omega), c5 i hi]
  · exact Nat.le_trans c6 d6
  · omega
  · intro a
    show (copyRow (copyRow hp dx.e).1 dx.h).1.read (copyRow hp dx.e).2 a = _
    rw [read_ext (hp := (copyRow hp dx.e).1) (by omega) c3 (d5 _ (by omega)) d4, c7]
  · intro a
    show (copyRow (copyRow hp dx.e).1 dx.h).1.read (copyRow (copyRow hp dx.e).1 dx.h).2 a = _
    rw [d7, read_ext (hp := hp) ha.h_lt ha.arr (c5 _ ha.h_lt) c4]
  · show (if pml.falsy = true then some _ else Option.map _ _) = _
    by_cases hf : pml.falsy = true
    · rw [if_pos hf]
      have hloop : ∀ (dx : DxRef) (g : GHeap), scpmlLoop dx omega (pml.toList.zip sides) g = some g := by
        intro dx g
        cases pml with
        | absent => rfl
        | scalar n =>
          have : n = 0 := by simpa [Pml.falsy] using hf
          subst this
          simp [Pml.toList, sides, scpmlLoop]
        | layers l =>
          have : l = [] := by simpa [Pml.falsy] using hf
          subst this
          rfl
      rw [hloop]; rfl
    · rw [if_neg hf]; rfl

/-! ### Theorems -/

/-- `apply_scpml` raises exactly when some layer is thicker than the grid. -/
theorem pml_defined (hp : GHeap) (dx : DxRef) (pml : Pml) (omega : ℂ) (ha : Allocated hp dx) :
    (applyScpml hp dx pml omega).isSome = true ↔
      ∀ a front, thickness pml a front ≤ (hp.read dx.e a).length := by
  obtain ⟨hp1, dx', hg, _, _, _, _, _, _, he, _, happ⟩ := apply_start hp dx pml omega ha
  rw [happ, Option.isSome_map, loop_defined _ hg]
  constructor
  · intro h a f
    rcases Int.lt_or_le 0 (thickness pml a f) with h0 | h0
    · have := h _ _ _ (mem_of_thickness h0)
      rw [he] at this
      exact this
    · omega
  · intro h p a f hm
    rw [he, ← thickness_of_mem hm]
    exact h a f

/-- The caller's arrays and lists are never written. -/
theorem pml_input_unchanged (hp : GHeap) (dx : DxRef) (pml : Pml) (omega : ℂ) (ha : Allocated hp dx)
    {hp' : GHeap} {dx' : DxRef} (h : applyScpml hp dx pml omega = some (hp', dx')) :
    (∀ i, i < hp.arrays.length → hp'.arrays[i]? = hp.arrays[i]?) ∧
    (∀ i, i < hp.rows.length → hp'.rows[i]? = hp.rows[i]?) ∧
    (∀ a, hp'.read dx.e a = hp.read dx.e a) ∧ (∀ a, hp'.read dx.h a = hp.read dx.h a) := by
  obtain ⟨hp1, dx1, hg, hge, hgh, ha1, hr1, hla, hlr, _, _, happ⟩ := apply_start hp dx pml omega ha
  rw [happ] at h
  obtain ⟨hp2, h2, h3⟩ := Option.map_eq_some_iff.1 h
  cases h3
  obtain ⟨_, hx, _⟩ := loop_outside _ hg h2
  have A : ∀ i, i < hp.arrays.length → hp'.arrays[i]? = hp.arrays[i]? := fun i hi => by
    rw [hx.arrays i (Nat.lt_of_lt_of_le hi hla), ha1 i hi]
  have R : ∀ i, i < hp.rows.length → hp'.rows[i]? = hp.rows[i]? := fun i hi => by
    rw [hx.rows i (Nat.lt_of_lt_of_le hi hlr) (by omega) (by omega), hr1 i hi]
  exact ⟨A, R, fun a => read_ext ha.e_lt ha.arr (R _ ha.e_lt) A a,
    fun a => read_ext ha.h_lt ha.arr (R _ ha.h_lt) A a⟩

/-- The result has the same number of cells, and every cell outside the layers keeps its two sizes, real and
imaginary part. -/
theorem pml_outside_unchanged (hp : GHeap) (dx : DxRef) (pml : Pml) (omega : ℂ) (ha : Allocated hp dx)
    {hp' : GHeap} {dx' : DxRef} (h : applyScpml hp dx pml omega = some (hp', dx')) (a : Fin 3) :
    (hp'.read dx'.e a).length = (hp.read dx.e a).length ∧
    (hp'.read dx'.h a).length = (hp.read dx.h a).length ∧
    ∀ i : Nat, thickness pml a true ≤ i → i + thickness pml a false < (hp.read dx.e a).length →
      (hp'.read dx'.e a)[i]? = (hp.read dx.e a)[i]? ∧ (hp'.read dx'.h a)[i]? = (hp.read dx.h a)[i]? := by
  obtain ⟨hp1, dx1, hg, hge, hgh, ha1, hr1, hla, hlr, he, hh, happ⟩ := apply_start hp dx pml omega ha
  rw [happ] at h
  obtain ⟨hp2, h2, h3⟩ := Option.map_eq_some_iff.1 h
  cases h3
  obtain ⟨_, _, hall⟩ := loop_outside _ hg h2
  obtain ⟨l1, l2, ho⟩ := hall a
  rw [he, hh] at *
  refine ⟨l1, l2, fun i h1 h3 => ho i ?_⟩
  intro p f hm h0
  have ht := thickness_of_mem hm
  cases f with
  | true => intro hc; have hc' : i < p.toNat := hc; omega
  | false =>
    intro hc
    have hc' : (hp.read dx.e a).length - p.toNat ≤ i := hc
    omega

/-- Without layers the result is a copy of the grid. -/
theorem pml_zero_thickness (hp : GHeap) (dx : DxRef) (pml : Pml) (omega : ℂ) (ha : Allocated hp dx)
    (hz : ∀ a front, thickness pml a front ≤ 0) :
    ∃ hp' dx', applyScpml hp dx pml omega = some (hp', dx') ∧
      (∀ a, hp'.read dx'.e a = hp.read dx.e a) ∧ (∀ a, hp'.read dx'.h a = hp.read dx.h a) := by
  have hs := (pml_defined hp dx pml omega ha).2 (fun a f => Int.le_trans (hz a f) (Int.natCast_nonneg _))
  obtain ⟨hd, hd1⟩ := Option.isSome_iff_exists.1 hs
  refine ⟨hd.1, hd.2, hd1, ?_⟩
  obtain ⟨hp1, dx1, hg, hge, hgh, ha1, hr1, hla, hlr, he, hh, happ⟩ := apply_start hp dx pml omega ha
  rw [happ] at hd1
  obtain ⟨hp2, h2, h3⟩ := Option.map_eq_some_iff.1 hd1
  subst h3
  obtain ⟨_, _, hall⟩ := loop_outside _ hg h2
  have hno : ∀ a (i : Nat), ∀ p f, (p, a, f) ∈ pml.toList.zip sides → 0 < p →
      ¬ inLayer f p.toNat (hp1.read dx1.e a).length i := by
    intro a i p f hm h0
    have := thickness_of_mem hm
    have := hz a f
    omega
  constructor
  · intro a
    rw [← he a]
    exact List.ext_getElem? fun i => ((hall a).2.2 i (hno a i)).1
  · intro a
    rw [← hh a]
    exact List.ext_getElem? fun i => ((hall a).2.2 i (hno a i)).2

/-- The property as a user states it: on a real grid, every cell keeps the real part of its size. -/
def KeepsRealPart (hp : GHeap) (dx : DxRef) (pml : Pml) (omega : ℂ) : Prop :=
  ∀ hp' dx', applyScpml hp dx pml omega = some (hp', dx') →
    ∀ (a : Fin 3) (i : Nat), ((hp'.read dx'.e a)[i]?).map Complex.re = ((hp.read dx.e a)[i]?).map Complex.re ∧
      ((hp'.read dx'.h a)[i]?).map Complex.re = ((hp.read dx.h a)[i]?).map Complex.re

/-- A grid of real cell sizes. -/
structure RealGrid (hp : GHeap) (dx : DxRef) : Prop where
  len : ∀ a, (hp.read dx.h a).length = (hp.read dx.e a).length
  e_real : ∀ a, ∀ x ∈ hp.read dx.e a, x.im = 0 ∧ 0 ≤ x.re
  h_real : ∀ a, ∀ x ∈ hp.read dx.h a, x.im = 0 ∧ 0 ≤ x.re

/-- If the two layers of each axis do not overlap, every cell size of a real grid is multiplied by `1 + i r` with
`r ≤ 0`: its real part is kept and the imaginary part has the sign that damps the field for frequencies with
positive real part. -/
theorem pml_stretch_factor_partial (hp : GHeap) (dx : DxRef) (pml : Pml) (omega : ℂ) (ha : Allocated hp dx)
    (hr : RealGrid hp dx) (ho : 0 < omega.re)
    (hsep : ∀ a, max 0 (thickness pml a true) + max 0 (thickness pml a false) ≤ (hp.read dx.e a).length)
    {hp' : GHeap} {dx' : DxRef} (h : applyScpml hp dx pml omega = some (hp', dx')) (a : Fin 3) (i : Nat) :
    (∀ x, (hp.read dx.e a)[i]? = some x → ∃ r : ℝ, r ≤ 0 ∧
      (hp'.read dx'.e a)[i]? = some (x * (1 + Complex.I * (r : ℂ)))) ∧
    (∀ x, (hp.read dx.h a)[i]? = some x → ∃ r : ℝ, r ≤ 0 ∧
      (hp'.read dx'.h a)[i]? = some (x * (1 + Complex.I * (r : ℂ)))) := by
  obtain ⟨hp1, dx1, hg, hge, hgh, ha1, hr1, hla, hlr, he, hh, happ⟩ := apply_start hp dx pml omega ha
  rw [happ] at h
  obtain ⟨hp2, h2, h3⟩ := Option.map_eq_some_iff.1 h
  cases h3
  have hin := loop_inside (omega := omega) ho a (hp.read dx.e a).length (pml.toList.zip sides) hg h2
    (by rw [he]) (by rw [hh, hr.len]) ?_ ?_ i
  · rw [he, hh] at hin
    exact hin
  · rw [List.pairwise_iff_getElem]
    intro k m hk hm hkm
    have hk' := List.getElem?_eq_getElem hk
    have hm' := List.getElem?_eq_getElem hm
    generalize (pml.toList.zip sides)[k] = u at hk' ⊢
    generalize (pml.toList.zip sides)[m] = v at hm' ⊢
    obtain ⟨pu, au, fu⟩ := u
    obtain ⟨pv, av, fv⟩ := v
    intro e1 e2 hu hv j hj hju hjv
    dsimp only at *
    subst e1 e2
    have tu := thickness_of_mem (List.mem_iff_getElem?.2 ⟨k, hk'⟩)
    have tv := thickness_of_mem (List.mem_iff_getElem?.2 ⟨m, hm'⟩)
    have su := (List.getElem?_zip_eq_some.1 hk').2
    have sv := (List.getElem?_zip_eq_some.1 hm').2
    have hs := hsep av
    have hfne : fu = true ∧ fv = false := by
      exact sides_apart k m hkm _ _ _ su sv
    obtain ⟨rfl, rfl⟩ := hfne
    have h1 : j < pu.toNat := hju
    have h2 : (hp.read dx.e av).length - pv.toNat ≤ j := hjv
    omega
  · intro p f hm h0 j hj x hx
    rw [he] at hx
    exact hr.e_real a x (List.mem_of_getElem? hx)

/-- Real parts are kept if the layers do not overlap. -/
theorem pml_real_part_partial (hp : GHeap) (dx : DxRef) (pml : Pml) (omega : ℂ) (ha : Allocated hp dx)
    (hr : RealGrid hp dx) (ho : 0 < omega.re)
    (hsep : ∀ a, max 0 (thickness pml a true) + max 0 (thickness pml a false) ≤ (hp.read dx.e a).length) :
    KeepsRealPart hp dx pml omega := by
  intro hp' dx' h a i
  have key := pml_stretch_factor_partial hp dx pml omega ha hr ho hsep h a i
  have hre : ∀ (x : ℂ) (r : ℝ), x.im = 0 → (x * (1 + Complex.I * (r : ℂ))).re = x.re := by
    intro x r hx
    simp [hx]
  constructor
  · cases hx : (hp.read dx.e a)[i]? with
    | some x =>
      obtain ⟨r, _, h1⟩ := key.1 x hx
      rw [h1, Option.map_some, Option.map_some, hre x r (hr.e_real a x (List.mem_of_getElem? hx)).1]
    | none =>
      have : (hp'.read dx'.e a)[i]? = none := by
        rw [List.getElem?_eq_none_iff] at hx ⊢
        rw [(pml_outside_unchanged hp dx pml omega ha h a).1]; exact hx
      rw [this]
  · cases hx : (hp.read dx.h a)[i]? with
    | some x =>
      obtain ⟨r, _, h1⟩ := key.2 x hx
      rw [h1, Option.map_some, Option.map_some, hre x r (hr.h_real a x (List.mem_of_getElem? hx)).1]
    | none =>
      have : (hp'.read dx'.h a)[i]? = none := by
        rw [List.getElem?_eq_none_iff] at hx ⊢
        rw [(pml_outside_unchanged hp dx pml omega ha h a).2.1]; exact hx
      rw [this]

/-! ### Overlapping layers -/

/-- Two cells of size one along each axis; `dxes[0]` and `dxes[1]` are the same list. -/
def twoCells : GHeap := ⟨[[1, 1]], [fun _ => 0]⟩

theorem twoCells_allocated : Allocated twoCells ⟨0, 0⟩ :=
  ⟨by decide, by decide, by intro r hr a; simp [twoCells] at hr; subst hr; simp [twoCells]⟩

theorem twoCells_real : RealGrid twoCells ⟨0, 0⟩ := by
  have : ∀ a, twoCells.read 0 a = [1, 1] := fun _ => rfl
  refine ⟨fun _ => rfl, ?_, ?_⟩ <;>
  · intro a x hx
    rw [this] at hx
    have : x = 1 := by simpa using hx
    subst this
    simp

/-- Hypotheses of `pml_stretch_factor_partial` hold for two cells with one layer at each end of the x axis. -/
example : ∀ a, max 0 (thickness (.layers [1, 1, 0, 0, 0, 0]) a true) +
    max 0 (thickness (.layers [1, 1, 0, 0, 0, 0]) a false) ≤ (twoCells.read 0 a).length := by
  intro a
  have : twoCells.read 0 a = [1, 1] := rfl
  rw [this]
  fin_cases a <;> decide

example : ∀ a front, thickness (.layers [1, 1, 0, 0, 0, 0]) a front ≤ (twoCells.read 0 a).length := by
  intro a f
  have : twoCells.read 0 a = [1, 1] := rfl
  rw [this]
  fin_cases a <;> cases f <;> decide

theorem stretch_value {a b : List ℂ} {front : Bool} {omega : ℂ} {th : Nat} {ab : List ℂ × List ℂ}
    (h : stretchArrays a b front omega th = some ab) (i : Nat) (hi : inLayer front th a.length i) {x : ℂ}
    (hx : a[i]? = some x) :
    ab.1[i]? = some (x * (1 + Complex.I * sFunction
      (if front then (posAt a th - posA a i) / (posAt a th - posAt a 0)
       else (posA a i - posAt a (a.length - th)) / (posAt a a.length - posAt a (a.length - th))) /
      (if front then posAt a th - posAt a 0 else posAt a a.length - posAt a (a.length - th)) /
      (omega.re : ℂ))) := by
  have hth := (stretchArrays_some h).1
  unfold stretchArrays at h
  dsimp only at h
  rw [if_neg hth] at h
  cases h
  have hs : (if front = true then decide (i < th) else decide (a.length - th ≤ i)) = true := by
    unfold inLayer at hi
    cases front <;> simpa using hi
  dsimp only
  rw [stretchArr_get, hx, Option.map_some, hs, if_pos rfl]
  cases front <;> rfl

theorem front_value {b : List ℂ} {ab : List ℂ × List ℂ}
    (h : stretchArrays [1, 1] b true ((5 / 2 : ℝ) : ℂ) 1 = some ab) : ab.1 = [1 - Complex.I, 1] := by
  have h0 : posAt [1, 1] 0 = 0 := by simp [posAt]
  have h1 : posAt [1, 1] 1 = 1 := by simp [posAt]
  have ha : posA [1, 1] 0 = 1 / 2 := by rw [posA, h0, h1]; ring
  have e0 := stretch_value h 0 (by decide) rfl
  have e1 : ab.1[1]? = some 1 := (stretchArrays_outside h 1 (by decide)).1
  have hl : ab.1.length = 2 := (stretchArrays_length h).1
  simp only [if_true, h1, h0, ha, Complex.ofReal_re, sFunction] at e0
  obtain ⟨l1, l2⟩ := ab
  dsimp only at *
  match l1, hl with
  | [u, v], _ =>
    cases e1
    have : u = 1 - Complex.I := by
      have := Option.some.inj e0
      rw [this]; push_cast; ring
    rw [this]

theorem back_value {b : List ℂ} {ab : List ℂ × List ℂ}
    (h : stretchArrays [1 - Complex.I, 1] b false ((5 / 2 : ℝ) : ℂ) 2 = some ab) :
    ∃ x, ab.1[0]? = some x ∧ x.re ≠ 1 := by
  have h0 : posAt [1 - Complex.I, 1] 0 = 0 := by simp [posAt]
  have h1 : posAt [1 - Complex.I, 1] 1 = 1 - Complex.I := by simp [posAt]
  have h2 : posAt [1 - Complex.I, 1] 2 = 2 - Complex.I := by simp [posAt]; ring
  have ha : posA [1 - Complex.I, 1] 0 = (1 - Complex.I) / 2 := by rw [posA, h0, h1]; ring
  have e0 := stretch_value h 0 (by decide) rfl
  simp only [Bool.false_eq_true, if_false, List.length_cons, List.length_nil, Nat.zero_add, Nat.reduceAdd,
    Nat.sub_self, h2, h0, ha, Complex.ofReal_re, sFunction] at e0
  refine ⟨_, e0, ?_⟩
  have hne : (2 - Complex.I) ≠ 0 := by
    intro h
    have := congrArg Complex.re h
    norm_num at this
  have hinv : (2 - Complex.I)⁻¹ = (2 + Complex.I) / 5 := by
    rw [inv_eq_iff_eq_inv, eq_comm, inv_eq_iff_eq_inv]
    refine eq_inv_of_mul_eq_one_left ?_
    linear_combination (-1 / 5 : ℂ) * Complex.I_sq
  have hI2 := Complex.I_sq
  have hl : ((1 - Complex.I) / 2 - 0) / (2 - Complex.I - 0) = (3 - Complex.I) / 10 := by
    rw [sub_zero, sub_zero, div_eq_mul_inv _ (2 - Complex.I), hinv]
    linear_combination (-1 / 10 : ℂ) * hI2
  rw [hl, sub_zero, div_eq_mul_inv _ (2 - Complex.I), hinv]
  have hl4 : ((3 - Complex.I) / 10) ^ 4 = (7 - 24 * Complex.I) / 2500 := by
    linear_combination ((Complex.I ^ 2 - 12 * Complex.I + 53) / 10000) * hI2
  have hval : (1 - Complex.I) * (1 + Complex.I * ((4 + 1) * -16 / 2 * ((3 - Complex.I) / 10) ^ 4) *
      ((2 + Complex.I) / 5) / ((5 / 2 : ℝ) : ℂ)) =
      ((11236 / 12500 : ℝ) : ℂ) + ((-12452 / 12500 : ℝ) : ℂ) * Complex.I := by
    rw [hl4]
    push_cast
    ring_nf
    have hI3 : Complex.I ^ 3 = -Complex.I := by rw [pow_succ, hI2]; ring
    have hI4 : Complex.I ^ 4 = 1 := by rw [show 4 = 2 * 2 from rfl, pow_mul, hI2]; norm_num
    rw [hI2, hI3, hI4]
    ring
  rw [hval]
  norm_num

/-- The property fails for overlapping layers: with two cells, a front layer of one cell and a back layer of two,
the real part of the size of the first cell changes. -/
theorem pml_real_part_false : ∃ hp dx pml omega, Allocated hp dx ∧ RealGrid hp dx ∧ 0 < omega.re ∧
    (applyScpml hp dx pml omega).isSome = true ∧ ¬ KeepsRealPart hp dx pml omega := by
  refine ⟨twoCells, ⟨0, 0⟩, .layers [1, 2, 0, 0, 0, 0], ((5 / 2 : ℝ) : ℂ), twoCells_allocated, twoCells_real,
    by norm_num, ?_, ?_⟩
  · rw [pml_defined _ _ _ _ twoCells_allocated]
    intro a f
    have : twoCells.read 0 a = [1, 1] := rfl
    rw [this]
    fin_cases a <;> cases f <;> decide
  · intro hk
    obtain ⟨hp1, dx1, hg, _, _, _, _, _, _, he, _, happ⟩ :=
      apply_start twoCells ⟨0, 0⟩ (.layers [1, 2, 0, 0, 0, 0]) ((5 / 2 : ℝ) : ℂ) twoCells_allocated
    have hs : (applyScpml twoCells ⟨0, 0⟩ (.layers [1, 2, 0, 0, 0, 0]) ((5 / 2 : ℝ) : ℂ)).isSome = true := by
      rw [pml_defined _ _ _ _ twoCells_allocated]
      intro a f
      have : twoCells.read 0 a = [1, 1] := rfl
      rw [this]
      fin_cases a <;> cases f <;> decide
    obtain ⟨⟨hpf, dxf⟩, hd⟩ := Option.isSome_iff_exists.1 hs
    have hkeep := (hk hpf dxf hd 0 0).1
    rw [happ] at hd
    obtain ⟨hp2, h2, h3⟩ := Option.map_eq_some_iff.1 hd
    cases h3
    have hloop : scpmlLoop dx1 ((5 / 2 : ℝ) : ℂ) [(1, 0, true), (2, 0, false), (0, 1, true), (0, 1, false),
        (0, 2, true), (0, 2, false)] hp1 = some hpf := h2
    simp only [scpmlLoop, if_pos (show (0 : Int) < 1 by decide), if_pos (show (0 : Int) < 2 by decide),
      if_neg (show ¬ (0 : Int) < 0 by decide)] at hloop
    obtain ⟨g1, hg1, hloop⟩ := Option.bind_eq_some_iff.1 hloop
    obtain ⟨g2, hg2, hloop⟩ := Option.bind_eq_some_iff.1 hloop
    cases hloop
    obtain ⟨ab, hab, hr, _, hgood, _⟩ := stretch_heap hg hg1
    obtain ⟨ab', hab', hr', _, _, _⟩ := stretch_heap hgood hg2
    have hread : hp1.read dx1.e 0 = [1, 1] := by rw [he]; rfl
    rw [hread] at hab
    rw [hr 0, if_pos rfl, front_value hab] at hab'
    obtain ⟨x, hx, hne⟩ := back_value hab'
    have hlast : (hpf.read dx1.e 0)[0]? = some x := by rw [hr' 0, if_pos rfl, hx]
    rw [hlast] at hkeep
    have : twoCells.read 0 0 = [1, 1] := rfl
    rw [this] at hkeep
    simp at hkeep
    exact hne hkeep

end Verif.Fdfd
