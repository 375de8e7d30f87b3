import Verif.Fdfd.Grid
import Mathlib.Tactic.Ring
import Mathlib.Tactic.Linarith
import Mathlib.Tactic.Positivity
import Mathlib.Algebra.Order.BigOperators.Group.List
import Mathlib.Tactic.NormNum
import Mathlib.Tactic.FieldSimp
import Mathlib.Tactic.FinCases
/-
Lemmas about the PML functions.
-/
namespace Verif.Fdfd
set_option linter.unusedSectionVars false

/-! ### The heap -/

/-- The two rows are different live objects holding live arrays. -/
structure GoodRef (hp : GHeap) (dx : DxRef) : Prop where
  ne : dx.e ≠ dx.h
  e_lt : dx.e < hp.rows.length
  h_lt : dx.h < hp.rows.length
  arr : ∀ r ∈ hp.rows, ∀ a, r a < hp.arrays.length

/-- Nothing of the old heap is changed, except the two rows of `dx`. -/
structure Extends (hp hp' : GHeap) (dx : DxRef) : Prop where
  arrays : ∀ i, i < hp.arrays.length → hp'.arrays[i]? = hp.arrays[i]?
  rows : ∀ i, i < hp.rows.length → i ≠ dx.e → i ≠ dx.h → hp'.rows[i]? = hp.rows[i]?
  len_arrays : hp.arrays.length ≤ hp'.arrays.length
  len_rows : hp.rows.length ≤ hp'.rows.length

theorem Extends.refl (hp : GHeap) (dx : DxRef) : Extends hp hp dx :=
  ⟨fun _ _ => rfl, fun _ _ _ _ => rfl, Nat.le_refl _, Nat.le_refl _⟩

theorem Extends.trans {hp hp' hp'' : GHeap} {dx : DxRef} (h : Extends hp hp' dx)
    (h' : Extends hp' hp'' dx) : Extends hp hp'' dx :=
  ⟨fun i hi => (h'.arrays i (Nat.lt_of_lt_of_le hi h.len_arrays)).trans (h.arrays i hi),
   fun i hi h1 h2 => (h'.rows i (Nat.lt_of_lt_of_le hi h.len_rows) h1 h2).trans (h.rows i hi h1 h2),
   Nat.le_trans h.len_arrays h'.len_arrays, Nat.le_trans h.len_rows h'.len_rows⟩

theorem read_eq {hp : GHeap} {row : Nat} {axis : Fin 3} {r : Fin 3 → Nat} {v : List ℂ}
    (h1 : hp.rows[row]? = some r) (h2 : hp.arrays[r axis]? = some v) : hp.read row axis = v := by
  simp only [GHeap.read, List.getD_eq_getElem?_getD, h1, Option.getD_some, h2]

theorem read_of {hp : GHeap} {row : Nat} {r : Fin 3 → Nat} (h1 : hp.rows[row]? = some r)
    (hr : ∀ a, r a < hp.arrays.length) (axis : Fin 3) :
    hp.arrays[r axis]? = some (hp.read row axis) := by
  have h2 : hp.arrays[r axis]? = some (hp.arrays[r axis]'(hr axis)) := List.getElem?_eq_getElem (hr axis)
  rw [h2, read_eq h1 h2]

theorem stretch_heap {hp hp' : GHeap} {dx : DxRef} {axis : Fin 3} {front : Bool} {omega : ℂ} {th : Nat}
    (hg : GoodRef hp dx) (h : stretchWithScpml hp dx axis front omega th = some hp') :
    ∃ ab, stretchArrays (hp.read dx.e axis) (hp.read dx.h axis) front omega th = some ab ∧
      (∀ x, hp'.read dx.e x = if x = axis then ab.1 else hp.read dx.e x) ∧
      (∀ x, hp'.read dx.h x = if x = axis then ab.2 else hp.read dx.h x) ∧
      GoodRef hp' dx ∧ Extends hp hp' dx := by
  unfold stretchWithScpml at h
  generalize hs : stretchArrays (hp.read dx.e axis) (hp.read dx.h axis) front omega th = o at h
  cases o with
  | none => simp at h
  | some ab =>
    refine ⟨ab, rfl, ?_⟩
    simp only [Option.map_some, Option.some.injEq, GHeap.newArray, GHeap.assign] at h
    have hre : hp.rows[dx.e]? = some (hp.rows[dx.e]'hg.e_lt) := List.getElem?_eq_getElem hg.e_lt
    have hrh : hp.rows[dx.h]? = some (hp.rows[dx.h]'hg.h_lt) := List.getElem?_eq_getElem hg.h_lt
    generalize hp.rows[dx.e]'hg.e_lt = re at hre
    generalize hp.rows[dx.h]'hg.h_lt = rh at hrh
    have hae := hg.arr re (List.mem_of_getElem? hre)
    have hah := hg.arr rh (List.mem_of_getElem? hrh)
    have hArr : hp'.arrays = hp.arrays ++ [ab.1] ++ [ab.2] := by rw [← h]
    have hRows : hp'.rows = (hp.rows.modify dx.e fun r => Function.update r axis hp.arrays.length).modify
        dx.h fun r => Function.update r axis (hp.arrays.length + 1) := by
      rw [← h]; simp
    have hra : hp'.arrays[hp.arrays.length]? = some ab.1 := by
      rw [hArr, List.append_assoc, List.getElem?_append_right (Nat.le_refl _), Nat.sub_self]; rfl
    have hrb : hp'.arrays[hp.arrays.length + 1]? = some ab.2 := by
      rw [hArr, List.append_assoc, List.getElem?_append_right (by omega), Nat.add_sub_cancel_left]; rfl
    have hold : ∀ i, i < hp.arrays.length → hp'.arrays[i]? = hp.arrays[i]? := by
      intro i hi
      rw [hArr, List.append_assoc, List.getElem?_append_left hi]
    have hrow : ∀ i, hp'.rows[i]? = (hp.rows[i]?).map (fun r =>
        if i = dx.h then Function.update r axis (hp.arrays.length + 1)
        else if i = dx.e then Function.update r axis hp.arrays.length else r) := by
      intro i
      rw [hRows, List.getElem?_modify, List.getElem?_modify]
      rcases hp.rows[i]? with _ | r
      · rfl
      · by_cases h1 : i = dx.h
        · have h2 : ¬ dx.e = i := fun e => hg.ne (e.trans h1)
          simp [h1, hg.ne]
        · by_cases h2 : i = dx.e
          · simp [h2, hg.ne, Ne.symm hg.ne]
          · simp [h1, h2, Ne.symm h1, Ne.symm h2]
    have hrow_e : hp'.rows[dx.e]? = some (Function.update re axis hp.arrays.length) := by
      rw [hrow, hre, Option.map_some, if_neg hg.ne, if_pos rfl]
    have hrow_h : hp'.rows[dx.h]? = some (Function.update rh axis (hp.arrays.length + 1)) := by
      rw [hrow, hrh, Option.map_some, if_pos rfl]
    refine ⟨?_, ?_, ?_, ?_⟩
    · intro x
      by_cases hx : x = axis
      · subst hx
        rw [if_pos rfl]
        exact read_eq hrow_e (by rw [Function.update_self]; exact hra)
      · rw [if_neg hx]
        exact read_eq hrow_e (by
          rw [Function.update_of_ne hx, hold _ (hae x)]; exact read_of hre hae x)
    · intro x
      by_cases hx : x = axis
      · subst hx
        rw [if_pos rfl]
        exact read_eq hrow_h (by rw [Function.update_self]; exact hrb)
      · rw [if_neg hx]
        exact read_eq hrow_h (by
          rw [Function.update_of_ne hx, hold _ (hah x)]; exact read_of hrh hah x)
    · have hl : hp'.arrays.length = hp.arrays.length + 2 := by rw [hArr]; simp
      refine ⟨hg.ne, ?_, ?_, ?_⟩
      · rw [hRows]; simpa using hg.e_lt
      · rw [hRows]; simpa using hg.h_lt
      · intro r hr a
        obtain ⟨i, hi⟩ := List.mem_iff_getElem?.1 hr
        rw [hrow] at hi
        obtain ⟨r0, hr0, rfl⟩ := Option.map_eq_some_iff.1 hi
        have h0 := hg.arr r0 (List.mem_of_getElem? hr0) a
        split
        · by_cases ha : a = axis
          · subst ha; rw [Function.update_self]; omega
          · rw [Function.update_of_ne ha]; omega
        · split
          · by_cases ha : a = axis
            · subst ha; rw [Function.update_self]; omega
            · rw [Function.update_of_ne ha]; omega
          · omega
    · refine ⟨hold, ?_, by rw [hArr]; simp, by rw [hRows]; simp⟩
      intro i _ h1 h2
      rw [hrow]
      rcases hp.rows[i]? with _ | r
      · rfl
      · rw [Option.map_some, if_neg h2, if_neg h1]

/-! ### The arrays -/

/-- The cells of a layer of `th` cells at one end of `n` cells. -/
def inLayer (front : Bool) (th n i : Nat) : Prop := if front then i < th else n - th ≤ i

instance (front : Bool) (th n i : Nat) : Decidable (inLayer front th n i) := by
  unfold inLayer; infer_instance

theorem stretchArr_get (v : List ℂ) (slc : Nat → Bool) (f : Nat → ℂ) (i : Nat) :
    (stretchArr v slc f)[i]? = (v[i]?).map (fun x => if slc i then x * f i else x) := by
  rw [stretchArr, List.getElem?_mapIdx]

theorem stretchArrays_some {a b : List ℂ} {front : Bool} {omega : ℂ} {th : Nat} {ab : List ℂ × List ℂ}
    (h : stretchArrays a b front omega th = some ab) :
    ¬ a.length < th ∧ ab = (stretchArrays a b front omega th).getD ([], []) := by
  refine ⟨fun hlt => ?_, by rw [h]; rfl⟩
  rw [stretchArrays] at h
  dsimp only at h
  rw [if_pos hlt] at h
  cases h

theorem stretchArrays_length {a b : List ℂ} {front : Bool} {omega : ℂ} {th : Nat} {ab : List ℂ × List ℂ}
    (h : stretchArrays a b front omega th = some ab) :
    ab.1.length = a.length ∧ ab.2.length = b.length ∧ th ≤ a.length := by
  have hth := (stretchArrays_some h).1
  unfold stretchArrays at h
  dsimp only at h
  rw [if_neg hth] at h
  · cases h
    refine ⟨?_, ?_, by omega⟩ <;> simp [stretchArr]

theorem stretchArrays_outside {a b : List ℂ} {front : Bool} {omega : ℂ} {th : Nat}
    {ab : List ℂ × List ℂ} (h : stretchArrays a b front omega th = some ab) (i : Nat)
    (hi : ¬ inLayer front th a.length i) : ab.1[i]? = a[i]? ∧ ab.2[i]? = b[i]? := by
  have hth := (stretchArrays_some h).1
  unfold stretchArrays at h
  dsimp only at h
  rw [if_neg hth] at h
  · cases h
    have hs : (if front = true then decide (i < th) else decide (a.length - th ≤ i)) = false := by
      unfold inLayer at hi
      cases front <;> simpa using hi
    dsimp only
    rw [stretchArr_get, stretchArr_get]
    simp only [hs, Bool.false_eq_true, if_false, Option.map_id']
    exact ⟨trivial, trivial⟩

/-- Partial sums over real entries. -/
theorem posAt_diff (a : List ℂ) (i j : Nat) (hij : i ≤ j)
    (hr : ∀ m, i ≤ m → m < j → ∀ x, a[m]? = some x → x.im = 0 ∧ 0 ≤ x.re) :
    (posAt a j - posAt a i).im = 0 ∧ 0 ≤ (posAt a j - posAt a i).re := by
  induction j with
  | zero =>
    have : i = 0 := by omega
    subst this
    simp
  | succ j ih =>
    rcases Nat.lt_or_ge j i with h | h
    · have : i = j + 1 := by omega
      subst this
      simp
    · have h1 := ih h (fun m h1 h2 => hr m h1 (by omega))
      have h2 : posAt a (j + 1) = posAt a j + (a[j]?).getD 0 := by
        unfold posAt
        rw [List.take_add_one, List.sum_append]
        cases a[j]? <;> simp
      have h3 : ((a[j]?).getD 0).im = 0 ∧ 0 ≤ ((a[j]?).getD 0).re := by
        cases hj : a[j]? with
        | none => simp
        | some x => exact hr j h (by omega) x hj
      rw [h2]
      constructor
      · have : (posAt a j + (a[j]?).getD 0 - posAt a i).im =
            (posAt a j - posAt a i).im + ((a[j]?).getD 0).im := by
          simp only [Complex.sub_im, Complex.add_im]; ring
        rw [this, h1.1, h3.1, add_zero]
      · have : (posAt a j + (a[j]?).getD 0 - posAt a i).re =
            (posAt a j - posAt a i).re + ((a[j]?).getD 0).re := by
          simp only [Complex.sub_re, Complex.add_re]; ring
        rw [this]; linarith [h1.2, h3.2]

theorem of_real {z : ℂ} (h : z.im = 0) : z = (z.re : ℂ) := by
  apply Complex.ext <;> simp [h]

/-- The stretching factor is `1 + i r` with `r ≤ 0` for real arguments. -/
theorem factor_real (l d : ℂ) (omega : ℂ) (hl : l.im = 0) (hd : d.im = 0) (hd' : 0 ≤ d.re)
    (ho : 0 < omega.re) : ∃ r : ℝ, r ≤ 0 ∧
      1 + Complex.I * sFunction l / d / (omega.re : ℂ) = 1 + Complex.I * (r : ℂ) := by
  refine ⟨(4 + 1) * (-16) / 2 * l.re ^ 4 / d.re / omega.re, ?_, ?_⟩
  · have h1 : 0 ≤ l.re ^ 4 := by positivity
    have h2 : (4 + 1) * (-16) / 2 * l.re ^ 4 / d.re / omega.re =
        -(40 * (l.re ^ 4 / d.re / omega.re)) := by ring
    rw [h2]
    have : 0 ≤ l.re ^ 4 / d.re / omega.re := by positivity
    linarith
  · rw [sFunction]
    conv_lhs => rw [of_real hl, of_real hd]
    push_cast
    ring

theorem div_real {x y : ℂ} (hx : x.im = 0) (hy : y.im = 0) : (x / y).im = 0 := by
  rw [of_real hx, of_real hy, ← Complex.ofReal_div, Complex.ofReal_im]

/-- Inside the layer, entries of a real part of the grid are multiplied by `1 + i r`, `r ≤ 0`. -/
theorem stretchArrays_inside {a b : List ℂ} {front : Bool} {omega : ℂ} {th : Nat}
    {ab : List ℂ × List ℂ} (h : stretchArrays a b front omega th = some ab) (ho : 0 < omega.re)
    (hr : ∀ i, inLayer front th a.length i → ∀ x, a[i]? = some x → x.im = 0 ∧ 0 ≤ x.re)
    (i : Nat) (hi : inLayer front th a.length i) :
    (∀ x, a[i]? = some x → ∃ r : ℝ, r ≤ 0 ∧ ab.1[i]? = some (x * (1 + Complex.I * (r : ℂ)))) ∧
    (i < a.length → ∀ x, b[i]? = some x → ∃ r : ℝ, r ≤ 0 ∧ ab.2[i]? = some (x * (1 + Complex.I * (r : ℂ)))) := by
  have hth := (stretchArrays_some h).1
  unfold stretchArrays at h
  dsimp only at h
  rw [if_neg hth] at h
  cases h
  have hs : (if front = true then decide (i < th) else decide (a.length - th ≤ i)) = true := by
    unfold inLayer at hi
    cases front <;> simpa using hi
  dsimp only
  -- the position of the inner end of the layer
  have key : ∀ x : ℂ, i < a.length → (x = posA a i ∨ x = posAt a i) → ∃ r : ℝ, r ≤ 0 ∧
      1 + Complex.I * sFunction
        (if front = true then
          ((if front = true then posAt a th else posAt a (a.length - th)) - x) /
            ((if front = true then posAt a th else posAt a (a.length - th)) - posAt a 0)
         else (x - if front = true then posAt a th else posAt a (a.length - th)) /
            (posAt a a.length - if front = true then posAt a th else posAt a (a.length - th))) /
        (if front = true then
          (if front = true then posAt a th else posAt a (a.length - th)) - posAt a 0
         else posAt a a.length - if front = true then posAt a th else posAt a (a.length - th)) /
        (omega.re : ℂ) = 1 + Complex.I * (r : ℂ) := by
    intro x hilen hx
    cases front with
    | true =>
      have hi' : i < th := hi
      simp only [if_true]
      have hd := posAt_diff a 0 th (Nat.zero_le _) (fun m _ h2 => hr m h2)
      refine factor_real _ _ _ (div_real ?_ hd.1) hd.1 hd.2 ho
      have h1 := (posAt_diff a i th (by omega) (fun m _ h2 => hr m h2)).1
      have h2 := (posAt_diff a (i + 1) th (by omega) (fun m _ h2 => hr m h2)).1
      rcases hx with rfl | rfl
      · have : posAt a th - posA a i = ((posAt a th - posAt a i) + (posAt a th - posAt a (i + 1))) / (2 : ℝ) := by
          rw [posA]; push_cast; ring
        rw [this, Complex.div_ofReal_im, Complex.add_im, h1, h2]; simp
      · exact h1
    | false =>
      have hi' : a.length - th ≤ i := hi
      simp only [Bool.false_eq_true, if_false]
      have hd := posAt_diff a (a.length - th) a.length (by omega) (fun m h1 _ => hr m h1)
      refine factor_real _ _ _ (div_real ?_ hd.1) hd.1 hd.2 ho
      have h1 := (posAt_diff a (a.length - th) i (by omega) (fun m h1 _ => hr m h1)).1
      have h2 := (posAt_diff a (a.length - th) (i + 1) (by omega) (fun m h1 _ => hr m h1)).1
      rcases hx with rfl | rfl
      · have : posA a i - posAt a (a.length - th) =
            ((posAt a i - posAt a (a.length - th)) + (posAt a (i + 1) - posAt a (a.length - th))) / (2 : ℝ) := by
          rw [posA]; push_cast; ring
        rw [this, Complex.div_ofReal_im, Complex.add_im, h1, h2]; simp
      · exact h1
  constructor
  · intro x hx
    have hl : i < a.length := (List.getElem?_eq_some_iff.1 hx).1
    obtain ⟨r, hr0, hr1⟩ := key _ hl (Or.inl rfl)
    refine ⟨r, hr0, ?_⟩
    rw [stretchArr_get, hx, Option.map_some, hs, if_pos rfl, hr1]
  · intro hl x hx
    obtain ⟨r, hr0, hr1⟩ := key _ hl (Or.inr rfl)
    refine ⟨r, hr0, ?_⟩
    rw [stretchArr_get, hx, Option.map_some, hs, if_pos rfl, hr1]

/-! ### The loop -/

theorem loop_outside {dx : DxRef} {omega : ℂ} (L : List (Int × Fin 3 × Bool)) :
    ∀ {hp hp' : GHeap}, GoodRef hp dx → scpmlLoop dx omega L hp = some hp' →
    GoodRef hp' dx ∧ Extends hp hp' dx ∧
      ∀ a, (hp'.read dx.e a).length = (hp.read dx.e a).length ∧
        (hp'.read dx.h a).length = (hp.read dx.h a).length ∧
        ∀ i, (∀ p front, (p, a, front) ∈ L → 0 < p →
            ¬ inLayer front p.toNat (hp.read dx.e a).length i) →
          (hp'.read dx.e a)[i]? = (hp.read dx.e a)[i]? ∧
          (hp'.read dx.h a)[i]? = (hp.read dx.h a)[i]? := by
  induction L with
  | nil =>
    intro hp hp' hg h
    cases h
    exact ⟨hg, Extends.refl _ _, fun a => ⟨rfl, rfl, fun _ _ => ⟨rfl, rfl⟩⟩⟩
  | cons t rest ih =>
    obtain ⟨p, x, f⟩ := t
    intro hp hp' hg h
    rw [scpmlLoop] at h
    by_cases hp0 : 0 < p
    · rw [if_pos hp0] at h
      obtain ⟨hp1, h1, h2⟩ := Option.bind_eq_some_iff.1 h
      obtain ⟨ab, hab, he, hh, hg1, hx1⟩ := stretch_heap hg h1
      obtain ⟨hg', hx', hall⟩ := ih hg1 h2
      obtain ⟨hla, hlb, _⟩ := stretchArrays_length hab
      refine ⟨hg', hx1.trans hx', fun a => ?_⟩
      obtain ⟨l1, l2, ho⟩ := hall a
      have e1 := he a
      have e2 := hh a
      by_cases hxa : a = x
      · subst hxa
        rw [if_pos rfl] at e1 e2
        have hlen : (hp1.read dx.e a).length = (hp.read dx.e a).length := by rw [e1, hla]
        refine ⟨by rw [l1, hlen], by rw [l2, e2, hlb], fun i hi => ?_⟩
        have h3 := ho i (fun p' f' hm h0 => by
          rw [hlen]; exact hi p' f' (List.mem_cons_of_mem _ hm) h0)
        have h4 := stretchArrays_outside hab i (hi p f List.mem_cons_self hp0)
        rw [h3.1, h3.2, e1, e2, h4.1, h4.2]
        exact ⟨rfl, rfl⟩
      · rw [if_neg hxa] at e1 e2
        refine ⟨by rw [l1, e1], by rw [l2, e2], fun i hi => ?_⟩
        have h3 := ho i (fun p' f' hm h0 => by
          rw [e1]; exact hi p' f' (List.mem_cons_of_mem _ hm) h0)
        rw [h3.1, h3.2, e1, e2]
        exact ⟨rfl, rfl⟩
    · rw [if_neg hp0] at h
      obtain ⟨hg', hx', hall⟩ := ih hg h
      refine ⟨hg', hx', fun a => ⟨(hall a).1, (hall a).2.1, fun i hi => (hall a).2.2 i ?_⟩⟩
      exact fun p' f' hm h0 => hi p' f' (List.mem_cons_of_mem _ hm) h0

/-- The layers on one axis do not overlap. -/
def Apart (a : Fin 3) (n : Nat) (u v : Int × Fin 3 × Bool) : Prop :=
  u.2.1 = a → v.2.1 = a → 0 < u.1 → 0 < v.1 →
    ∀ i, i < n → inLayer u.2.2 u.1.toNat n i → ¬ inLayer v.2.2 v.1.toNat n i

theorem loop_inside {dx : DxRef} {omega : ℂ} (ho : 0 < omega.re) (a : Fin 3) (n : Nat)
    (L : List (Int × Fin 3 × Bool)) : ∀ {hp hp' : GHeap}, GoodRef hp dx →
    scpmlLoop dx omega L hp = some hp' → (hp.read dx.e a).length = n → (hp.read dx.h a).length = n →
    L.Pairwise (Apart a n) →
    (∀ p f, (p, a, f) ∈ L → 0 < p → ∀ i : Nat, inLayer f p.toNat n i → ∀ x, (hp.read dx.e a)[i]? = some x →
      x.im = 0 ∧ 0 ≤ x.re) →
    ∀ i : Nat, (∀ x, (hp.read dx.e a)[i]? = some x →
        ∃ r : ℝ, r ≤ 0 ∧ (hp'.read dx.e a)[i]? = some (x * (1 + Complex.I * (r : ℂ)))) ∧
      (∀ x, (hp.read dx.h a)[i]? = some x →
        ∃ r : ℝ, r ≤ 0 ∧ (hp'.read dx.h a)[i]? = some (x * (1 + Complex.I * (r : ℂ)))) := by
  induction L with
  | nil =>
    intro hp hp' hg h hn hn' _ _ i
    cases h
    exact ⟨fun x hx => ⟨0, le_refl _, by rw [hx]; simp⟩, fun x hx => ⟨0, le_refl _, by rw [hx]; simp⟩⟩
  | cons t rest ih =>
    obtain ⟨p, x, f⟩ := t
    intro hp hp' hg h hn hn' hap hreal i
    obtain ⟨hap1, hap2⟩ := List.pairwise_cons.1 hap
    have hreal' : ∀ p f, (p, a, f) ∈ rest → 0 < p → ∀ i, inLayer f p.toNat n i →
        ∀ x, (hp.read dx.e a)[i]? = some x → x.im = 0 ∧ 0 ≤ x.re :=
      fun p f hm => hreal p f (List.mem_cons_of_mem _ hm)
    rw [scpmlLoop] at h
    by_cases hp0 : 0 < p
    · rw [if_pos hp0] at h
      obtain ⟨hp1, h1, h2⟩ := Option.bind_eq_some_iff.1 h
      obtain ⟨ab, hab, he, hh, hg1, hx1⟩ := stretch_heap hg h1
      obtain ⟨hla, hlb, _⟩ := stretchArrays_length hab
      have e1 := he a
      have e2 := hh a
      by_cases hxa : a = x
      · subst hxa
        rw [if_pos rfl] at e1 e2
        have hn1 : (hp1.read dx.e a).length = n := by rw [e1, hla, hn]
        have hn2 : (hp1.read dx.h a).length = n := by rw [e2, hlb, hn']
        by_cases hi : inLayer f p.toNat n i
        · have hin := stretchArrays_inside hab ho (by
            rw [hn]; exact hreal p f List.mem_cons_self hp0) i (by rw [hn]; exact hi)
          have hout : i < n → (hp'.read dx.e a)[i]? = (hp1.read dx.e a)[i]? ∧
              (hp'.read dx.h a)[i]? = (hp1.read dx.h a)[i]? := fun hlt => ((loop_outside rest hg1 h2).2.2 a).2.2 i
            (fun p' f' hm h0 => by
              rw [hn1]; exact hap1 _ hm rfl rfl hp0 h0 i hlt hi)
          constructor
          · intro x hx
            have hlt : i < n := by rw [← hn]; exact (List.getElem?_eq_some_iff.1 hx).1
            obtain ⟨r, hr, hr'⟩ := hin.1 x hx
            exact ⟨r, hr, by rw [(hout hlt).1, e1, hr']⟩
          · intro x hx
            have hlt : i < n := by rw [← hn']; exact (List.getElem?_eq_some_iff.1 hx).1
            obtain ⟨r, hr, hr'⟩ := hin.2 (by rw [hn]; exact hlt) x hx
            exact ⟨r, hr, by rw [(hout hlt).2, e2, hr']⟩
        · have hsame := stretchArrays_outside hab i (by rw [hn]; exact hi)
          have := ih hg1 h2 hn1 hn2 hap2 (by
            intro p' f' hm h0 j hj y hy
            have hjn : j < n := by rw [← hn1]; exact (List.getElem?_eq_some_iff.1 hy).1
            have hnot : ¬ inLayer f p.toNat n j := fun hj' => hap1 _ hm rfl rfl hp0 h0 j hjn hj' hj
            rw [e1, (stretchArrays_outside hab j (by rw [hn]; exact hnot)).1] at hy
            exact hreal' p' f' hm h0 j hj y hy) i
          rw [e1, e2, hsame.1, hsame.2] at this
          exact this
      · rw [if_neg hxa] at e1 e2
        have := ih hg1 h2 (by rw [e1, hn]) (by rw [e2, hn']) hap2 (by rw [e1]; exact hreal') i
        rw [e1, e2] at this
        exact this
    · rw [if_neg hp0] at h
      exact ih hg h hn hn' hap2 hreal' i

theorem loop_defined {dx : DxRef} {omega : ℂ} (L : List (Int × Fin 3 × Bool)) :
    ∀ {hp : GHeap}, GoodRef hp dx →
    ((scpmlLoop dx omega L hp).isSome = true ↔
      ∀ p a f, (p, a, f) ∈ L → p ≤ (hp.read dx.e a).length) := by
  induction L with
  | nil =>
    intro hp _
    simp [scpmlLoop]
  | cons t rest ih =>
    obtain ⟨p, x, f⟩ := t
    intro hp hg
    rw [scpmlLoop]
    by_cases hp0 : 0 < p
    · rw [if_pos hp0]
      by_cases hle : p ≤ (hp.read dx.e x).length
      · have hsome : ∃ hp1, stretchWithScpml hp dx x f omega p.toNat = some hp1 := by
          rw [stretchWithScpml, stretchArrays]
          dsimp only
          rw [if_neg (by omega)]
          exact ⟨_, rfl⟩
        obtain ⟨hp1, h1⟩ := hsome
        obtain ⟨ab, hab, he, hh, hg1, hx1⟩ := stretch_heap hg h1
        obtain ⟨hla, hlb, _⟩ := stretchArrays_length hab
        have hlen : ∀ a, (hp1.read dx.e a).length = (hp.read dx.e a).length := by
          intro a
          rw [he a]
          by_cases hax : a = x
          · subst hax; rw [if_pos rfl, hla]
          · rw [if_neg hax]
        rw [h1, Option.bind_some, ih hg1]
        constructor
        · intro h p' a' f' hm
          rcases List.mem_cons.1 hm with hm | hm
          · cases hm; exact hle
          · rw [← hlen]; exact h p' a' f' hm
        · intro h p' a' f' hm
          rw [hlen]; exact h p' a' f' (List.mem_cons_of_mem _ hm)
      · have hnone : stretchWithScpml hp dx x f omega p.toNat = none := by
          rw [stretchWithScpml, stretchArrays]
          dsimp only
          rw [if_pos (by omega)]
          rfl
        rw [hnone]
        refine ⟨fun h => by simp at h, fun h => absurd (h p x f List.mem_cons_self) hle⟩
    · rw [if_neg hp0, ih hg]
      constructor
      · intro h p' a' f' hm
        rcases List.mem_cons.1 hm with hm | hm
        · cases hm; omega
        · exact h p' a' f' hm
      · intro h p' a' f' hm
        exact h p' a' f' (List.mem_cons_of_mem _ hm)

/-! ### The copies -/

theorem copyRow_spec (hp : GHeap) (row : Nat) (harr : ∀ r ∈ hp.rows, ∀ a, r a < hp.arrays.length) :
    let out := copyRow hp row
    out.2 = hp.rows.length ∧ out.1.rows.length = hp.rows.length + 1 ∧
    (∀ r ∈ out.1.rows, ∀ a, r a < out.1.arrays.length) ∧
    (∀ i, i < hp.arrays.length → out.1.arrays[i]? = hp.arrays[i]?) ∧
    (∀ i, i < hp.rows.length → out.1.rows[i]? = hp.rows[i]?) ∧
    hp.arrays.length ≤ out.1.arrays.length ∧
    (∀ a, out.1.read out.2 a = hp.read row a) := by
  dsimp only
  have harrs : (copyRow hp row).1.arrays =
      hp.arrays ++ [hp.read row 0] ++ [hp.read row 1] ++ [hp.read row 2] := rfl
  have hl : (copyRow hp row).1.arrays.length = hp.arrays.length + 3 := by rw [harrs]; simp
  have hrows : (copyRow hp row).1.rows = hp.rows ++ [fun i => hp.arrays.length + i.val] := by
    simp only [copyRow, GHeap.newArray, GHeap.newRow, List.length_append, List.length_singleton]
    congr 2
    funext i
    fin_cases i <;> rfl
  have h2 : (copyRow hp row).2 = hp.rows.length := by
    simp [copyRow, GHeap.newArray, GHeap.newRow]
  refine ⟨h2, ?_, ?_, ?_, ?_, by omega, ?_⟩
  · rw [hrows]; simp
  · intro r hr a
    rw [hl]
    rw [hrows] at hr
    rcases List.mem_append.1 hr with hr | hr
    · have := harr r hr a; omega
    · rw [List.mem_singleton.1 hr]
      have := a.isLt
      show hp.arrays.length + a.val < _
      omega
  · intro i hi
    rw [harrs, List.append_assoc, List.append_assoc, List.getElem?_append_left hi]
  · intro i hi
    rw [hrows, List.getElem?_append_left hi]
  · intro a
    rw [h2]
    refine read_eq (by rw [hrows, List.getElem?_append_right (Nat.le_refl _), Nat.sub_self]; rfl) ?_
    rw [harrs, List.append_assoc, List.append_assoc]
    fin_cases a
    · show (hp.arrays ++ _)[hp.arrays.length]? = _
      rw [List.getElem?_append_right (Nat.le_refl _), Nat.sub_self]; rfl
    · show (hp.arrays ++ _)[hp.arrays.length + 1]? = _
      rw [List.getElem?_append_right (by omega), Nat.add_sub_cancel_left]; rfl
    · show (hp.arrays ++ _)[hp.arrays.length + 2]? = _
      rw [List.getElem?_append_right (by omega), Nat.add_sub_cancel_left]; rfl

theorem read_ext {hp hp' : GHeap} {row : Nat} (hrow : row < hp.rows.length)
    (harr : ∀ r ∈ hp.rows, ∀ a, r a < hp.arrays.length)
    (h1 : hp'.rows[row]? = hp.rows[row]?) (h2 : ∀ i, i < hp.arrays.length → hp'.arrays[i]? = hp.arrays[i]?)
    (a : Fin 3) : hp'.read row a = hp.read row a := by
  have hr : hp.rows[row]? = some (hp.rows[row]'hrow) := List.getElem?_eq_getElem hrow
  have hb := harr _ (List.mem_of_getElem? hr)
  exact read_eq (h1.trans hr) (by rw [h2 _ (hb a)]; exact read_of hr hb a)

end Verif.Fdfd
