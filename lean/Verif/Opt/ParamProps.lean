import Verif.Opt.Param
import Mathlib.Tactic.Linarith
import Mathlib.Algebra.Order.BigOperators.Group.List
import Mathlib.Data.List.Basic
/-
Properties C34 and C36, and the parametrization part of C35.
-/
namespace Verif.Opt
variable {P : Type}

/-! ### Specification -/

/-- The entries of `v` lie between the bounds; `none` is no bound. -/
def Within (v : List ℝ) (lo hi : Side) : Prop :=
  ∀ (i : Nat) (x : ℝ), v[i]? = some x →
    (∀ l, lo.entries[i]? = some (some l) → l ≤ x) ∧ (∀ h, hi.entries[i]? = some (some h) → x ≤ h)

/-- There is room between the bounds. -/
def Consistent (lo hi : Side) : Prop :=
  ∀ (i : Nat) (l h : ℝ), lo.entries[i]? = some (some l) → hi.entries[i]? = some (some h) → l ≤ h

/-- Squared distance of two vectors. -/
def distSq (u v : List ℝ) : ℝ := (List.zipWith (fun a b => (a - b) ^ 2) u v).sum

/-- The part of `v` that starts after the first `i` sizes and has the `i`th size. -/
def slice (v : List ℝ) (sizes : List Nat) (i : Nat) : List ℝ :=
  (v.drop (sizes.take i).sum).take (sizes.getD i 0)

/-! ### DirectParam -/

theorem clip1_lo (x l : ℝ) (hi : Option ℝ) (h : ∀ u, hi = some u → l ≤ u) : l ≤ clip1 x (some l) hi := by
  unfold clip1
  cases hi with
  | none => exact le_max_right _ _
  | some u => exact le_min (le_max_right _ _) (h u rfl)

theorem clip1_hi (x u : ℝ) (lo : Option ℝ) : clip1 x lo (some u) ≤ u := by
  unfold clip1; exact min_le_right _ _

theorem clip1_id (x : ℝ) (lo hi : Option ℝ) (h1 : ∀ l, lo = some l → l ≤ x) (h2 : ∀ u, hi = some u → x ≤ u) :
    clip1 x lo hi = x := by
  unfold clip1
  cases lo with
  | none =>
    cases hi with
    | none => rfl
    | some u => exact min_eq_left (h2 u rfl)
  | some l =>
    cases hi with
    | none => exact max_eq_left (h1 l rfl)
    | some u =>
      show min (max x l) u = x
      rw [max_eq_left (h1 l rfl)]; exact min_eq_left (h2 u rfl)

theorem clip1_idem (x : ℝ) (lo hi : Option ℝ) : clip1 (clip1 x lo hi) lo hi = clip1 x lo hi := by
  cases lo with
  | none =>
    cases hi with
    | none => rfl
    | some u => show min (min x u) u = min x u; rw [min_assoc, min_self]
  | some l =>
    cases hi with
    | none => show max (max x l) l = max x l; rw [max_assoc, max_self]
    | some u =>
      show min (max (min (max x l) u) l) u = min (max x l) u
      rcases le_total l u with h | h
      · rw [max_eq_left (le_min (le_max_right _ _) h), min_assoc, min_self]
      · rw [min_eq_right (h.trans (le_max_right x l)), max_eq_right h, min_eq_right h]

theorem clip1_near (x y : ℝ) (lo hi : Option ℝ) (h1 : ∀ l, lo = some l → l ≤ y) (h2 : ∀ u, hi = some u → y ≤ u) :
    (clip1 x lo hi - x) ^ 2 ≤ (y - x) ^ 2 := by
  have key : ∀ c : ℝ, (x ≤ c → c ≤ y ∨ c = x) → (c ≤ x → y ≤ c ∨ c = x) → (c - x) ^ 2 ≤ (y - x) ^ 2 := by
    intro c ha hb
    rcases le_total x c with h | h
    · rcases ha h with h' | h'
      · exact pow_le_pow_left₀ (by linarith) (by linarith) 2
      · rw [h', sub_self]; nlinarith [sq_nonneg (y - x)]
    · rcases hb h with h' | h'
      · have := pow_le_pow_left₀ (by linarith : (0 : ℝ) ≤ x - c) (by linarith : x - c ≤ x - y) 2
        nlinarith [this]
      · rw [h', sub_self]; nlinarith [sq_nonneg (y - x)]
  apply key
  · intro hx
    unfold clip1 at *
    cases lo with
    | none =>
      cases hi with
      | none => exact .inr rfl
      | some u => exact .inr (le_antisymm (min_le_left _ _) hx)
    | some l =>
      have hl := h1 l rfl
      cases hi with
      | none =>
        rcases max_cases x l with ⟨h, _⟩ | ⟨h, _⟩
        · exact .inr h
        · left; show max x l ≤ y; rw [h]; exact hl
      | some u =>
        show min (max x l) u ≤ y ∨ min (max x l) u = x
        have hx' : x ≤ min (max x l) u := hx
        rcases max_cases x l with ⟨h, _⟩ | ⟨h, _⟩
        · right; rw [h] at hx' ⊢; exact le_antisymm (min_le_left _ _) hx'
        · left; rw [h]; exact (min_le_left _ _).trans hl
  · intro hx
    unfold clip1 at *
    cases hi with
    | none =>
      cases lo with
      | none => exact .inr rfl
      | some l => exact .inr (le_antisymm hx (le_max_left _ _))
    | some u =>
      have hu := h2 u rfl
      cases lo with
      | none =>
        show y ≤ min x u ∨ min x u = x
        rcases min_cases x u with ⟨h, _⟩ | ⟨h, _⟩
        · exact .inr h
        · left; rw [h]; exact hu
      | some l =>
        show y ≤ min (max x l) u ∨ min (max x l) u = x
        have hx' : min (max x l) u ≤ x := hx
        rcases min_cases (max x l) u with ⟨h, _⟩ | ⟨h, _⟩
        · right; rw [h] at hx' ⊢; exact le_antisymm hx' (le_max_left _ _)
        · left; rw [h]; exact hu

theorem direct_project_eq (p : Direct)
    (h : p.lower.entries.length = p.vector.length ∧ p.upper.entries.length = p.vector.length) :
    p.project = some ⟨List.zipWith (fun (x : ℝ) (b : Option ℝ × Option ℝ) => clip1 x b.1 b.2) p.vector
      (p.lower.entries.zip p.upper.entries), p.lower, p.upper⟩ := if_pos h

theorem direct_project_some {p q : Direct} (h : p.project = some q) :
    p.lower.entries.length = p.vector.length ∧ p.upper.entries.length = p.vector.length ∧
    q.lower = p.lower ∧ q.upper = p.upper ∧ q.vector.length = p.vector.length ∧
    ∀ (i : Nat), q.vector[i]? = (p.vector[i]?).map fun x =>
      clip1 x ((p.lower.entries[i]?).join) ((p.upper.entries[i]?).join) := by
  unfold Direct.project at h
  split at h
  · rename_i hl
    cases h
    refine ⟨hl.1, hl.2, rfl, rfl, ?_, ?_⟩
    · simp [hl.1, hl.2]
    · intro i
      simp only [List.getElem?_zipWith, List.zip]
      cases hx : p.vector[i]? with
      | none => rfl
      | some x =>
        have hi : i < p.vector.length := (List.getElem?_eq_some_iff.1 hx).1
        rw [List.getElem?_eq_getElem (by omega : i < p.lower.entries.length),
          List.getElem?_eq_getElem (by omega : i < p.upper.entries.length)]
        rfl
  · cases h

theorem join_some {α : Type} {o : Option (Option α)} {a : α} (h : o.join = some a) : o = some (some a) := by
  cases o with
  | none => cases h
  | some o => cases o with
    | none => cases h
    | some b => cases h; rfl

theorem direct_project_within_aux {p q : Direct} (h : p.project = some q) (hc : Consistent p.lower p.upper) :
    Within q.vector q.lower q.upper := by
  obtain ⟨_, _, hlo, hup, _, hv⟩ := direct_project_some h
  intro i x hx
  rw [hv i] at hx
  cases hp : p.vector[i]? with
  | none => rw [hp] at hx; cases hx
  | some y =>
    rw [hp] at hx
    have hx : clip1 y (p.lower.entries[i]?).join (p.upper.entries[i]?).join = x := by injection hx
    rw [hlo, hup]
    constructor
    · intro l hl
      rw [← hx, hl]
      exact clip1_lo _ _ _ fun u hu => hc i l u hl (join_some hu)
    · intro u hu
      rw [← hx, hu]
      exact clip1_hi _ _ _

/-- C34: `from_vector` of a vector of the right length succeeds and leaves every entry within its bounds. -/
theorem direct_from_vector_within (p : Direct) (v : List ℝ) (hc : Consistent p.lower p.upper)
    (hl : p.lower.entries.length = v.length) (hu : p.upper.entries.length = v.length) :
    ∃ q, directMethods.fromVector p v = some q ∧ Within q.vector p.lower p.upper ∧ q.vector.length = v.length ∧
      directMethods.getBounds q = directMethods.getBounds p := by
  have h : ∃ q, ({ p with vector := v } : Direct).project = some q := by
    unfold Direct.project
    rw [if_pos ⟨hl, hu⟩]
    exact ⟨_, rfl⟩
  obtain ⟨q, hq⟩ := h
  refine ⟨q, hq, ?_, ?_, ?_⟩
  · obtain ⟨_, _, h1, h2, _⟩ := direct_project_some hq
    have := direct_project_within_aux hq hc
    rwa [h1, h2] at this
  · exact (direct_project_some hq).2.2.2.2.1
  · obtain ⟨_, _, h1, h2, _⟩ := direct_project_some hq
    show some (q.lower, q.upper) = some (p.lower, p.upper)
    rw [h1, h2]

/-- C34: projection succeeds exactly if the lengths agree. -/
theorem direct_project_defined (p : Direct) : (p.project).isSome ↔
    p.lower.entries.length = p.vector.length ∧ p.upper.entries.length = p.vector.length := by
  unfold Direct.project
  split <;> simp_all

/-- C34: after `project` every entry lies within its bounds. -/
theorem direct_project_within (p q : Direct) (h : directMethods.project p = some q) (hc : Consistent p.lower p.upper) :
    Within q.vector p.lower p.upper := by
  have := direct_project_within_aux h hc
  obtain ⟨_, _, h1, h2, _⟩ := direct_project_some h
  rwa [h1, h2] at this

theorem direct_ext {p q : Direct} (h1 : p.vector = q.vector) (h2 : p.lower = q.lower) (h3 : p.upper = q.upper) :
    p = q := by cases p; cases q; cases h1; cases h2; cases h3; rfl

/-- C34: a second projection changes nothing. -/
theorem direct_project_idem (p q : Direct) (h : directMethods.project p = some q) :
    directMethods.project q = some q := by
  obtain ⟨hl, hu, h1, h2, hlen, hv⟩ := direct_project_some h
  have hs : (q.project).isSome := (direct_project_defined q).2 (by rw [h1, h2, hlen]; exact ⟨hl, hu⟩)
  obtain ⟨r, hr⟩ := Option.isSome_iff_exists.1 hs
  obtain ⟨_, _, h1', h2', _, hv'⟩ := direct_project_some hr
  have : r = q := by
    refine direct_ext (List.ext_getElem? fun i => ?_) h1' h2'
    rw [hv' i, hv i, h1, h2]
    cases p.vector[i]? with
    | none => rfl
    | some x => exact congrArg some (clip1_idem _ _ _)
  rw [← this]; exact this ▸ hr

/-- C34: projection leaves a feasible vector unchanged. -/
theorem direct_project_feasible (p : Direct) (hl : p.lower.entries.length = p.vector.length)
    (hu : p.upper.entries.length = p.vector.length) (hw : Within p.vector p.lower p.upper) :
    directMethods.project p = some p := by
  obtain ⟨r, hr⟩ := Option.isSome_iff_exists.1 ((direct_project_defined p).2 ⟨hl, hu⟩)
  obtain ⟨_, _, h1', h2', _, hv'⟩ := direct_project_some hr
  have : r = p := by
    refine direct_ext (List.ext_getElem? fun i => ?_) h1' h2'
    rw [hv' i]
    cases hx : p.vector[i]? with
    | none => rfl
    | some x =>
      exact congrArg some (clip1_id _ _ _ (fun l h => (hw i x hx).1 l (join_some h))
        (fun u h => (hw i x hx).2 u (join_some h)))
  show p.project = some p
  rw [hr, this]

theorem distSq_le : ∀ (a b x : List ℝ), a.length = x.length → b.length = x.length →
    (∀ (i : Nat) (u v w : ℝ), a[i]? = some u → b[i]? = some v → x[i]? = some w → (u - w) ^ 2 ≤ (v - w) ^ 2) →
    distSq a x ≤ distSq b x
  | [], [], [], _, _, _ => le_refl _
  | u :: a, v :: b, w :: x, h1, h2, h => by
    unfold distSq
    simp only [List.zipWith_cons_cons, List.sum_cons]
    have := distSq_le a b x (by simpa using h1) (by simpa using h2)
      (fun i u' v' w' ha hb hx => h (i + 1) u' v' w' (by simpa using ha) (by simpa using hb) (by simpa using hx))
    have h0 := h 0 u v w rfl rfl rfl
    unfold distSq at this
    linarith
  | [], _ :: _, [], _, h, _ => by simp at h
  | _ :: _, _, [], h, _, _ => by simp at h
  | [], _, _ :: _, h, _, _ => by simp at h
  | _, [], _ :: _, _, h, _ => by simp at h

/-- C34: the projection is the nearest feasible vector. -/
theorem direct_project_nearest (p q : Direct) (h : directMethods.project p = some q) (y : List ℝ)
    (hy : y.length = p.vector.length) (hw : Within y p.lower p.upper) :
    distSq q.vector p.vector ≤ distSq y p.vector := by
  obtain ⟨_, _, _, _, hlen, hv⟩ := direct_project_some h
  refine distSq_le _ _ _ hlen hy fun i u v w hq hyi hp => ?_
  rw [hv i, hp] at hq
  have hq : clip1 w (p.lower.entries[i]?).join (p.upper.entries[i]?).join = u := by injection hq
  rw [← hq]
  exact clip1_near _ _ _ _ (fun l h => (hw i v hyi).1 l (join_some h)) (fun u h => (hw i v hyi).2 u (join_some h))

/-- C34: bounds given as numbers (in particular the default `(0, 1)`) apply to every entry, and `None` is no bound. -/
theorem direct_scalar_bounds (init v : List ℝ) (l h : ℝ) (hlh : l ≤ h) (hv : v.length = init.length) :
    ∃ q, directMethods.fromVector (mkDirect init (some (.number l, .number h))) v = some q ∧
      q.vector.length = v.length ∧ ∀ x ∈ q.vector, l ≤ x ∧ x ≤ h := by
  obtain ⟨q, h1, h2, h3, _⟩ := direct_from_vector_within (mkDirect init (some (.number l, .number h))) v
    (by
      intro i a b ha hb
      simp only [mkDirect, Option.getD, expandBound, Side.entries, List.getElem?_replicate] at ha hb
      split at ha
      · rw [if_pos (by assumption)] at hb
        cases ha; cases hb; exact hlh
      · cases ha)
    (by simp [mkDirect, expandBound, Side.entries, hv]) (by simp [mkDirect, expandBound, Side.entries, hv])
  refine ⟨q, h1, h3, fun x hx => ?_⟩
  obtain ⟨i, hi⟩ := List.mem_iff_getElem?.1 hx
  have hlt : i < init.length := by
    have := (List.getElem?_eq_some_iff.1 hi).1
    omega
  constructor
  · exact (h2 i x hi).1 l (by simp [mkDirect, expandBound, Side.entries, hlt])
  · exact (h2 i x hi).2 h (by simp [mkDirect, expandBound, Side.entries, hlt])

/-- The properties are used: bounds `0` and `1`, the vector `(-1, 1/2, 3)`. -/
example : ∃ q, directMethods.fromVector (mkDirect [0, 0, 0] (some (.number 0, .number 1))) [-1, 1 / 2, 3] = some q ∧
    q.vector = [0, 1 / 2, 1] := by
  refine ⟨_, direct_project_eq ⟨[-1, 1 / 2, 3], .tuple [some 0, some 0, some 0], .tuple [some 1, some 1, some 1]⟩
    ⟨rfl, rfl⟩, ?_⟩
  simp only [Side.entries, List.zip, List.zipWith, clip1]
  norm_num

/-- Without room between the bounds, the result of `from_vector` violates the lower one. -/
theorem direct_within_inconsistent_false : ¬ ∀ (p : Direct) (v : List ℝ) (q : Direct),
    p.lower.entries.length = v.length → p.upper.entries.length = v.length →
    directMethods.fromVector p v = some q → Within q.vector p.lower p.upper := by
  intro h
  have h1 := h (mkDirect [0] (some (.number 1, .number 0))) [0] ⟨[0], .tuple [some 1], .tuple [some 0]⟩ rfl rfl
    ((direct_project_eq ⟨[0], .tuple [some 1], .tuple [some 0]⟩ ⟨rfl, rfl⟩).trans (by simp [clip1, Side.entries]))
  have h2 := (h1 0 0 rfl).1 1 rfl
  norm_num at h2

/-- `decode` and `encode` of a `DirectParam` are inverse. -/
theorem direct_lossless (p : Direct) (v : List ℝ) :
    (directMethods.encode p).bind (directMethods.decode p) = some p ∧
    (directMethods.decode p v).bind directMethods.encode = some v := ⟨rfl, rfl⟩

/-! ### Lists -/

theorem forAll_some {α β : Type} {f : α → Option β} : ∀ {l : List α} {r : List β}, forAll f l = some r →
    r.length = l.length ∧ ∀ (i : Nat) (a : α), l[i]? = some a → ∃ b, r[i]? = some b ∧ f a = some b
  | [], r, h => by cases h; exact ⟨rfl, fun i a h => by simp at h⟩
  | a :: l, r, h => by
    unfold forAll at h
    cases ha : f a with
    | none => rw [ha] at h; cases h
    | some b =>
      rw [ha] at h
      cases hr : forAll f l with
      | none => rw [hr] at h; cases h
      | some t =>
        rw [hr] at h
        cases h
        obtain ⟨h1, h2⟩ := forAll_some hr
        refine ⟨by simp [h1], fun i x hx => ?_⟩
        cases i with
        | zero => simp at hx; cases hx; exact ⟨b, rfl, ha⟩
        | succ i => simp at hx; simpa using h2 i x hx

theorem forAll_intro {α β : Type} {f : α → Option β} : ∀ {l : List α} {r : List β}, r.length = l.length →
    (∀ (i : Nat) (a : α) (b : β), l[i]? = some a → r[i]? = some b → f a = some b) → forAll f l = some r
  | [], [], _, _ => rfl
  | a :: l, b :: r, hl, h => by
    unfold forAll
    rw [h 0 a b rfl rfl, forAll_intro (l := l) (r := r) (by simpa using hl)
      (fun i x y hx hy => h (i + 1) x y (by simpa using hx) (by simpa using hy))]
    rfl
  | [], _ :: _, hl, _ => by simp at hl
  | _ :: _, [], hl, _ => by simp at hl

theorem cumsum_dropLast_split : ∀ (sizes : List Nat) (acc : Nat) (v : List ℝ), sizes ≠ [] →
    (npSplit v acc (cumsum acc sizes).dropLast).length = sizes.length ∧
    (npSplit v acc (cumsum acc sizes).dropLast).flatten = v.drop acc ∧
    (v.length = acc + sizes.sum → ∀ i, i < sizes.length →
      (npSplit v acc (cumsum acc sizes).dropLast)[i]? =
        some ((v.drop (acc + (sizes.take i).sum)).take (sizes.getD i 0)))
  | [], _, _, h => absurd rfl h
  | [n], acc, v, _ => by
    refine ⟨rfl, by simp [cumsum, npSplit], fun hv i hi => ?_⟩
    have : i = 0 := by simpa using hi
    subst this
    simp only [cumsum, List.dropLast, npSplit, List.take_zero, List.sum_nil, Nat.add_zero, List.getD_cons_zero,
      List.getElem?_cons_zero, Option.some.injEq]
    rw [List.take_of_length_le]
    simp at hv ⊢; omega
  | n :: m :: t, acc, v, _ => by
    obtain ⟨h1, h2, h3⟩ := cumsum_dropLast_split (m :: t) (acc + n) v (by simp)
    have hc : (cumsum acc (n :: m :: t)).dropLast = (acc + n) :: (cumsum (acc + n) (m :: t)).dropLast := by
      simp [cumsum]
    rw [hc, npSplit]
    refine ⟨by rw [List.length_cons, h1]; rfl, ?_, fun hv i hi => ?_⟩
    · rw [List.flatten_cons, h2]
      rw [List.drop_take, Nat.add_sub_cancel_left]
      rw [← List.drop_drop, List.take_append_drop]
    · cases i with
      | zero => simp [List.drop_take]
      | succ i =>
        rw [List.getElem?_cons_succ, h3 (by simp at hv ⊢; omega) i (by simpa using hi)]
        simp [Nat.add_assoc]

theorem split_length (v : List ℝ) (sizes : List Nat) (h : sizes ≠ []) : (splitVector v sizes).length = sizes.length :=
  (cumsum_dropLast_split sizes 0 v h).1

theorem split_flatten (v : List ℝ) (sizes : List Nat) (h : sizes ≠ []) : (splitVector v sizes).flatten = v := by
  have := (cumsum_dropLast_split sizes 0 v h).2.1
  simpa [splitVector] using this

theorem split_slice (v : List ℝ) (sizes : List Nat) (h : sizes ≠ []) (hv : v.length = sizes.sum) (i : Nat)
    (hi : i < sizes.length) : (splitVector v sizes)[i]? = some (slice v sizes i) := by
  have := (cumsum_dropLast_split sizes 0 v h).2.2 (by omega) i hi
  simpa [splitVector, slice] using this

/-- Splitting a concatenation gives the pieces back. -/
theorem split_hstack (parts : List (List ℝ)) (h : parts ≠ []) :
    splitVector parts.flatten (parts.map List.length) = parts := by
  have key : ∀ (parts : List (List ℝ)) (pre : List ℝ), parts ≠ [] →
      npSplit (pre ++ parts.flatten) pre.length (cumsum pre.length (parts.map List.length)).dropLast = parts := by
    intro parts
    induction parts with
    | nil => intro _ h; exact absurd rfl h
    | cons a t ih =>
      intro pre _
      cases t with
      | nil => simp [cumsum, npSplit]
      | cons b t =>
        have hc : (cumsum pre.length ((a :: b :: t).map List.length)).dropLast =
            (pre.length + a.length) :: (cumsum (pre.length + a.length) ((b :: t).map List.length)).dropLast := by
          simp [cumsum]
        rw [hc, npSplit]
        have := ih (pre ++ a) (by simp)
        rw [List.length_append] at this
        rw [List.flatten_cons, ← List.append_assoc, this]
        congr 1
        rw [List.take_append_of_le_length (by simp), List.take_of_length_le (by simp)]
        simp
  have := key parts [] h
  simpa [splitVector] using this

/-! ### CompositeParam -/

/-- `c` was made by the constructor from components whose vectors have the recorded sizes. -/
def Fits (m : Methods P) (c : Composite P) : Prop :=
  c.sizes.length = c.params.length ∧
  ∀ (i : Nat) (p : P), c.params[i]? = some p → ∃ v, m.encode p = some v ∧ c.sizes[i]? = some v.length

theorem mkComposite_fits (m : Methods P) (ps : List P) (c : Composite P) (h : mkComposite m ps = some c) :
    Fits m c ∧ c.params = ps := by
  unfold mkComposite at h
  cases hf : forAll (fun p => (m.encode p).map List.length) ps with
  | none => rw [hf] at h; cases h
  | some sizes =>
    rw [hf] at h
    cases h
    obtain ⟨h1, h2⟩ := forAll_some hf
    refine ⟨⟨h1, fun i p hp => ?_⟩, rfl⟩
    obtain ⟨b, hb, he⟩ := h2 i p hp
    cases hv : m.encode p with
    | none => rw [hv] at he; cases he
    | some v =>
      rw [hv] at he
      cases he
      exact ⟨v, rfl, hb⟩

/-- C36: the constructor succeeds if the components can be encoded. -/
theorem composite_made (m : Methods P) (ps : List P) (h : ∀ p ∈ ps, (m.encode p).isSome) :
    ∃ c, mkComposite m ps = some c := by
  unfold mkComposite
  suffices h : ∃ s, forAll (fun p => (m.encode p).map List.length) ps = some s by
    obtain ⟨s, hs⟩ := h; exact ⟨_, by rw [hs]; rfl⟩
  induction ps with
  | nil => exact ⟨[], rfl⟩
  | cons p ps ih =>
    obtain ⟨s, hs⟩ := ih fun q hq => h q (List.mem_cons_of_mem _ hq)
    obtain ⟨v, hv⟩ := Option.isSome_iff_exists.1 (h p (by simp))
    exact ⟨_, by unfold forAll; rw [hv, hs]; rfl⟩

theorem fits_sizes {m : Methods P} {c : Composite P} (hf : Fits m c) {parts : List (List ℝ)}
    (hp : forAll m.encode c.params = some parts) : c.sizes = parts.map List.length := by
  obtain ⟨h1, h2⟩ := forAll_some hp
  refine List.ext_getElem? fun i => ?_
  rw [List.getElem?_map]
  rcases lt_or_ge i c.params.length with hi | hi
  · obtain ⟨v, hv, hs⟩ := hf.2 i _ (List.getElem?_eq_getElem hi)
    obtain ⟨b, hb, he⟩ := h2 i _ (List.getElem?_eq_getElem hi)
    rw [hv] at he
    cases he
    rw [hs, hb]; rfl
  · rw [List.getElem?_eq_none (by rw [hf.1]; exact hi), List.getElem?_eq_none (by rw [h1]; exact hi)]; rfl

/-- C36: what `encode` returns is the concatenation of the components' vectors. -/
theorem composite_encode (m : Methods P) (c : Composite P) (v : List ℝ) (h : (compositeMethods m).encode c = some v) :
    ∃ parts : List (List ℝ), parts.length = c.params.length ∧ v = parts.flatten ∧
      ∀ (i : Nat) (p : P), c.params[i]? = some p → ∃ b, parts[i]? = some b ∧ m.encode p = some b := by
  replace h : (forAll m.encode c.params).bind hstack = some v := h
  cases hp : forAll m.encode c.params with
  | none => rw [hp] at h; cases h
  | some parts =>
    rw [hp] at h
    replace h : hstack parts = some v := h
    obtain ⟨h1, h2⟩ := forAll_some hp
    refine ⟨parts, h1, ?_, h2⟩
    unfold hstack at h
    split at h
    · cases h
    · cases h; rfl

/-- C36: `decode(encode())` leaves every component unchanged. -/
theorem composite_decode_encode (m : Methods P) (ps : List P) (c : Composite P) (v : List ℝ)
    (hm : ∀ p ∈ ps, ∀ u, m.encode p = some u → m.decode p u = some p)
    (hc : mkComposite m ps = some c) (h : (compositeMethods m).encode c = some v) :
    (compositeMethods m).decode c v = some c := by
  obtain ⟨hf, rfl⟩ := mkComposite_fits m ps c hc
  replace h : (forAll m.encode c.params).bind hstack = some v := h
  cases hp : forAll m.encode c.params with
  | none => rw [hp] at h; cases h
  | some parts =>
    rw [hp] at h
    replace h : hstack parts = some v := h
    unfold hstack at h
    split at h
    · cases h
    · rename_i hne
      cases h
      obtain ⟨h1, h2⟩ := forAll_some hp
      have hsplit : splitVector parts.flatten c.sizes = parts := by
        rw [fits_sizes hf hp, split_hstack parts hne]
      show ((forAll (fun q : P × List ℝ => m.decode q.1 q.2) (c.params.zip (splitVector parts.flatten c.sizes))).map _) = _
      rw [hsplit]
      have : forAll (fun q : P × List ℝ => m.decode q.1 q.2) (c.params.zip parts) = some c.params := by
        refine forAll_intro (by simp [h1]) ?_
        intro i q b hq hb
        rw [List.getElem?_zip_eq_some] at hq
        obtain ⟨x, hx, he⟩ := h2 i _ hq.1
        rw [hq.2] at hx
        cases hx
        rw [hq.1] at hb
        cases hb
        exact hm _ (List.mem_iff_getElem?.2 ⟨i, hq.1⟩) _ he
      rw [this]
      simp [h1]

/-- C36: `encode` after `decode(v)` gives `v`, for every `v` the components accept. -/
theorem composite_encode_decode (m : Methods P) (ps : List P) (c c' : Composite P) (v : List ℝ)
    (hm : ∀ p u q, m.decode p u = some q → m.encode q = some u) (hne : ps ≠ [])
    (hc : mkComposite m ps = some c) (h : (compositeMethods m).decode c v = some c') :
    (compositeMethods m).encode c' = some v := by
  obtain ⟨hf, rfl⟩ := mkComposite_fits m ps c hc
  have hsne : c.sizes ≠ [] := by
    intro h; rw [← List.length_eq_zero_iff, hf.1, List.length_eq_zero_iff] at h; exact hne h
  have hlen := split_length v c.sizes hsne
  replace h : ((forAll (fun q : P × List ℝ => m.decode q.1 q.2) (c.params.zip (splitVector v c.sizes))).map fun ps =>
    ({ c with params := ps ++ c.params.drop (c.params.zip (splitVector v c.sizes)).length } : Composite P)) = some c' := h
  cases hp : forAll (fun q : P × List ℝ => m.decode q.1 q.2) (c.params.zip (splitVector v c.sizes)) with
  | none => rw [hp] at h; cases h
  | some qs =>
    rw [hp] at h
    cases h
    obtain ⟨h1, h2⟩ := forAll_some hp
    have hz : (c.params.zip (splitVector v c.sizes)).length = c.params.length := by
      rw [List.length_zip, hlen, hf.1, Nat.min_self]
    have he : forAll m.encode qs = some (splitVector v c.sizes) := by
      refine forAll_intro (by rw [h1, hz, hlen, hf.1]) ?_
      intro i q b hq hb
      have hi : i < c.params.length := by
        have := (List.getElem?_eq_some_iff.1 hq).1
        omega
      obtain ⟨q', hq', hd⟩ := h2 i (c.params[i], b) (by
        rw [List.getElem?_zip_eq_some]; exact ⟨List.getElem?_eq_getElem hi, hb⟩)
      rw [hq] at hq'
      cases hq'
      exact hm _ _ _ hd
    show (forAll m.encode (qs ++ c.params.drop (c.params.zip (splitVector v c.sizes)).length)).bind hstack = some v
    rw [hz, List.drop_length, List.append_nil, he]
    show hstack _ = some v
    unfold hstack
    rw [if_neg, split_flatten v c.sizes hsne]
    intro h0
    rw [h0] at hlen
    exact hsne (List.length_eq_zero_iff.1 hlen.symm)

/-- C36: the `i`th component receives exactly its slice of the vector. -/
theorem composite_decode_slices (m : Methods P) (ps : List P) (c c' : Composite P) (v : List ℝ)
    (hc : mkComposite m ps = some c) (hv : v.length = c.sizes.sum) (h : (compositeMethods m).decode c v = some c') :
    c'.sizes = c.sizes ∧ c'.params.length = ps.length ∧ ∀ (i : Nat) (p : P), ps[i]? = some p →
      ∃ q u, c'.params[i]? = some q ∧ m.encode p = some u ∧ m.decode p (slice v c.sizes i) = some q ∧
        (slice v c.sizes i).length = u.length := by
  obtain ⟨hf, rfl⟩ := mkComposite_fits m ps c hc
  by_cases hne : c.params = []
  · cases c with
    | mk params sizes =>
      simp only at hne
      subst hne
      cases h
      exact ⟨rfl, rfl, fun i p hp => by simp at hp⟩
  have hsne : c.sizes ≠ [] := by
    intro h; rw [← List.length_eq_zero_iff, hf.1, List.length_eq_zero_iff] at h; exact hne h
  have hlen := split_length v c.sizes hsne
  replace h : ((forAll (fun q : P × List ℝ => m.decode q.1 q.2) (c.params.zip (splitVector v c.sizes))).map fun ps =>
    ({ c with params := ps ++ c.params.drop (c.params.zip (splitVector v c.sizes)).length } : Composite P)) = some c' := h
  cases hp : forAll (fun q : P × List ℝ => m.decode q.1 q.2) (c.params.zip (splitVector v c.sizes)) with
  | none => rw [hp] at h; cases h
  | some qs =>
    rw [hp] at h
    cases h
    obtain ⟨h1, h2⟩ := forAll_some hp
    have hz : (c.params.zip (splitVector v c.sizes)).length = c.params.length := by
      rw [List.length_zip, hlen, hf.1, Nat.min_self]
    refine ⟨rfl, ?_, fun i p hpi => ?_⟩
    · show (qs ++ _).length = _
      rw [hz, List.drop_length, List.append_nil, h1, hz]
    · have hi : i < c.params.length := (List.getElem?_eq_some_iff.1 hpi).1
      obtain ⟨u, hu, hsz⟩ := hf.2 i p hpi
      obtain ⟨q, hq, hd⟩ := h2 i (p, slice v c.sizes i) (by
        rw [List.getElem?_zip_eq_some]
        exact ⟨hpi, split_slice v c.sizes hsne hv i (by rw [hf.1]; exact hi)⟩)
      refine ⟨q, u, ?_, hu, hd, ?_⟩
      · show (qs ++ _)[i]? = some q
        rw [hz, List.drop_length, List.append_nil]; exact hq
      · have hg : c.sizes.getD i 0 = u.length := by rw [List.getD_eq_getElem?_getD, hsz]; rfl
        unfold slice
        rw [List.length_take, List.length_drop, hg, Nat.min_eq_left]
        have hsum : (c.sizes.take i).sum + u.length ≤ c.sizes.sum := by
          have h3 := List.sum_take_add_sum_drop c.sizes i
          have hi' : i < c.sizes.length := (List.getElem?_eq_some_iff.1 hsz).1
          have hcs : c.sizes[i] = u.length := (List.getElem?_eq_some_iff.1 hsz).2
          rw [List.drop_eq_getElem_cons hi', List.sum_cons, hcs] at h3
          omega
        omega

/-- C36: the Jacobian is block diagonal: its product with a vector is the concatenation of the products of the
components' Jacobians with their slices. -/
theorem composite_jacobian (m : Methods P) (jac : P → List ℝ → List ℝ) (ps : List P) (c : Composite P) (v : List ℝ)
    (hne : ps ≠ []) (hc : mkComposite m ps = some c) (hv : v.length = c.sizes.sum) :
    ∃ outs : List (List ℝ), c.jacobian jac v = some outs.flatten ∧ outs.length = ps.length ∧
      ∀ (i : Nat) (p : P), ps[i]? = some p → outs[i]? = some (jac p (slice v c.sizes i)) := by
  obtain ⟨hf, rfl⟩ := mkComposite_fits m ps c hc
  have hsne : c.sizes ≠ [] := by
    intro h; rw [← List.length_eq_zero_iff, hf.1, List.length_eq_zero_iff] at h; exact hne h
  have hlen := split_length v c.sizes hsne
  have hl : ((c.params.zip (splitVector v c.sizes)).map fun q => jac q.1 q.2).length = c.params.length := by
    rw [List.length_map, List.length_zip, hlen, hf.1, Nat.min_self]
  refine ⟨(c.params.zip (splitVector v c.sizes)).map fun q => jac q.1 q.2, ?_, hl, fun i p hp => ?_⟩
  · unfold Composite.jacobian hstack
    rw [if_neg]
    intro h0
    rw [h0] at hl
    exact hne (List.length_eq_zero_iff.1 hl.symm)
  · have hi : i < c.params.length := (List.getElem?_eq_some_iff.1 hp).1
    have : (c.params.zip (splitVector v c.sizes))[i]? = some (p, slice v c.sizes i) := by
      rw [List.getElem?_zip_eq_some]
      exact ⟨hp, split_slice v c.sizes hsne hv i (by rw [hf.1]; exact hi)⟩
    rw [List.getElem?_map, this]
    rfl

/-- The bounds of one component with `n` entries. -/
def sideOf (m : Methods P) (p : P) (n : Nat) : List (Option ℝ) × List (Option ℝ) :=
  match m.getBounds p with
  | some (lo, hi) => (lo.entries, hi.entries)
  | none => (List.replicate n none, List.replicate n none)

/-- C36: the bounds are the concatenation of the components' bounds, with no bound where a component has none. -/
theorem composite_bounds (m : Methods P) (ps : List P) (c : Composite P) (hne : ps ≠ [])
    (hc : mkComposite m ps = some c) :
    ∃ los his : List (List (Option ℝ)), (compositeMethods m).getBounds c = some (.array los.flatten, .array his.flatten) ∧
      los.length = ps.length ∧ his.length = ps.length ∧
      ∀ (i : Nat) (p : P) (u : List ℝ), ps[i]? = some p → m.encode p = some u →
        los[i]? = some (sideOf m p u.length).1 ∧ his[i]? = some (sideOf m p u.length).2 := by
  obtain ⟨hf, rfl⟩ := mkComposite_fits m ps c hc
  have hz : (c.params.zip c.sizes).length = c.params.length := by rw [List.length_zip, hf.1, Nat.min_self]
  have hne' : c.params.zip c.sizes ≠ [] := by
    intro h0; rw [h0] at hz; exact hne (List.length_eq_zero_iff.1 hz.symm)
  refine ⟨((c.params.zip c.sizes).map fun q => sideOf m q.1 q.2).map (·.1),
    ((c.params.zip c.sizes).map fun q => sideOf m q.1 q.2).map (·.2), ?_, by simp [hf.1], by simp [hf.1], ?_⟩
  · show Composite.getBounds m c = _
    unfold Composite.getBounds
    have : ((c.params.zip c.sizes).map fun q =>
      match m.getBounds q.1 with
      | some (lo, hi) => (lo.entries, hi.entries)
      | none => (List.replicate q.2 none, List.replicate q.2 none)) =
      (c.params.zip c.sizes).map fun q => sideOf m q.1 q.2 := rfl
    simp only [hstack]
    rw [if_neg (by simpa using hne'), if_neg (by simpa using hne')]
    rfl
  · intro i p u hp hu
    obtain ⟨w, hw, hs⟩ := hf.2 i p hp
    rw [hu] at hw
    cases hw
    have : (c.params.zip c.sizes)[i]? = some (p, u.length) := by
      rw [List.getElem?_zip_eq_some]; exact ⟨hp, hs⟩
    simp only [List.getElem?_map, this]
    exact ⟨rfl, rfl⟩

/-- A composite without components cannot be encoded: `np.hstack` of nothing raises. -/
theorem composite_empty (m : Methods P) (c : Composite P) (hc : mkComposite m [] = some c) :
    (compositeMethods m).encode c = none := by
  cases hc
  rfl

/-- Three components, one of them of size zero. -/
example : ∃ c, mkComposite directMethods [mkDirect [1, 2] none, mkDirect [] none, mkDirect [3] none] = some c ∧
    (compositeMethods directMethods).encode c = some [1, 2, 3] ∧
    slice [7, 8, 9] c.sizes 0 = [7, 8] ∧ slice [7, 8, 9] c.sizes 1 = [] ∧ slice [7, 8, 9] c.sizes 2 = [9] :=
  ⟨_, rfl, rfl, rfl, rfl, rfl⟩

/-! ### SlackParam -/

/-- C35: `decode(encode())` changes nothing. -/
theorem slack_decode_encode (m : Methods P) (s : Slack P) (v : List ℝ) (hs : s.slack.length = s.num)
    (hm : ∀ u, m.encode s.param = some u → m.decode s.param u = some s.param)
    (h : (slackMethods m).encode s = some v) : (slackMethods m).decode s v = some s := by
  replace h : (m.encode s.param).map (· ++ s.slack) = some v := h
  cases hu : m.encode s.param with
  | none => rw [hu] at h; cases h
  | some u =>
    rw [hu] at h
    cases h
    show Slack.decode m s (u ++ s.slack) = some s
    unfold Slack.decode
    have hl : (u ++ s.slack).length - s.num = u.length := by rw [List.length_append, hs]; omega
    split
    · rw [hl, List.take_left, List.drop_left, hm u hu]; rfl
    · have : s.slack = [] := List.length_eq_zero_iff.1 (by omega)
      rw [show u ++ s.slack = u by rw [this, List.append_nil], hm u hu]; rfl

/-- C35: `encode` after `decode(v)` gives `v`. -/
theorem slack_encode_decode (m : Methods P) (s s' : Slack P) (v : List ℝ) (hs : s.slack.length = s.num)
    (hm : ∀ p u q, m.decode p u = some q → m.encode q = some u)
    (h : (slackMethods m).decode s v = some s') : (slackMethods m).encode s' = some v := by
  replace h : Slack.decode m s v = some s' := h
  show (m.encode s'.param).map (· ++ s'.slack) = some v
  unfold Slack.decode at h
  split at h
  · cases hd : m.decode s.param (v.take (v.length - s.num)) with
    | none => rw [hd] at h; cases h
    | some p =>
      rw [hd] at h
      cases h
      show (m.encode p).map (· ++ v.drop (v.length - s.num)) = some v
      rw [hm _ _ _ hd]
      exact congrArg some (List.take_append_drop _ _)
  · cases hd : m.decode s.param v with
    | none => rw [hd] at h; cases h
    | some p =>
      rw [hd] at h
      cases h
      have : s.slack = [] := List.length_eq_zero_iff.1 (by omega)
      show (m.encode p).map (· ++ s.slack) = some v
      rw [hm _ _ _ hd, this]
      simp

/-- C35: with tuples as bounds (or none), the original entries keep their bounds, and the slack variables are bounded
below by zero and not above. -/
theorem slack_bounds_partial (m : Methods P) (s : Slack P) (lo hi : List (Option ℝ)) :
    (m.getBounds s.param = some (.tuple lo, .tuple hi) →
      (slackMethods m).getBounds s =
        some (.tuple (lo ++ List.replicate s.num (some 0)), .tuple (hi ++ List.replicate s.num none))) ∧
    (∀ u, m.getBounds s.param = none → m.encode s.param = some u →
      (slackMethods m).getBounds s =
        some (.tuple (List.replicate u.length none ++ List.replicate s.num (some 0)),
          .tuple (List.replicate u.length none ++ List.replicate s.num none))) := by
  constructor
  · intro h
    show Slack.getBounds m s = _
    unfold Slack.getBounds
    rw [h]
    rfl
  · intro u h hu
    show Slack.getBounds m s = _
    unfold Slack.getBounds
    rw [h]
    simp only [Methods.toVector, hu, Option.map, Option.bind, sidePlus, List.map_const']

/-- Violation: with bounds that are arrays, as those of a `CompositeParam`, `get_bounds` raises. -/
theorem slack_bounds_false : ∃ (c : Composite Direct),
    mkComposite directMethods [mkDirect [0, 0] (some (.number 0, .number 1))] = some c ∧
    ∀ n, 0 < n → (slackMethods (compositeMethods directMethods)).getBounds (mkSlack c n) = none := by
  refine ⟨⟨[mkDirect [0, 0] (some (.number 0, .number 1))], [2]⟩, rfl, fun n hn => ?_⟩
  simp only [slackMethods, Slack.getBounds]
  simp only [compositeMethods, Composite.getBounds, mkSlack, directMethods, mkDirect, expandBound, Option.getD,
    Side.entries, List.length_cons, List.length_nil, List.replicate, List.zip, List.zipWith, List.map,
    hstack, Option.bind, Option.map]
  simp only [sidePlus]
  by_cases h1 : 2 = n ∨ n = 1
  · simp [h1, forAll]
  · simp [h1]

/-- Violation: `project` does not touch the slack variables, so that `from_vector` keeps negative ones although
`get_bounds` excludes them. -/
theorem slack_project_false : ∃ (s s' : Slack Direct) (lo hi : Side),
    s = mkSlack (mkDirect [0] (some (.number 0, .number 1))) 1 ∧
    (slackMethods directMethods).fromVector s [5, -3] = some s' ∧
    (slackMethods directMethods).getBounds s' = some (lo, hi) ∧
    (slackMethods directMethods).encode s' = some [1, -3] ∧ ¬ Within [1, -3] lo hi := by
  refine ⟨_, ⟨⟨[1], .tuple [some 0], .tuple [some 1]⟩, [-3], 1⟩, .tuple [some 0, some 0], .tuple [some 1, none], rfl, ?_,
    rfl, rfl, ?_⟩
  · have h := direct_project_eq ⟨[5], .tuple [some 0], .tuple [some 1]⟩ ⟨rfl, rfl⟩
    show (Direct.project ⟨[5], .tuple [some 0], .tuple [some 1]⟩).map
      (fun p => (⟨p, [-3], 1⟩ : Slack Direct)) = _
    rw [h]
    simp [clip1, Side.entries]
  · intro h
    have := (h 1 (-3) rfl).1 0 rfl
    norm_num at this

end Verif.Opt
