import Mathlib.Data.Fintype.Card
import Mathlib.Data.Finset.Card
import Mathlib.Data.Finset.Max
import Mathlib.Data.List.OfFn
import Mathlib.Data.List.FinRange
import Mathlib.Data.List.Nodup
import Mathlib.Tactic.ByContra
import Mathlib.Tactic.Tauto
import Verif.Gds.Export

/-! Contours, and lemmas about the loops of `gen_gds`. -/
set_option linter.unusedVariables false
namespace Verif.Gds
variable {Pt : Type} {n : Nat}

/-- `j` lies inside `i`. -/
def In (R : Fin n → Region Pt) (t : Fin n → Pt) (i j : Fin n) : Prop := i ≠ j ∧ R i (t j) = true

instance (R : Fin n → Region Pt) (t : Fin n → Pt) (i j : Fin n) : Decidable (In R t i j) := by unfold In; infer_instance

/-- Contours that do not cross: any two are nested or apart, as their first points say. -/
structure Contours (R : Fin n → Region Pt) (t : Fin n → Pt) : Prop where
  own : ∀ i, R i (t i) = true
  nested : ∀ i j, In R t i j → ¬ In R t j i ∧ ∀ p, R j p = true → R i p = true
  apart : ∀ i j, i ≠ j → ¬ In R t i j → ¬ In R t j i → ∀ p, ¬ (R i p = true ∧ R j p = true)

/-- The contours directly inside `i`. -/
def children (R : Fin n → Region Pt) (t : Fin n → Pt) (i : Fin n) : Finset (Fin n) :=
  Finset.univ.filter fun j => In R t i j ∧ ∀ w, ¬ (In R t i w ∧ In R t w j)

section
variable {R : Fin n → Region Pt} {t : Fin n → Pt}

theorem Contours.trans (h : Contours R t) {i j k : Fin n} (h1 : In R t i j) (h2 : In R t j k) : In R t i k := by
  refine ⟨?_, (h.nested i j h1).2 _ h2.2⟩
  rintro rfl
  exact (h.nested i j h1).1 h2

theorem In.irrefl {i : Fin n} : ¬ In R t i i := fun h => h.1 rfl

theorem Contours.comparable (h : Contours R t) {i j k : Fin n} (h1 : In R t i k) (h2 : In R t j k) :
    i = j ∨ In R t i j ∨ In R t j i := by
  by_contra hc
  simp only [not_or] at hc
  exact h.apart i j hc.1 hc.2.1 hc.2.2 (t k) ⟨h1.2, h2.2⟩

/-- The even-odd fill of the contours in `i`, itself included. -/
def fill (R : Fin n → Region Pt) (t : Fin n → Pt) (i : Fin n) : Region Pt := fun p =>
  decide ((Finset.univ.filter fun j => (j = i ∨ In R t i j) ∧ R j p = true).card % 2 = 1)

/-- The state of the loops: contours `idxs` are left, and those in `D` are done. -/
structure Inv (R : Fin n → Region Pt) (t : Fin n → Pt) (idxs : List (Fin n)) (f : Fin n → Region Pt) (D : Fin n → Prop) : Prop where
  nodup : idxs.Nodup
  valD : ∀ i ∈ idxs, D i → f i = fill R t i
  valN : ∀ i ∈ idxs, ¬ D i → f i = R i
  empty : ∀ i ∈ idxs, D i → ∀ j ∈ idxs, ¬ In R t i j
  cover : ∀ j, j ∉ idxs → ∃ i ∈ idxs, D i ∧ In R t i j

/-- The list of polygons for a state. -/
def repr (t : Fin n → Pt) (idxs : List (Fin n)) (f : Fin n → Region Pt) : Polys Pt := idxs.map fun i => (f i, t i)

/-- The contours left inside `i`. -/
def left (R : Fin n → Region Pt) (t : Fin n → Pt) (idxs : List (Fin n)) (i : Fin n) : List (Fin n) := idxs.filter fun j => In R t i j

theorem fill_outside (h : Contours R t) (i : Fin n) (p : Pt) (hp : R i p = false) : fill R t i p = false := by
  have : (Finset.univ.filter fun j => (j = i ∨ In R t i j) ∧ R j p = true) = ∅ := by
    apply Finset.filter_eq_empty_iff.mpr
    rintro j - ⟨hj | hj, hjp⟩
    · rw [hj, hp] at hjp; cases hjp
    · rw [(h.nested i j hj).2 p hjp] at hp; cases hp
  unfold fill
  rw [this]
  simp

theorem fill_own (h : Contours R t) (i : Fin n) : fill R t i (t i) = true := by
  have : (Finset.univ.filter fun j => (j = i ∨ In R t i j) ∧ R j (t i) = true) = {i} := by
    apply Finset.ext
    intro j
    simp only [Finset.mem_filter, Finset.mem_univ, true_and, Finset.mem_singleton]
    constructor
    · rintro ⟨hj | hj, hjp⟩
      · exact hj
      · exact absurd ⟨hj.1.symm, hjp⟩ (h.nested i j hj).1
    · rintro rfl
      exact ⟨Or.inl rfl, h.own j⟩
  unfold fill
  rw [this]
  simp

/-- In every state, a polygon contains the test point of another exactly if the other lies inside. -/
theorem Inv.sep (h : Contours R t) {idxs : List (Fin n)} {f : Fin n → Region Pt} {D : Fin n → Prop} (hi : Inv R t idxs f D)
    (i j : Fin n) (hi' : i ∈ idxs) (hj' : j ∈ idxs) : f i (t j) = true ↔ i = j ∨ In R t i j := by
  by_cases hD : D i
  · rw [hi.valD i hi' hD]
    by_cases hij : i = j
    · subst hij
      exact iff_of_true (fill_own h i) (Or.inl rfl)
    · have hn := hi.empty i hi' hD j hj'
      refine iff_of_false ?_ (by rintro (h | h); exacts [hij h, hn h])
      rw [fill_outside h i (t j)]
      · simp
      · by_contra hc
        exact hn ⟨hij, by simpa using hc⟩
  · rw [hi.valN i hi' hD]
    by_cases hij : i = j
    · subst hij
      exact iff_of_true (h.own i) (Or.inl rfl)
    · constructor
      · exact fun hr => Or.inr ⟨hij, hr⟩
      · rintro (hr | hr)
        · exact absurd hr hij
        · exact hr.2

/-! ### Positions and contours -/

theorem repr_length (idxs : List (Fin n)) (f : Fin n → Region Pt) : (repr t idxs f).length = idxs.length := by simp [repr]

theorem inside_repr (idxs : List (Fin n)) (f : Fin n → Region Pt) (a b : Nat) (ha : a < idxs.length) (hb : b < idxs.length) :
    inside (repr t idxs f) a b = f idxs[a] (t idxs[b]) := by
  unfold inside
  rw [List.getElem?_eq_getElem (by rw [repr_length]; exact ha), List.getElem?_eq_getElem (by rw [repr_length]; exact hb)]
  simp [repr]

theorem entry_repr (h : Contours R t) {idxs : List (Fin n)} {f : Fin n → Region Pt} {D : Fin n → Prop} (hi : Inv R t idxs f D)
    (a b : Nat) (ha : a < idxs.length) (hb : b < idxs.length) :
    entry (repr t idxs f) a b = if In R t idxs[a] idxs[b] then 1 else 0 := by
  unfold entry
  rw [inside_repr _ _ _ _ ha hb]
  have hs := hi.sep h idxs[a] idxs[b] (List.getElem_mem ha) (List.getElem_mem hb)
  by_cases hab : a = b
  · subst hab
    rw [if_pos (hs.mpr (Or.inl rfl)), if_pos rfl, if_neg In.irrefl]
    rfl
  · have hne : idxs[a] ≠ idxs[b] := fun he => hab ((List.Nodup.getElem_inj_iff hi.nodup).mp he)
    rw [if_neg hab]
    by_cases hin : In R t idxs[a] idxs[b]
    · rw [if_pos hin, if_pos (hs.mpr (Or.inr hin))]
      rfl
    · rw [if_neg hin, if_neg (fun hc => (hs.mp hc).elim hne hin)]
      rfl

theorem range_map_getElem {α β : Type} (l : List α) (g : Nat → β) (k : α → β) (hk : ∀ b (hb : b < l.length), g b = k l[b]) :
    (List.range l.length).map g = l.map k := by
  apply List.ext_getElem
  · simp
  · intro b h1 h2
    simp only [List.getElem_map, List.getElem_range]
    exact hk b (by simpa using h1)

theorem sum_indicator {α : Type} (l : List α) (P : α → Prop) [DecidablePred P] :
    (l.map fun x => if P x then (1 : Int) else 0).sum = ((l.filter fun x => P x).length : Int) := by
  induction l with
  | nil => rfl
  | cons a l ih =>
    rw [List.map_cons, List.sum_cons, ih, List.filter_cons]
    by_cases h : P a
    · simp [h]; omega
    · simp [h]

theorem overlap_repr (h : Contours R t) {idxs : List (Fin n)} {f : Fin n → Region Pt} {D : Fin n → Prop} (hi : Inv R t idxs f D)
    (a : Nat) (ha : a < idxs.length) : overlap (repr t idxs f) a = ((left R t idxs idxs[a]).length : Int) := by
  unfold overlap left
  rw [repr_length, range_map_getElem idxs _ (fun j => if In R t idxs[a] j then (1 : Int) else 0)
    (fun b hb => entry_repr h hi a b ha hb), sum_indicator]

theorem total_repr (h : Contours R t) {idxs : List (Fin n)} {f : Fin n → Region Pt} {D : Fin n → Prop} (hi : Inv R t idxs f D) :
    ((List.range (repr t idxs f).length).map (overlap (repr t idxs f))).sum = 0 ↔ ∀ i ∈ idxs, left R t idxs i = [] := by
  rw [repr_length, range_map_getElem idxs _ (fun i => ((left R t idxs i).length : Int)) (fun a ha => overlap_repr h hi a ha)]
  have key : ∀ l : List (Fin n), 0 ≤ (l.map fun i => ((left R t idxs i).length : Int)).sum ∧
      ((l.map fun i => ((left R t idxs i).length : Int)).sum = 0 ↔ ∀ i ∈ l, left R t idxs i = []) := by
    intro l
    induction l with
    | nil => simp
    | cons a l ih =>
      obtain ⟨h1, h2⟩ := ih
      have h3 : (0 : Int) ≤ ((left R t idxs a).length : Int) := by omega
      simp only [List.map_cons, List.sum_cons, List.mem_cons, forall_eq_or_imp]
      refine ⟨by omega, ?_⟩
      rw [← h2, ← List.length_eq_zero_iff]
      omega
  exact (key idxs).2

theorem mem_targets (h : Contours R t) {idxs : List (Fin n)} {f : Fin n → Region Pt} {D : Fin n → Prop} (hi : Inv R t idxs f D)
    (k a : Nat) : a ∈ targets (repr t idxs f) k ↔ ∃ ha : a < idxs.length, (left R t idxs idxs[a]).length = k := by
  unfold targets
  rw [List.mem_filter, List.mem_range, repr_length]
  constructor
  · rintro ⟨ha, h1⟩
    refine ⟨ha, ?_⟩
    rw [overlap_repr h hi a ha] at h1
    have h2 := of_decide_eq_true h1
    omega
  · rintro ⟨ha, h1⟩
    refine ⟨ha, ?_⟩
    rw [overlap_repr h hi a ha, h1]
    simp

theorem mem_containment (h : Contours R t) {idxs : List (Fin n)} {f : Fin n → Region Pt} {D : Fin n → Prop} (hi : Inv R t idxs f D)
    (a b : Nat) (ha : a < idxs.length) :
    b ∈ containmentList (repr t idxs f) a ↔ ∃ hb : b < idxs.length, In R t idxs[a] idxs[b] := by
  unfold containmentList
  rw [List.mem_filter, List.mem_range, repr_length]
  constructor
  · rintro ⟨hb, h1⟩
    refine ⟨hb, ?_⟩
    rw [entry_repr h hi a b ha hb] at h1
    by_contra hc
    simp [hc] at h1
  · rintro ⟨hb, h1⟩
    refine ⟨hb, ?_⟩
    rw [entry_repr h hi a b ha hb]
    simp [h1]

/-! ### One polygon -/

theorem mapM_some {α β : Type} (l : List α) (g : α → Option β) (k : α → β) (hk : ∀ a ∈ l, g a = some (k a)) :
    l.mapM g = some (l.map k) := by
  induction l with
  | nil => rfl
  | cons a l ih =>
    rw [List.mapM_cons, hk a (by simp), ih fun b hb => hk b (by simp [hb])]
    rfl

theorem getD_map {α : Type} (idxs : List (Fin n)) (g : Fin n → Option α) (a : Nat) (ha : a < idxs.length) :
    (idxs.map g).getD a none = g idxs[a] := by
  rw [List.getD_eq_getElem?_getD, List.getElem?_eq_getElem (by simpa using ha)]
  simp

/-- What the loop makes of the polygons when it treats contour `i`. -/
def treat (R : Fin n → Region Pt) (t : Fin n → Pt) (idxs : List (Fin n)) (f : Fin n → Region Pt) (i : Fin n)
    (g : Fin n → Option (Region Pt)) : Fin n → Option (Region Pt) := fun j =>
  if In R t i j then none else if j = i then some (boolNot (R i) ((left R t idxs i).map f)) else g j

theorem processOne_repr (h : Contours R t) {idxs : List (Fin n)} {f : Fin n → Region Pt} {D : Fin n → Prop} (hi : Inv R t idxs f D)
    (g : Fin n → Option (Region Pt)) (a : Nat) (ha : a < idxs.length) (hg : g idxs[a] = some (R idxs[a]))
    (hg' : ∀ j ∈ idxs, In R t idxs[a] j → g j = some (f j)) :
    processOne (repr t idxs f) (idxs.map g) a = some (idxs.map (treat R t idxs f idxs[a] g)) := by
  unfold processOne
  have hsub : (containmentList (repr t idxs f) a).mapM (fun j => (idxs.map g).getD j none) =
      some ((containmentList (repr t idxs f) a).map fun j => (idxs.map f).getD j (fun _ => false)) := by
    apply mapM_some
    intro b hb
    obtain ⟨hb1, hb2⟩ := (mem_containment h hi a b ha).mp hb
    rw [getD_map _ _ _ hb1, hg' _ (List.getElem_mem hb1) hb2, List.getD_eq_getElem?_getD, List.getElem?_eq_getElem (by simpa using hb1)]
    simp
  rw [hsub]
  simp only [Option.some.injEq]
  have hany : ∀ x, ((containmentList (repr t idxs f) a).map fun j => (idxs.map f).getD j (fun _ => false)).any (fun r => r x) =
      ((left R t idxs idxs[a]).map f).any (fun r => r x) := by
    intro x
    rw [Bool.eq_iff_iff, List.any_eq_true, List.any_eq_true]
    constructor
    · rintro ⟨r, hr, hx⟩
      obtain ⟨b, hb, rfl⟩ := List.mem_map.mp hr
      obtain ⟨hb1, hb2⟩ := (mem_containment h hi a b ha).mp hb
      refine ⟨f idxs[b], List.mem_map_of_mem (by simp [left, hb2]), ?_⟩
      rw [List.getD_eq_getElem?_getD, List.getElem?_eq_getElem (by simpa using hb1)] at hx
      simpa using hx
    · rintro ⟨r, hr, hx⟩
      obtain ⟨j, hj, rfl⟩ := List.mem_map.mp hr
      simp only [left, List.mem_filter, decide_eq_true_eq] at hj
      obtain ⟨b, hb1, rfl⟩ := List.getElem_of_mem hj.1
      refine ⟨_, List.mem_map_of_mem ((mem_containment h hi a b ha).mpr ⟨hb1, hj.2⟩), ?_⟩
      rw [List.getD_eq_getElem?_getD, List.getElem?_eq_getElem (by simpa using hb1)]
      simpa using hx
  apply List.ext_getElem
  · simp
  · intro b h1 h2
    have hb : b < idxs.length := by simpa using h2
    rw [List.getElem_mapIdx, List.getElem_map, List.getElem_set]
    unfold treat
    by_cases hin : In R t idxs[a] idxs[b]
    · rw [if_pos ((mem_containment h hi a b ha).mpr ⟨hb, hin⟩), if_pos hin]
    · rw [if_neg (fun hc => hin ((mem_containment h hi a b ha).mp hc).2), if_neg hin]
      by_cases hab : a = b
      · subst hab
        rw [if_pos rfl, if_pos rfl, getD_map _ _ _ ha, hg, Option.map_some]
        congr 1
        funext x
        unfold boolNot
        rw [hany]
      · have hne : ¬ idxs[b] = idxs[a] := fun he => hab ((List.Nodup.getElem_inj_iff hi.nodup).mp he).symm
        rw [if_neg hab, if_neg hne, List.getElem_map]

/-! ### One pass -/

/-- What the loop makes of the polygons when it treats several contours. -/
def treatAll (R : Fin n → Region Pt) (t : Fin n → Pt) (idxs : List (Fin n)) (f : Fin n → Region Pt) (T : List (Fin n))
    (g : Fin n → Option (Region Pt)) : Fin n → Option (Region Pt) := fun j =>
  if ∃ i ∈ T, In R t i j then none else if j ∈ T then some (boolNot (R j) ((left R t idxs j).map f)) else g j

theorem foldlM_repr (h : Contours R t) {idxs : List (Fin n)} {f : Fin n → Region Pt} {D : Fin n → Prop} (hi : Inv R t idxs f D) :
    ∀ (L : List Nat) (T : List (Fin n)) (g : Fin n → Option (Region Pt)), L.map (fun a => idxs[a]?) = T.map some → T.Nodup →
      (∀ i ∈ T, g i = some (R i)) → (∀ i ∈ T, ∀ j ∈ idxs, In R t i j → g j = some (f j)) →
      (∀ i ∈ T, ∀ j ∈ T, ¬ In R t i j) →
      L.foldlM (processOne (repr t idxs f)) (idxs.map g) = some (idxs.map (treatAll R t idxs f T g))
  | [], T, g, hL, _, _, _, _ => by
    have : T = [] := by simpa using hL.symm
    subst this
    have : treatAll R t idxs f [] g = g := by funext j; simp [treatAll]
    rw [this]
    rfl
  | a :: L, [], g, hL, _, _, _, _ => by simp at hL
  | a :: L, i :: T, g, hL, hT, hg, hg', hno => by
    simp only [List.map_cons, List.cons.injEq] at hL
    obtain ⟨ha, hai⟩ := List.getElem?_eq_some_iff.mp hL.1
    rw [List.nodup_cons] at hT
    rw [List.foldlM_cons, processOne_repr h hi g a ha (by rw [hai]; exact hg i (by simp))
      (fun j hj hin => hg' i (by simp) j hj (by rw [← hai]; exact hin)), hai]
    have hdis : ∀ i' ∈ T, ∀ j, In R t i' j → ¬ In R t i j := by
      intro i' hi' j h1 h2
      rcases h.comparable h1 h2 with he | he | he
      · exact hT.1 (he ▸ hi')
      · exact hno i' (by simp [hi']) i (by simp) he
      · exact hno i (by simp) i' (by simp [hi']) he
    show List.foldlM _ _ L = _
    rw [foldlM_repr h hi L T (treat R t idxs f i g) hL.2 hT.2]
    · congr 1
      apply List.map_congr_left
      intro j hj
      unfold treatAll treat
      by_cases h1 : ∃ i' ∈ T, In R t i' j
      · rw [if_pos h1, if_pos]
        obtain ⟨i', h2, h3⟩ := h1
        exact ⟨i', by simp [h2], h3⟩
      · rw [if_neg h1]
        by_cases h2 : In R t i j
        · have hjT : j ∉ T := fun hc => hno i (by simp) j (by simp [hc]) h2
          rw [if_neg hjT, if_pos h2, if_pos ⟨i, by simp, h2⟩]
        · have h3 : ¬ ∃ i' ∈ i :: T, In R t i' j := by
            rintro ⟨i', h4, h5⟩
            rcases List.mem_cons.mp h4 with h4 | h4
            · exact h2 (h4 ▸ h5)
            · exact h1 ⟨i', h4, h5⟩
          rw [if_neg h3]
          by_cases hjT : j ∈ T
          · rw [if_pos hjT, if_pos (by simp [hjT])]
          · rw [if_neg hjT, if_neg h2]
            by_cases hji : j = i
            · rw [if_pos hji, if_pos (by simp [hji]), hji]
            · rw [if_neg hji, if_neg (by simp [hji, hjT])]
    · intro i' hi'
      unfold treat
      have hne : ¬ i' = i := by rintro rfl; exact hT.1 hi'
      rw [if_neg (hno i (by simp) i' (by simp [hi'])), if_neg hne]
      exact hg i' (by simp [hi'])
    · intro i' hi' j hj hin
      unfold treat
      rw [if_neg (hdis i' hi' j hin), if_neg]
      · exact hg' i' (by simp [hi']) j hj hin
      · intro hc
        exact hno i' (by simp [hi']) i (by simp) (hc ▸ hin)
    · intro i' hi' j hj
      exact hno i' (by simp [hi']) j (by simp [hj])

theorem compact_map (idxs : List (Fin n)) (g : Fin n → Option (Region Pt)) (f' : Fin n → Region Pt) (P : Fin n → Prop) [DecidablePred P]
    (h1 : ∀ i ∈ idxs, P i → g i = some (f' i)) (h2 : ∀ i ∈ idxs, ¬ P i → g i = none) :
    compact (idxs.map g) (idxs.map t) = repr t (idxs.filter fun i => P i) f' := by
  induction idxs with
  | nil => rfl
  | cons i idxs ih =>
    have := ih (fun j hj => h1 j (by simp [hj])) (fun j hj => h2 j (by simp [hj]))
    unfold compact repr at this ⊢
    rw [List.map_cons, List.map_cons, List.zip_cons_cons, List.filterMap_cons, List.filter_cons]
    by_cases hP : P i
    · rw [h1 i (by simp) hP]
      simp only [Option.map_some, hP, decide_true, if_true, List.map_cons]
      rw [this]
    · rw [h2 i (by simp) hP]
      simp only [Option.map_none, hP, decide_false]
      exact this

end
end Verif.Gds
