import Verif.Gds.ExportLemmas
import Mathlib.Algebra.Ring.Parity

/-! C43: `gen_gds` writes the even-odd fill of nested contours. -/
set_option linter.unusedVariables false
namespace Verif.Gds
variable {Pt : Type} {n : Nat} {R : Fin n → Region Pt} {t : Fin n → Pt}

/-- A contour that was removed and lies inside a contour that is not done lies inside one that is left inside that contour. -/
theorem Inv.between (h : Contours R t) {idxs : List (Fin n)} {f : Fin n → Region Pt} {D : Fin n → Prop} (hi : Inv R t idxs f D)
    {i j : Fin n} (hi' : i ∈ idxs) (hD : ¬ D i) (hin : In R t i j) (hj : j ∉ idxs) :
    ∃ u ∈ idxs, D u ∧ In R t i u ∧ In R t u j := by
  obtain ⟨u, hu, hDu, huj⟩ := hi.cover j hj
  refine ⟨u, hu, hDu, ?_, huj⟩
  rcases h.comparable hin huj with he | he | he
  · exact absurd (he ▸ hDu) hD
  · exact he
  · exact absurd he (hi.empty u hu hDu i hi')

/-- The direct children of a contour that is not done are left. -/
theorem Inv.children_left (h : Contours R t) {idxs : List (Fin n)} {f : Fin n → Region Pt} {D : Fin n → Prop} (hi : Inv R t idxs f D)
    {i : Fin n} (hi' : i ∈ idxs) (hD : ¬ D i) : children R t i ⊆ (left R t idxs i).toFinset := by
  intro j hj
  simp only [children, Finset.mem_filter, Finset.mem_univ, true_and] at hj
  simp only [left, List.mem_toFinset, List.mem_filter, decide_eq_true_eq]
  refine ⟨?_, hj.1⟩
  by_contra hc
  obtain ⟨u, _, _, h1, h2⟩ := hi.between h hi' hD hj.1 hc
  exact hj.2 u ⟨h1, h2⟩

theorem Inv.left_card {idxs : List (Fin n)} {f : Fin n → Region Pt} {D : Fin n → Prop} (hi : Inv R t idxs f D) (i : Fin n) :
    (left R t idxs i).toFinset.card = (left R t idxs i).length :=
  List.toFinset_card_of_nodup (hi.nodup.filter _)

/-- A contour with something inside has a direct child. -/
theorem exists_child (h : Contours R t) {i j : Fin n} (hin : In R t i j) : ∃ w, w ∈ children R t i := by
  obtain ⟨w, hw, hmax⟩ := Finset.exists_max_image (Finset.univ.filter fun w => In R t i w)
    (fun w => (Finset.univ.filter fun k => In R t w k).card) ⟨j, by simp [hin]⟩
  simp only [Finset.mem_filter, Finset.mem_univ, true_and] at hw hmax
  refine ⟨w, ?_⟩
  simp only [children, Finset.mem_filter, Finset.mem_univ, true_and]
  refine ⟨hw, ?_⟩
  rintro v ⟨h1, h2⟩
  have hlt : (Finset.univ.filter fun k => In R t w k).card < (Finset.univ.filter fun k => In R t v k).card := by
    apply Finset.card_lt_card
    rw [Finset.ssubset_iff_of_subset]
    · exact ⟨w, by simp [h2], by simp [In.irrefl]⟩
    · intro k hk
      simp only [Finset.mem_filter, Finset.mem_univ, true_and] at hk ⊢
      exact h.trans h2 hk
  have := hmax v h1
  omega

/-- Subtracting the fills of the done contours left inside `i` gives the fill of `i`. -/
theorem fill_step (h : Contours R t) {idxs : List (Fin n)} {f : Fin n → Region Pt} {D : Fin n → Prop} (hi : Inv R t idxs f D)
    {i : Fin n} (hi' : i ∈ idxs) (hD : ¬ D i) (hall : ∀ j ∈ left R t idxs i, D j) :
    boolNot (R i) ((left R t idxs i).map f) = fill R t i := by
  funext p
  by_cases hp : R i p = true
  · have hval : ∀ j ∈ left R t idxs i, f j = fill R t j := fun j hj => hi.valD j (List.mem_filter.mp hj).1 (hall j hj)
    -- contours other than `i` that contain the point
    have hsplit : (Finset.univ.filter fun j => (j = i ∨ In R t i j) ∧ R j p = true) =
        insert i (Finset.univ.filter fun j => In R t i j ∧ R j p = true) := by
      apply Finset.ext
      intro j
      simp only [Finset.mem_filter, Finset.mem_univ, true_and, Finset.mem_insert]
      constructor
      · rintro ⟨h1 | h1, h2⟩
        · exact Or.inl h1
        · exact Or.inr ⟨h1, h2⟩
      · rintro (h1 | h1)
        · exact ⟨Or.inl h1, h1 ▸ hp⟩
        · exact ⟨Or.inr h1.1, h1.2⟩
    have hcard : (Finset.univ.filter fun j => (j = i ∨ In R t i j) ∧ R j p = true).card =
        (Finset.univ.filter fun j => In R t i j ∧ R j p = true).card + 1 := by
      rw [hsplit, Finset.card_insert_of_notMem]
      simp [In.irrefl]
    by_cases hex : ∃ u ∈ left R t idxs i, R u p = true
    · obtain ⟨u, hu, hup⟩ := hex
      have hu' := List.mem_filter.mp hu
      have hin : In R t i u := by simpa using hu'.2
      have hset : (Finset.univ.filter fun j => In R t i j ∧ R j p = true) =
          (Finset.univ.filter fun j => (j = u ∨ In R t u j) ∧ R j p = true) := by
        apply Finset.ext
        intro j
        simp only [Finset.mem_filter, Finset.mem_univ, true_and]
        constructor
        · rintro ⟨h1, h2⟩
          refine ⟨?_, h2⟩
          by_cases hju : j = u
          · exact Or.inl hju
          · right
            by_contra hc
            by_cases huj : In R t j u
            · by_cases hj : j ∈ idxs
              · exact hi.empty j hj (hall j (List.mem_filter.mpr ⟨hj, by simpa using h1⟩)) u hu'.1 huj
              · obtain ⟨v, hv, hDv, hvj⟩ := hi.cover j hj
                exact hi.empty v hv hDv u hu'.1 (h.trans hvj huj)
            · exact h.apart j u hju huj hc p ⟨h2, hup⟩
        · rintro ⟨h1 | h1, h2⟩
          · exact ⟨h1 ▸ hin, h2⟩
          · exact ⟨h.trans hin h1, h2⟩
      have hany : ((left R t idxs i).map f).any (fun r => r p) = fill R t u p := by
        rw [Bool.eq_iff_iff, List.any_eq_true]
        constructor
        · rintro ⟨r, hr, hx⟩
          obtain ⟨v, hv, rfl⟩ := List.mem_map.mp hr
          rw [hval v hv] at hx
          have hv' := List.mem_filter.mp hv
          by_cases hvu : v = u
          · rw [← hvu]; exact hx
          · exfalso
            have hvp : R v p = true := by
              by_contra hc
              rw [fill_outside h v p (by simpa using hc)] at hx
              cases hx
            exact h.apart v u hvu (hi.empty v hv'.1 (hall v hv) u hu'.1) (hi.empty u hu'.1 (hall u hu) v hv'.1) p ⟨hvp, hup⟩
        · intro hx
          exact ⟨f u, List.mem_map_of_mem hu, by rw [hval u hu]; exact hx⟩
      unfold boolNot
      rw [hany, hp, Bool.true_and]
      unfold fill
      rw [hcard, hset, Bool.eq_iff_iff]
      simp
      omega
    · have hset : (Finset.univ.filter fun j => In R t i j ∧ R j p = true) = ∅ := by
        apply Finset.filter_eq_empty_iff.mpr
        rintro j - ⟨h1, h2⟩
        by_cases hj : j ∈ idxs
        · exact hex ⟨j, List.mem_filter.mpr ⟨hj, by simpa using h1⟩, h2⟩
        · obtain ⟨u, hu, hDu, h3, h4⟩ := hi.between h hi' hD h1 hj
          exact hex ⟨u, List.mem_filter.mpr ⟨hu, by simpa using h3⟩, (h.nested u j h4).2 p h2⟩
      have hany : ((left R t idxs i).map f).any (fun r => r p) = false := by
        by_contra hc
        rw [Bool.not_eq_false, List.any_eq_true] at hc
        obtain ⟨r, hr, hx⟩ := hc
        obtain ⟨v, hv, rfl⟩ := List.mem_map.mp hr
        rw [hval v hv] at hx
        apply hex
        refine ⟨v, hv, ?_⟩
        by_contra hc
        rw [fill_outside h v p (by simpa using hc)] at hx
        cases hx
      unfold boolNot
      rw [hany, hp]
      unfold fill
      rw [hcard, hset]
      simp
  · have hp' : R i p = false := by simpa using hp
    rw [fill_outside h i p hp']
    simp [boolNot, hp']

/-- The level condition of a state. -/
def Level (R : Fin n → Region Pt) (t : Fin n → Pt) (idxs : List (Fin n)) (D : Fin n → Prop) (k : Nat) : Prop :=
  ∀ i ∈ idxs, ¬ D i → k ≤ (children R t i).card

/-- A contour not done with as many contours left inside as the level has exactly its children, all done, inside. -/
theorem target_done (h : Contours R t) {idxs : List (Fin n)} {f : Fin n → Region Pt} {D : Fin n → Prop} (hi : Inv R t idxs f D)
    {k : Nat} (hl : Level R t idxs D k) (hk : 1 ≤ k) {i : Fin n} (hi' : i ∈ idxs) (hm : (left R t idxs i).length = k) :
    ¬ D i ∧ ∀ j ∈ left R t idxs i, D j := by
  have hD : ¬ D i := by
    intro hc
    have : left R t idxs i = [] := by
      unfold left
      rw [List.filter_eq_nil_iff]
      intro j hj
      simpa using hi.empty i hi' hc j hj
    rw [this] at hm
    simp at hm
    omega
  refine ⟨hD, ?_⟩
  have heq : children R t i = (left R t idxs i).toFinset := by
    apply Finset.eq_of_subset_of_card_le (hi.children_left h hi' hD)
    rw [hi.left_card, hm]
    exact hl i hi' hD
  intro j hj
  by_contra hDj
  have hj' := List.mem_filter.mp hj
  have hin : In R t i j := by simpa using hj'.2
  have hc := hl j hj'.1 hDj
  obtain ⟨w, hw⟩ := Finset.card_pos.mp (Nat.lt_of_lt_of_le hk hc)
  have hw' := hw
  simp only [children, Finset.mem_filter, Finset.mem_univ, true_and] at hw'
  have hwl := hi.children_left h hj'.1 hDj hw
  simp only [List.mem_toFinset] at hwl
  have : w ∈ children R t i := by
    rw [heq, List.mem_toFinset]
    exact List.mem_filter.mpr ⟨(List.mem_filter.mp hwl).1, by simpa using h.trans hin hw'.1⟩
  simp only [children, Finset.mem_filter, Finset.mem_univ, true_and] at this
  exact this.2 j ⟨hin, hw'.1⟩

/-- One pass keeps the invariant. -/
theorem pass_inv (h : Contours R t) {idxs : List (Fin n)} {f : Fin n → Region Pt} {D : Fin n → Prop} (hi : Inv R t idxs f D)
    {k : Nat} (hl : Level R t idxs D k) (hk : 1 ≤ k) (hne : targets (repr t idxs f) k ≠ []) :
    ∃ idxs' f' D', pass (repr t idxs f) k = some (repr t idxs' f') ∧ Inv R t idxs' f' D' ∧ Level R t idxs' D' k ∧
      idxs'.length < idxs.length := by
  have hT0 : ∀ a ∈ (targets (repr t idxs f) k).reverse, ∃ ha : a < idxs.length, (left R t idxs idxs[a]).length = k := fun a ha =>
    (mem_targets h hi k a).mp (List.mem_reverse.mp ha)
  -- the contours treated
  let T : List (Fin n) := (targets (repr t idxs f) k).reverse.filterMap fun a => idxs[a]?
  have hTmap : (targets (repr t idxs f) k).reverse.map (fun a => idxs[a]?) = T.map some := by
    show _ = ((targets (repr t idxs f) k).reverse.filterMap fun a => idxs[a]?).map some
    generalize (targets (repr t idxs f) k).reverse = L at hT0
    induction L with
    | nil => rfl
    | cons a L ih =>
      obtain ⟨ha, _⟩ := hT0 a (by simp)
      rw [List.map_cons, List.filterMap_cons, List.getElem?_eq_getElem ha]
      simp only [List.map_cons]
      rw [ih fun b hb => hT0 b (by simp [hb])]
  have hTnodup : T.Nodup := by
    apply List.Nodup.filterMap
    · intro a a' b h1 h2
      obtain ⟨ha, hab⟩ := List.getElem?_eq_some_iff.mp h1
      obtain ⟨ha', hab'⟩ := List.getElem?_eq_some_iff.mp h2
      exact (List.Nodup.getElem_inj_iff hi.nodup).mp (hab.trans hab'.symm)
    · rw [List.nodup_reverse]
      exact List.nodup_range.filter _
  have hTmem : ∀ i ∈ T, i ∈ idxs ∧ (left R t idxs i).length = k := by
    intro i hiT
    obtain ⟨a, ha, hai⟩ := List.mem_filterMap.mp hiT
    obtain ⟨h1, h2⟩ := hT0 a ha
    rw [List.getElem?_eq_getElem h1, Option.some.injEq] at hai
    subst hai
    exact ⟨List.getElem_mem h1, h2⟩
  have hTall : ∀ i ∈ idxs, (left R t idxs i).length = k → i ∈ T := by
    intro i hi1 hi2
    obtain ⟨a, ha, rfl⟩ := List.getElem_of_mem hi1
    exact List.mem_filterMap.mpr ⟨a, List.mem_reverse.mpr ((mem_targets h hi k a).mpr ⟨ha, hi2⟩), List.getElem?_eq_getElem ha⟩
  have hTD : ∀ i ∈ T, ¬ D i ∧ ∀ j ∈ left R t idxs i, D j := fun i hiT =>
    target_done h hi hl hk (hTmem i hiT).1 (hTmem i hiT).2
  have hTno : ∀ i ∈ T, ∀ j ∈ T, ¬ In R t i j := by
    intro i hiT j hjT hin
    exact (hTD j hjT).1 ((hTD i hiT).2 j (List.mem_filter.mpr ⟨(hTmem j hjT).1, by simpa using hin⟩))
  have hfold := foldlM_repr h hi _ T (fun i => some (f i)) hTmap hTnodup
    (fun i hiT => by rw [hi.valN i (hTmem i hiT).1 (hTD i hiT).1]) (fun i _ j _ _ => rfl) hTno
  let f' : Fin n → Region Pt := fun j => if j ∈ T then fill R t j else f j
  have hpass : pass (repr t idxs f) k = some (repr t (idxs.filter fun j => ¬ ∃ i ∈ T, In R t i j) f') := by
    unfold pass
    have h1 : (repr t idxs f).map (fun x => some x.1) = idxs.map fun i => some (f i) := by simp [repr]
    have h2 : (repr t idxs f).map (fun x => x.2) = idxs.map t := by simp [repr]
    rw [h1, h2, hfold]
    simp only [Option.some.injEq]
    apply compact_map (P := fun j => ¬ ∃ i ∈ T, In R t i j)
    · intro i hii hP
      unfold treatAll
      rw [if_neg hP]
      show _ = some (if i ∈ T then fill R t i else f i)
      by_cases hiT : i ∈ T
      · rw [if_pos hiT, if_pos hiT, fill_step h hi hii (hTD i hiT).1 (hTD i hiT).2]
      · rw [if_neg hiT, if_neg hiT]
    · intro i hii hP
      unfold treatAll
      rw [if_pos (not_not.mp hP)]
  have hmem : ∀ j, j ∈ (idxs.filter fun j => ¬ ∃ i ∈ T, In R t i j) ↔ j ∈ idxs ∧ ¬ ∃ i ∈ T, In R t i j := by
    intro j
    rw [List.mem_filter]
    simp
  have hTstay : ∀ i ∈ T, i ∈ (idxs.filter fun j => ¬ ∃ i ∈ T, In R t i j) := by
    intro i hiT
    rw [hmem]
    refine ⟨(hTmem i hiT).1, ?_⟩
    rintro ⟨i', h1, h2⟩
    exact hTno i' h1 i hiT h2
  refine ⟨_, f', fun i => D i ∨ i ∈ T, hpass, ⟨hi.nodup.filter _, ?_, ?_, ?_, ?_⟩, ?_, ?_⟩
  · intro i hii hDi
    show (if i ∈ T then fill R t i else f i) = _
    by_cases hiT : i ∈ T
    · rw [if_pos hiT]
    · rw [if_neg hiT]
      exact hi.valD i ((hmem i).mp hii).1 (hDi.resolve_right hiT)
  · intro i hii hDi
    show (if i ∈ T then fill R t i else f i) = _
    rw [not_or] at hDi
    rw [if_neg hDi.2]
    exact hi.valN i ((hmem i).mp hii).1 hDi.1
  · intro i hii hDi j hj hin
    rcases hDi with hDi | hDi
    · exact hi.empty i ((hmem i).mp hii).1 hDi j ((hmem j).mp hj).1 hin
    · exact ((hmem j).mp hj).2 ⟨i, hDi, hin⟩
  · intro j hj
    by_cases hjx : j ∈ idxs
    · have : ∃ i ∈ T, In R t i j := by
        by_contra hc
        exact hj ((hmem j).mpr ⟨hjx, hc⟩)
      obtain ⟨i, hiT, hin⟩ := this
      exact ⟨i, hTstay i hiT, Or.inr hiT, hin⟩
    · obtain ⟨i, hii, hDi, hin⟩ := hi.cover j hjx
      by_cases hix : ∃ i' ∈ T, In R t i' i
      · obtain ⟨i', h1, h2⟩ := hix
        exact ⟨i', hTstay i' h1, Or.inr h1, h.trans h2 hin⟩
      · exact ⟨i, (hmem i).mpr ⟨hii, hix⟩, Or.inl hDi, hin⟩
  · intro i hii hDi
    rw [not_or] at hDi
    exact hl i ((hmem i).mp hii).1 hDi.1
  · obtain ⟨a, ha⟩ := List.exists_mem_of_ne_nil _ hne
    obtain ⟨h1, h2⟩ := (mem_targets h hi k a).mp ha
    have haT := hTall _ (List.getElem_mem h1) h2
    obtain ⟨j, hj⟩ := List.exists_mem_of_ne_nil (left R t idxs idxs[a]) (by intro hc; rw [hc] at h2; simp at h2; omega)
    have hj' := List.mem_filter.mp hj
    apply List.length_filter_lt_length_iff_exists.mpr
    exact ⟨j, hj'.1, by simpa using ⟨_, haT, by simpa using hj'.2⟩⟩

/-- When no polygon has the overlap number, the level rises. -/
theorem level_up (h : Contours R t) (hM : ∀ i j, In R t i j → (children R t j).card ≤ (children R t i).card)
    {idxs : List (Fin n)} {f : Fin n → Region Pt} {D : Fin n → Prop} (hi : Inv R t idxs f D)
    {k : Nat} (hl : Level R t idxs D k) (hk : targets (repr t idxs f) k = []) : Level R t idxs D (k + 1) := by
  intro i hii hDi
  have hle := hl i hii hDi
  by_contra hlt
  have hck : (children R t i).card = k := by omega
  obtain ⟨u, hu, hmin⟩ := Finset.exists_min_image (idxs.toFinset.filter fun u => (u = i ∨ In R t i u) ∧ u ∈ idxs.filter fun x =>
      @decide (¬ D x) (Classical.dec _)) (fun u => (left R t idxs u).length) ⟨i, by simp [hii, hDi]⟩
  simp only [Finset.mem_filter, List.mem_toFinset, List.mem_filter, decide_eq_true_eq] at hu hmin
  obtain ⟨hu1, hu2, _, hDu⟩ := hu
  have huk : (children R t u).card = k := by
    have h1 := hl u hu1 hDu
    rcases hu2 with h2 | h2
    · rw [h2]; exact hck
    · have := hM i u h2; omega
  have hdone : ∀ j ∈ left R t idxs u, D j := by
    intro j hj
    by_contra hDj
    have hj' := List.mem_filter.mp hj
    have hin : In R t u j := by simpa using hj'.2
    have hij : In R t i j := by
      rcases hu2 with h2 | h2
      · exact h2 ▸ hin
      · exact h.trans h2 hin
    have h1 := hmin j ⟨hj'.1, Or.inr hij, hj'.1, hDj⟩
    have h2 : (left R t idxs j).length < (left R t idxs u).length := by
      rw [← hi.left_card, ← hi.left_card]
      apply Finset.card_lt_card
      rw [Finset.ssubset_iff_of_subset]
      · exact ⟨j, by simpa using hj, by simp [left, In.irrefl]⟩
      · intro w hw
        simp only [left, List.mem_toFinset, List.mem_filter, decide_eq_true_eq] at hw ⊢
        exact ⟨hw.1, h.trans hin hw.2⟩
    omega
  have hsub : (left R t idxs u).toFinset ⊆ children R t u := by
    intro j hj
    rw [List.mem_toFinset] at hj
    have hj' := List.mem_filter.mp hj
    simp only [children, Finset.mem_filter, Finset.mem_univ, true_and]
    refine ⟨by simpa using hj'.2, ?_⟩
    rintro w ⟨h1, h2⟩
    by_cases hw : w ∈ idxs
    · exact hi.empty w hw (hdone w (List.mem_filter.mpr ⟨hw, by simpa using h1⟩)) j hj'.1 h2
    · obtain ⟨v, hv, hDv, hvw⟩ := hi.cover w hw
      exact hi.empty v hv hDv j hj'.1 (h.trans hvw h2)
  have heq : (left R t idxs u).length = k := by
    have h1 := Finset.card_le_card hsub
    have h2 := Finset.card_le_card (hi.children_left h hu1 hDu)
    rw [hi.left_card] at h1 h2
    omega
  obtain ⟨a, ha, rfl⟩ := List.getElem_of_mem hu1
  have : a ∈ targets (repr t idxs f) k := (mem_targets h hi k a).mpr ⟨ha, heq⟩
  rw [hk] at this
  cases this

theorem inner_inv (h : Contours R t) (hM : ∀ i j, In R t i j → (children R t j).card ≤ (children R t i).card) (k : Nat) (hk : 1 ≤ k) :
    ∀ (fuel : Nat) (idxs : List (Fin n)) (f : Fin n → Region Pt) (D : Fin n → Prop), Inv R t idxs f D → Level R t idxs D k →
      idxs.length < fuel →
      ∃ idxs' f' D', inner fuel (repr t idxs f) k = .done (repr t idxs' f') ∧ Inv R t idxs' f' D' ∧ Level R t idxs' D' (k + 1) ∧
        idxs'.length ≤ idxs.length
  | 0, idxs, f, D, hi, hl, hf => by omega
  | fuel + 1, idxs, f, D, hi, hl, hf => by
    rw [inner]
    by_cases ht : targets (repr t idxs f) k = []
    · rw [if_pos ht]
      exact ⟨idxs, f, D, rfl, hi, level_up h hM hi hl ht, Nat.le_refl _⟩
    · rw [if_neg ht]
      obtain ⟨idxs', f', D', h1, h2, h3, h4⟩ := pass_inv h hi hl hk ht
      rw [h1]
      simp only []
      obtain ⟨i2, f2, D2, g1, g2, g3, g4⟩ := inner_inv h hM k hk fuel idxs' f' D' h2 h3 (by omega)
      exact ⟨i2, f2, D2, g1, g2, g3, by omega⟩

theorem outer_inv (h : Contours R t) (hM : ∀ i j, In R t i j → (children R t j).card ≤ (children R t i).card) :
    ∀ (d : Nat) (k fuel : Nat) (idxs : List (Fin n)) (f : Fin n → Region Pt) (D : Fin n → Prop), d + k = n → Inv R t idxs f D →
      Level R t idxs D (k + 1) → idxs.length + d < fuel →
      ∃ idxs' f' D', outer fuel (repr t idxs f) k = .done (repr t idxs' f') ∧ Inv R t idxs' f' D' ∧ ∀ i ∈ idxs', D' i := by
  intro d
  induction d with
  | zero =>
    intro k fuel idxs f D hd hi hl hf
    obtain ⟨fuel, rfl⟩ : ∃ g, fuel = g + 1 := ⟨fuel - 1, by omega⟩
    have hall : ∀ i ∈ idxs, D i := by
      intro i hii
      by_contra hDi
      have h1 := hl i hii hDi
      have h2 := Finset.card_le_univ (children R t i)
      rw [Fintype.card_fin] at h2
      omega
    have : ((List.range (repr t idxs f).length).map (overlap (repr t idxs f))).sum = 0 := by
      rw [total_repr h hi]
      intro i hii
      unfold left
      rw [List.filter_eq_nil_iff]
      intro j hj
      simpa using hi.empty i hii (hall i hii) j hj
    rw [outer, if_pos this]
    exact ⟨idxs, f, D, rfl, hi, hall⟩
  | succ d ih =>
    intro k fuel idxs f D hd hi hl hf
    obtain ⟨fuel, rfl⟩ : ∃ g, fuel = g + 1 := ⟨fuel - 1, by omega⟩
    rw [outer]
    by_cases ht : ((List.range (repr t idxs f).length).map (overlap (repr t idxs f))).sum = 0
    · rw [if_pos ht]
      refine ⟨idxs, f, D, rfl, hi, ?_⟩
      intro i hii
      by_contra hDi
      rw [total_repr h hi] at ht
      have h1 := hl i hii hDi
      have h2 := Finset.card_le_card (hi.children_left h hii hDi)
      rw [hi.left_card, ht i hii] at h2
      simp at h2
      rw [h2] at h1
      simp at h1
    · rw [if_neg ht]
      obtain ⟨i2, f2, D2, g1, g2, g3, g4⟩ := inner_inv h hM (k + 1) (by omega) (fuel + 1) idxs f D hi hl (by omega)
      rw [g1]
      simp only []
      exact ih (k + 1) fuel i2 f2 D2 (by omega) g2 g3 (by omega)

/-- **C43**, the part that holds. For contours that do not cross, nested to any depth, such that no contour has more contours directly
inside than one around it: `gen_gds` ends without exception and writes regions that are pairwise disjoint and whose union is the
even-odd fill of the contours, and the extra structures. Missing: other nestings, see `gen_gds_terminates_false` and
`gen_gds_fill_false`. -/
theorem gen_gds_even_odd_partial (R : Fin n → Region Pt) (t : Fin n → Pt) (h : Contours R t)
    (hM : ∀ i j, In R t i j → (children R t j).card ≤ (children R t i).card) (extra : List (Region Pt)) :
    ∃ (fuel : Nat) (out : List (Region Pt)),
      genGds fuel (List.ofFn fun i => (R i, t i)) extra true = .done (out ++ extra) ∧
      (out.Pairwise fun r r' => ∀ p, ¬ (r p = true ∧ r' p = true)) ∧
      ∀ p, (∃ r ∈ out, r p = true) ↔ Odd (Finset.univ.filter fun i => R i p = true).card := by
  have hrep : (List.ofFn fun i => (R i, t i)) = repr t (List.finRange n) R := by
    rw [repr, List.ofFn_eq_map]
  have h0 : Inv R t (List.finRange n) R (fun i => ∀ j, ¬ In R t i j) := by
    refine ⟨List.nodup_finRange n, ?_, fun i _ _ => rfl, fun i _ hD j _ => hD j, fun j hj => absurd (List.mem_finRange j) hj⟩
    intro i _ hD
    funext p
    unfold fill
    have : (Finset.univ.filter fun j => (j = i ∨ In R t i j) ∧ R j p = true) = if R i p = true then {i} else ∅ := by
      apply Finset.ext
      intro j
      by_cases hp : R i p = true
      · simp only [hp, if_true, Finset.mem_filter, Finset.mem_univ, true_and, Finset.mem_singleton]
        constructor
        · rintro ⟨h1 | h1, _⟩
          · exact h1
          · exact absurd h1 (hD j)
        · rintro rfl
          exact ⟨Or.inl rfl, hp⟩
      · rw [if_neg hp]
        simp only [Finset.mem_filter, Finset.mem_univ, true_and, Finset.notMem_empty, iff_false]
        rintro ⟨h1 | h1, h2⟩
        · exact hp (h1 ▸ h2)
        · exact hD j h1
    rw [this]
    cases hp : R i p <;> simp
  have hl0 : Level R t (List.finRange n) (fun i => ∀ j, ¬ In R t i j) 1 := by
    intro i _ hD
    simp only [not_forall, not_not] at hD
    obtain ⟨j, hj⟩ := hD
    obtain ⟨w, hw⟩ := exists_child h hj
    exact Finset.card_pos.mpr ⟨w, hw⟩
  obtain ⟨idxs, f, D, g1, g2, g3⟩ := outer_inv h hM n 0 (n + n + 1) (List.finRange n) R _ (by omega) h0 hl0 (by simp)
  refine ⟨n + n + 1, idxs.map f, ?_, ?_, ?_⟩
  · unfold genGds
    rw [if_pos rfl, hrep, g1]
    simp [repr]
  · rw [List.pairwise_map]
    apply g2.nodup.imp_of_mem
    intro i j hii hjj hij p hp
    have val : ∀ k ∈ idxs, f k p = true → R k p = true := by
      intro k hk hfk
      rw [g2.valD k hk (g3 k hk)] at hfk
      by_contra hc
      rw [fill_outside h k p (by simpa using hc)] at hfk
      cases hfk
    exact h.apart i j hij (g2.empty i hii (g3 i hii) j hjj) (g2.empty j hjj (g3 j hjj) i hii) p ⟨val i hii hp.1, val j hjj hp.2⟩
  · intro p
    -- the contour left that is around all contours at the point
    have hset : ∀ i ∈ idxs, R i p = true → (Finset.univ.filter fun j => R j p = true) =
        (Finset.univ.filter fun j => (j = i ∨ In R t i j) ∧ R j p = true) := by
      intro i hii hip
      apply Finset.ext
      intro j
      simp only [Finset.mem_filter, Finset.mem_univ, true_and]
      refine ⟨fun hj => ⟨?_, hj⟩, fun hj => hj.2⟩
      by_cases hji : j = i
      · exact Or.inl hji
      · right
        by_contra hc
        by_cases hji2 : In R t j i
        · by_cases hjx : j ∈ idxs
          · exact g2.empty j hjx (g3 j hjx) i hii hji2
          · obtain ⟨v, hv, hDv, hvj⟩ := g2.cover j hjx
            exact g2.empty v hv hDv i hii (h.trans hvj hji2)
        · exact h.apart j i hji hji2 hc p ⟨hj, hip⟩
    constructor
    · rintro ⟨r, hr, hrp⟩
      obtain ⟨i, hii, rfl⟩ := List.mem_map.mp hr
      rw [g2.valD i hii (g3 i hii)] at hrp
      have hip : R i p = true := by
        by_contra hc
        rw [fill_outside h i p (by simpa using hc)] at hrp
        cases hrp
      rw [hset i hii hip, Nat.odd_iff]
      exact of_decide_eq_true hrp
    · intro hodd
      obtain ⟨j, hj⟩ := Finset.card_pos.mp (by obtain ⟨m, hm⟩ := hodd; omega : 0 < (Finset.univ.filter fun i => R i p = true).card)
      simp only [Finset.mem_filter, Finset.mem_univ, true_and] at hj
      have : ∃ i ∈ idxs, R i p = true := by
        by_cases hjx : j ∈ idxs
        · exact ⟨j, hjx, hj⟩
        · obtain ⟨i, hii, _, hin⟩ := g2.cover j hjx
          exact ⟨i, hii, (h.nested i j hin).2 p hj⟩
      obtain ⟨i, hii, hip⟩ := this
      refine ⟨f i, List.mem_map_of_mem hii, ?_⟩
      rw [g2.valD i hii (g3 i hii)]
      rw [hset i hii hip, Nat.odd_iff] at hodd
      exact decide_eq_true hodd

/-- **C43**, contours with any number of holes but no islands in the holes. -/
theorem gen_gds_holes_partial (R : Fin n → Region Pt) (t : Fin n → Pt) (h : Contours R t)
    (hdepth : ∀ i j k, In R t i j → ¬ In R t j k) (extra : List (Region Pt)) :
    ∃ (fuel : Nat) (out : List (Region Pt)),
      genGds fuel (List.ofFn fun i => (R i, t i)) extra true = .done (out ++ extra) ∧
      (out.Pairwise fun r r' => ∀ p, ¬ (r p = true ∧ r' p = true)) ∧
      ∀ p, (∃ r ∈ out, r p = true) ↔ Odd (Finset.univ.filter fun i => R i p = true).card := by
  apply gen_gds_even_odd_partial R t h
  intro i j hij
  have : children R t j = ∅ := by
    apply Finset.filter_eq_empty_iff.mpr
    rintro k - ⟨hk, _⟩
    exact hdepth i j k hij hk
  rw [this]
  simp

/-- **C43**, contours nested to any depth, at most one directly inside each. -/
theorem gen_gds_chain_partial (R : Fin n → Region Pt) (t : Fin n → Pt) (h : Contours R t)
    (hone : ∀ i, (children R t i).card ≤ 1) (extra : List (Region Pt)) :
    ∃ (fuel : Nat) (out : List (Region Pt)),
      genGds fuel (List.ofFn fun i => (R i, t i)) extra true = .done (out ++ extra) ∧
      (out.Pairwise fun r r' => ∀ p, ¬ (r p = true ∧ r' p = true)) ∧
      ∀ p, (∃ r ∈ out, r p = true) ↔ Odd (Finset.univ.filter fun i => R i p = true).card := by
  apply gen_gds_even_odd_partial R t h
  intro i j hij
  obtain ⟨w, hw⟩ := exists_child h hij
  have : 1 ≤ (children R t i).card := Finset.card_pos.mpr ⟨w, hw⟩
  have := hone j
  omega

/-! ### Examples and violations -/

/-- Contours over points `0 .. n - 1`: contour `i` contains the points of a list, and its first point is `i`. -/
def sampleR (l : List (List (Fin n))) : Fin n → Region (Fin n) := fun i p => (l.getD i.val []).contains p

/-- A contour with a hole with an island. -/
def nested3 : Fin 3 → Region (Fin 3) := sampleR [[0, 1, 2], [1, 2], [2]]

instance (R : Fin n → Region (Fin n)) (t : Fin n → Fin n) : Decidable (Contours R t) :=
  decidable_of_iff ((∀ i, R i (t i) = true) ∧ (∀ i j, In R t i j → ¬ In R t j i ∧ ∀ p, R j p = true → R i p = true) ∧
    (∀ i j, i ≠ j → ¬ In R t i j → ¬ In R t j i → ∀ p, ¬ (R i p = true ∧ R j p = true)))
    ⟨fun h => ⟨h.1, h.2.1, h.2.2⟩, fun h => ⟨h.1, h.2, h.3⟩⟩

/-- The hypotheses of `gen_gds_even_odd_partial` are met by three nested contours. -/
example : Contours nested3 id ∧ (∀ i, (children nested3 id i).card ≤ 1) ∧ In nested3 id 0 1 ∧ In nested3 id 1 2 := by decide

/-- A contour with a hole with two islands in it. -/
def twoIslands : Fin 4 → Region (Fin 4) := sampleR [[0, 1, 2, 3], [1, 2, 3], [2], [3]]

/-- The list of contours. -/
def twoIslandsPolys : Polys (Fin 4) := [(twoIslands 0, 0), (twoIslands 1, 1), (twoIslands 2, 2), (twoIslands 3, 3)]

/-- The polygons after the islands were subtracted from the hole. -/
def stuck : Polys (Fin 4) := [(twoIslands 0, 0), (boolNot (twoIslands 1) [twoIslands 2, twoIslands 3], 1)]

theorem stuck_targets (k : Nat) (hk : 2 ≤ k) : targets stuck k = [] := by
  have h0 : overlap stuck 0 = 1 := by decide
  have h1 : overlap stuck 1 = 0 := by decide
  have hr : List.range stuck.length = [0, 1] := by decide
  unfold targets
  rw [hr, List.filter_eq_nil_iff]
  intro a ha
  simp only [List.mem_cons, List.not_mem_nil, or_false] at ha
  rcases ha with rfl | rfl
  · rw [h0]; simp; omega
  · rw [h1]; simp; omega

theorem stuck_runs (fuel : Nat) : ∀ k, 2 ≤ k → outer fuel stuck k = .running := by
  induction fuel with
  | zero => intro k _; rfl
  | succ fuel ih =>
    intro k hk
    have ht : ¬ ((List.range stuck.length).map (overlap stuck)).sum = 0 := by decide
    rw [outer, if_neg ht, inner, if_pos (stuck_targets (k + 1) (by omega))]
    exact ih (k + 1) (by omega)

/-- **C43, violated.** For a contour with a hole with two islands, `gen_gds` does not end. -/
theorem gen_gds_terminates_false : Contours twoIslands id ∧
    ∀ fuel, genGds fuel (List.ofFn fun i => (twoIslands i, i)) [] true = .running := by
  refine ⟨by decide, ?_⟩
  intro fuel
  have hl : (List.ofFn fun i => (twoIslands i, i)) = twoIslandsPolys := rfl
  rw [hl]
  have : outer fuel twoIslandsPolys 0 = .running := by
    cases fuel with
    | zero => rfl
    | succ fuel =>
      have ht : ¬ ((List.range twoIslandsPolys.length).map (overlap twoIslandsPolys)).sum = 0 := by decide
      have h1 : targets twoIslandsPolys 1 = [] := by decide
      rw [outer, if_neg ht, inner, if_pos h1]
      simp only []
      cases fuel with
      | zero => rfl
      | succ fuel =>
        have h2 : ¬ targets twoIslandsPolys 2 = [] := by decide
        have h3 : pass twoIslandsPolys 2 = some stuck := rfl
        rw [outer, if_neg ht, inner, if_neg h2, h3]
        simp only []
        cases fuel with
        | zero => rfl
        | succ fuel =>
          rw [inner, if_pos (stuck_targets 2 (by omega))]
          exact stuck_runs (fuel + 1) 2 (by omega)
  unfold genGds
  rw [if_pos rfl, this]

/-- The same inside a further contour. -/
def deeper : Fin 5 → Region (Fin 5) := sampleR [[0, 1, 2, 3, 4], [1, 2, 3, 4], [2, 3, 4], [3], [4]]

/-- **C43, violated.** With a further contour around it `gen_gds` ends, but the part of the innermost ring is missing. -/
theorem gen_gds_fill_false : Contours deeper id ∧ ∃ fuel out,
    genGds fuel (List.ofFn fun i => (deeper i, i)) [] true = .done out ∧
    ¬ ∀ p, (∃ r ∈ out, r p = true) ↔ Odd (Finset.univ.filter fun i => deeper i p = true).card := by
  refine ⟨by decide, 10, ?_⟩
  have hc : (match genGds 10 (List.ofFn fun i => (deeper i, i)) [] true with
    | .done out => !(out.any fun r => r 2)
    | _ => false) = true := by decide +kernel
  cases hg : genGds 10 (List.ofFn fun i => (deeper i, i)) [] true with
  | running => rw [hg] at hc; cases hc
  | raised => rw [hg] at hc; cases hc
  | done out =>
    rw [hg] at hc
    refine ⟨out, rfl, ?_⟩
    intro h
    have h1 : Odd (Finset.univ.filter fun i => deeper i 2 = true).card := by
      have : (Finset.univ.filter fun i => deeper i 2 = true).card = 3 := by decide
      rw [this]
      exact ⟨1, rfl⟩
    obtain ⟨r, hr, hrp⟩ := (h 2).mpr h1
    simp only [Bool.not_eq_true', List.any_eq_false] at hc
    exact hc r hr hrp

end Verif.Gds
