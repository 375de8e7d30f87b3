import Mathlib.Data.List.Nodup
import Mathlib.Data.List.Perm.Basic
import Mathlib.Tactic.ByContra
import Mathlib.Tactic.Tauto
import Verif.Gds.Import

/-! C42: the top level cell; C68: polygons by layer. -/
namespace Verif.Gds
variable {Poly : Type}

/-- The number of polygons of a cell. -/
def polys (c : Cell Poly) : Nat := (c.sets.flatMap PolygonSet.polygons).length

theorem foldl_count (l : List (PolygonSet Poly)) (n : Nat) :
    l.foldl (fun n s => n + s.polygons.length) n = n + (l.flatMap PolygonSet.polygons).length := by
  induction l generalizing n with
  | nil => rfl
  | cons s l ih =>
    rw [List.foldl_cons, ih, List.flatMap_cons, List.length_append]
    omega

theorem numPolys_eq (c : Cell Poly) : numPolys c = polys c := by
  rw [numPolys, foldl_count, polys]
  omega

/-- What the loop has found after the cells `pre`. -/
def Best (pre : List (Cell Poly)) (m : Nat) (best : Option (Cell Poly)) : Prop :=
  (m = 0 ∧ best = none ∧ ∀ c ∈ pre, c.hidden = true) ∨
  (∃ (i : Nat) (c : Cell Poly), best = some c ∧ pre[i]? = some c ∧ c.hidden = false ∧ polys c = m ∧ 0 < m ∧
    ∀ (j : Nat) (d : Cell Poly), j ≠ i → pre[j]? = some d → d.hidden = false → polys d < m)

theorem pickLoop_best : ∀ (cs pre : List (Cell Poly)) (m : Nat) (best : Option (Cell Poly)) (r : Nat × Option (Cell Poly)),
    Best pre m best → pickLoop m best cs = some r → Best (pre ++ cs) r.1 r.2
  | [], pre, m, best, r, hb, h => by
    cases h
    simpa using hb
  | c :: cs, pre, m, best, r, hb, h => by
    have happ : pre ++ c :: cs = pre ++ [c] ++ cs := by simp
    rw [happ]
    have hget : ∀ (j : Nat) (d : Cell Poly), (pre ++ [c])[j]? = some d → pre[j]? = some d ∨ (j = pre.length ∧ d = c) := by
      intro j d hj
      rw [List.getElem?_append] at hj
      split at hj
      · exact Or.inl hj
      · rename_i hlt
        right
        have : j - pre.length = 0 := by
          by_contra hne
          rw [List.getElem?_eq_none (by simp; omega)] at hj
          cases hj
        rw [this] at hj
        simp only [List.getElem?_cons_zero, Option.some.injEq] at hj
        exact ⟨by omega, hj.symm⟩
    have hgetL : ∀ (j : Nat) (d : Cell Poly), pre[j]? = some d → (pre ++ [c])[j]? = some d := by
      intro j d hj
      rw [List.getElem?_append_left]
      · exact hj
      · exact (List.getElem?_eq_some_iff.mp hj).1
    rw [pickLoop] at h
    split at h
    · rename_i hh
      refine pickLoop_best cs (pre ++ [c]) m best r ?_ h
      rcases hb with ⟨h1, h2, h3⟩ | ⟨i, d, h1, h2, h3, h4, h5, h6⟩
      · refine Or.inl ⟨h1, h2, ?_⟩
        intro d hd
        rcases List.mem_append.mp hd with hd | hd
        · exact h3 d hd
        · simp only [List.mem_singleton] at hd
          rw [hd]; exact hh
      · refine Or.inr ⟨i, d, h1, hgetL _ _ h2, h3, h4, h5, ?_⟩
        intro j e hj he hv
        rcases hget j e he with he | ⟨_, rfl⟩
        · exact h6 j e hj he hv
        · rw [hh] at hv; cases hv
    · rename_i hh
      split at h
      · cases h
      · rename_i hne
        rw [numPolys_eq] at hne h
        split at h
        · rename_i hlt
          refine pickLoop_best cs (pre ++ [c]) _ _ r (Or.inr ⟨pre.length, c, rfl, by simp, by simpa using hh, rfl, by omega, ?_⟩) h
          intro j e hj he hv
          rcases hget j e he with he | ⟨h', _⟩
          · rcases hb with ⟨h1, h2, h3⟩ | ⟨i, d, h1, h2, h3, h4, h5, h6⟩
            · rw [h3 e (List.mem_of_getElem? he)] at hv; cases hv
            · by_cases hji : j = i
              · rw [hji, h2] at he
                cases he
                omega
              · have := h6 j e hji he hv; omega
          · exact absurd h' hj
        · rename_i hlt
          refine pickLoop_best cs (pre ++ [c]) _ _ r ?_ h
          rcases hb with ⟨h1, h2, h3⟩ | ⟨i, d, h1, h2, h3, h4, h5, h6⟩
          · omega
          · refine Or.inr ⟨i, d, h1, hgetL _ _ h2, h3, h4, h5, ?_⟩
            intro j e hj he hv
            rcases hget j e he with he | ⟨_, rfl⟩
            · exact h6 j e hj he hv
            · omega

/-- **C42.** If a cell is returned, it is one of the cells, visible and not empty, and every other visible cell has fewer polygons. -/
theorem top_cell_largest (cells : List (Cell Poly)) (c : Cell Poly) (h : getTopLevelCell none cells = some c) :
    ∃ i : Nat, cells[i]? = some c ∧ c.hidden = false ∧ 0 < polys c ∧
      ∀ (j : Nat) (d : Cell Poly), j ≠ i → cells[j]? = some d → d.hidden = false → polys d < polys c := by
  unfold getTopLevelCell at h
  simp only [] at h
  cases hp : pickLoop 0 none cells with
  | none => rw [hp] at h; cases h
  | some r =>
    obtain ⟨m, best⟩ := r
    rw [hp] at h
    have hb := pickLoop_best cells [] 0 none _ (Or.inl ⟨rfl, rfl, by simp⟩) hp
    simp only [List.nil_append] at hb h
    split at h
    · rename_i hm
      rcases hb with ⟨h1, _⟩ | ⟨i, d, h1, h2, h3, h4, h5, h6⟩
      · omega
      · rw [h1] at h
        cases h
        subst h4
        exact ⟨i, h2, h3, h5, h6⟩
    · cases h

/-- **C42.** The cell returned does not depend on the order of the cells, if it is returned in both orders. -/
theorem top_cell_order (cells cells' : List (Cell Poly)) (hperm : cells.Perm cells') (c c' : Cell Poly)
    (h : getTopLevelCell none cells = some c) (h' : getTopLevelCell none cells' = some c') : c = c' := by
  obtain ⟨i, h1, h2, h3, h4⟩ := top_cell_largest cells c h
  obtain ⟨i', h1', h2', h3', h4'⟩ := top_cell_largest cells' c' h'
  by_contra hne
  have hm : c' ∈ cells := hperm.mem_iff.mpr (List.mem_of_getElem? h1')
  have hm' : c ∈ cells' := hperm.mem_iff.mp (List.mem_of_getElem? h1)
  obtain ⟨j, hj⟩ := List.getElem?_of_mem hm
  obtain ⟨j', hj'⟩ := List.getElem?_of_mem hm'
  have a := h4 j c' (by rintro rfl; rw [h1] at hj; cases hj; exact hne rfl) hj h2'
  have b := h4' j' c (by rintro rfl; rw [h1'] at hj'; cases hj'; exact hne rfl) hj' h2
  omega

/-- The cells that are looked at: visible cells. -/
def visible (cells : List (Cell Poly)) : List Nat := (cells.filter fun c => ¬ c.hidden).map polys

/-- The largest of some numbers, 0 for none. -/
def largest (l : List Nat) : Nat := l.foldl max 0

/-- The loop fails exactly if some visible cell has as many polygons as the largest before it. -/
theorem pickLoop_fails : ∀ (cs : List (Cell Poly)) (m : Nat) (best : Option (Cell Poly)),
    pickLoop m best cs = none ↔ ∃ pre post x, visible cs = pre ++ x :: post ∧ pre.foldl max m = x
  | [], m, best => by simp [pickLoop, visible]
  | c :: cs, m, best => by
    rw [pickLoop]
    by_cases hh : c.hidden = true
    · rw [if_pos hh, pickLoop_fails cs m best]
      have : visible (c :: cs) = visible cs := by simp [visible, hh]
      rw [this]
    · rw [if_neg hh, numPolys_eq]
      have hv : visible (c :: cs) = polys c :: visible cs := by simp [visible, hh]
      rw [hv]
      by_cases he : m = polys c
      · rw [if_pos he]
        exact iff_of_true rfl ⟨[], visible cs, polys c, rfl, he⟩
      · rw [if_neg he]
        have key : ∀ b, (pickLoop (max m (polys c)) b cs = none ↔
            ∃ pre post x, polys c :: visible cs = pre ++ x :: post ∧ pre.foldl max m = x) := by
          intro b
          rw [pickLoop_fails cs _ b]
          constructor
          · rintro ⟨pre, post, x, h1, h2⟩
            exact ⟨polys c :: pre, post, x, by rw [h1]; rfl, by rw [List.foldl_cons]; exact h2⟩
          · rintro ⟨pre, post, x, h1, h2⟩
            cases pre with
            | nil =>
              simp only [List.nil_append, List.cons.injEq, List.foldl_nil] at h1 h2
              exact absurd (h2.trans h1.1.symm) he
            | cons y pre =>
              simp only [List.cons_append, List.cons.injEq] at h1
              rw [List.foldl_cons, ← h1.1] at h2
              exact ⟨pre, post, x, h1.2, h2⟩
        split
        · rename_i hlt
          have := key (some c)
          rwa [Nat.max_eq_right (Nat.le_of_lt hlt)] at this
        · rename_i hlt
          have := key best
          rwa [Nat.max_eq_left (Nat.le_of_not_lt hlt)] at this

/-- **C42.** Exactly when the call raises: there is no visible cell, or in the given order some visible cell has as many polygons as
the largest visible cell before it, or none and no visible cell before it has any. -/
theorem top_cell_raises (cells : List (Cell Poly)) :
    getTopLevelCell none cells = none ↔
      visible cells = [] ∨ ∃ pre post x, visible cells = pre ++ x :: post ∧ largest pre = x := by
  unfold getTopLevelCell
  simp only []
  have hf := pickLoop_fails cells 0 none
  cases hp : pickLoop 0 none cells with
  | none =>
    simp only []
    exact iff_of_true trivial (Or.inr (hf.mp hp))
  | some r =>
    obtain ⟨m, best⟩ := r
    have hb := pickLoop_best cells [] 0 none _ (Or.inl ⟨rfl, rfl, by simp⟩) hp
    simp only [List.nil_append] at hb
    simp only []
    have hno : ¬ ∃ pre post x, visible cells = pre ++ x :: post ∧ largest pre = x := by
      intro hc
      rw [hf.mpr hc] at hp
      cases hp
    rcases hb with ⟨h1, h2, h3⟩ | ⟨i, d, h1, h2, h3, h4, h5, h6⟩
    · rw [if_neg (by omega)]
      refine iff_of_true rfl (Or.inl ?_)
      simp only [visible, List.map_eq_nil_iff, List.filter_eq_nil_iff]
      intro c hc
      simp [h3 c hc]
    · rw [if_pos h5, h1]
      refine iff_of_false (by simp) ?_
      rintro (h | h)
      · simp only [visible, List.map_eq_nil_iff, List.filter_eq_nil_iff] at h
        have := h d (List.mem_of_getElem? h2)
        simp [h3] at this
      · exact hno h

/-- **C42**, the part of independence that holds: if no two visible cells have equally many polygons and none is empty, a cell is
returned in every order. Missing: see `top_cell_order_false`. -/
theorem top_cell_found_partial (cells : List (Cell Poly)) (h0 : visible cells ≠ []) (h1 : (visible cells).Nodup)
    (h2 : 0 ∉ visible cells) : ∃ c, getTopLevelCell none cells = some c := by
  cases h : getTopLevelCell none cells with
  | some c => exact ⟨c, rfl⟩
  | none =>
    rcases (top_cell_raises cells).mp h with h | ⟨pre, post, x, he, hx⟩
    · exact absurd h h0
    · exfalso
      have hl : ∀ (l : List Nat) (a : Nat), l.foldl max a = a ∨ l.foldl max a ∈ l := by
        intro l
        induction l with
        | nil => intro a; exact Or.inl rfl
        | cons b l ih =>
          intro a
          rw [List.foldl_cons]
          rcases ih (max a b) with h | h
          · rw [h]
            rcases Nat.le_total a b with hab | hab
            · right; simp [Nat.max_eq_right hab]
            · left; exact Nat.max_eq_left hab
          · exact Or.inr (List.mem_cons_of_mem _ h)
      rw [he] at h1 h2
      rcases hl pre 0 with h | h
      · apply h2
        rw [show x = 0 from hx.symm.trans h]
        simp
      · rw [show pre.foldl max 0 = x from hx] at h
        have := (List.nodup_append.mp h1).2.2 x h x (by simp)
        exact this rfl

/-- A cell with `n` polygons. -/
def sampleCell (name n : Nat) : Cell Unit := ⟨name, false, [⟨(1, 0), List.replicate n ()⟩]⟩

/-- Three cells in any order. -/
example : getTopLevelCell none [sampleCell 0 2, sampleCell 1 5, sampleCell 2 3] = some (sampleCell 1 5) := rfl

/-- **C42, violated (F28).** The same cells in another order can make the call raise, although one cell has the most polygons. -/
theorem top_cell_order_false : ¬ ∀ (cells cells' : List (Cell Unit)), cells.Perm cells' →
    (getTopLevelCell none cells).isSome = true → (getTopLevelCell none cells').isSome = true := by
  intro h
  have := h [sampleCell 0 3, sampleCell 1 2, sampleCell 2 2] [sampleCell 1 2, sampleCell 2 2, sampleCell 0 3]
    (by
      refine (List.Perm.swap _ _ _).trans ?_
      exact List.Perm.cons _ (List.Perm.swap _ _ _)) rfl
  cases this

/-- **C42, violated.** An empty visible cell before all others makes the call raise. -/
theorem top_cell_empty_false : getTopLevelCell none [sampleCell 0 0, sampleCell 1 3] = none := rfl

/-- **C42.** With a name, the first cell of that name is returned, hidden or not, and the call raises exactly if there is none. -/
theorem top_cell_named (cells : List (Cell Poly)) (n : Nat) :
    (∀ c, getTopLevelCell (some n) cells = some c → c ∈ cells ∧ c.name = n) ∧
    (getTopLevelCell (some n) cells = none ↔ ∀ c ∈ cells, c.name ≠ n) := by
  unfold getTopLevelCell
  simp only []
  constructor
  · intro c h
    exact ⟨List.mem_of_find?_eq_some h, by simpa using List.find?_some h⟩
  · rw [List.find?_eq_none]
    simp

/-! ### C68 -/

theorem getPolygons_addLayer (key layer : Nat × Nat) (ps : List Poly) (l : List ((Nat × Nat) × List Poly)) :
    getPolygons (addLayer key ps l) layer = getPolygons l layer ++ if layer = key then ps else [] := by
  induction l with
  | nil =>
    by_cases h : key = layer
    · simp [addLayer, getPolygons, h]
    · simp [addLayer, getPolygons, h, Ne.symm h]
  | cons x l ih =>
    obtain ⟨k, qs⟩ := x
    rw [addLayer]
    unfold getPolygons at ih ⊢
    by_cases hk : k = key
    · rw [if_pos hk]
      by_cases hl : k = layer
      · have : layer = key := hl.symm.trans hk
        simp [hl, this]
      · have : ¬ layer = key := fun h => hl (hk.trans h.symm)
        simp [hl, this]
    · rw [if_neg hk]
      by_cases hl : k = layer
      · have : ¬ layer = key := fun h => hk (hl.trans h)
        simp [hl, this]
      · simp only [List.find?_cons, hl, decide_false]
        exact ih

/-- **C68.** The polygons of a layer are those of all sets of the cell on that layer, in their order; other layers have none. -/
theorem layer_polygons (c : Cell Poly) (layer : Nat × Nat) :
    getPolygons (extractLayers c) layer = (c.sets.filter fun s => s.key = layer).flatMap PolygonSet.polygons := by
  have : ∀ (l : List (PolygonSet Poly)) (acc : List ((Nat × Nat) × List Poly)),
      getPolygons (l.foldl (fun layers s => addLayer s.key s.polygons layers) acc) layer =
        getPolygons acc layer ++ (l.filter fun s => s.key = layer).flatMap PolygonSet.polygons := by
    intro l
    induction l with
    | nil => intro acc; simp
    | cons s l ih =>
      intro acc
      rw [List.foldl_cons, ih, getPolygons_addLayer]
      by_cases h : s.key = layer
      · simp [h, List.append_assoc]
      · simp [h, Ne.symm h]
  have h := this c.sets []
  rw [extractLayers, h]
  rfl

example : getPolygons (extractLayers (⟨0, false, [⟨(1, 0), [10, 11]⟩, ⟨(2, 0), [12]⟩, ⟨(1, 0), [13]⟩]⟩ : Cell Nat)) (1, 0) = [10, 11, 13] := by
  decide

end Verif.Gds
