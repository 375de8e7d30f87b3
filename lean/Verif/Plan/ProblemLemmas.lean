import Verif.Plan.Problem
import Mathlib.Data.List.GetD
import Mathlib.Algebra.BigOperators.Fin
import Mathlib.Algebra.BigOperators.Intervals
import Mathlib.Topology.Algebra.Module.FiniteDimension
import Mathlib.Analysis.Calculus.FDeriv.Add
import Mathlib.Analysis.Calculus.FDeriv.Pi
import Mathlib.Analysis.Calculus.FDeriv.Comp
/-
Lemmas for the composition of the plan and the optimizer.
-/
set_option linter.unusedSectionVars false
namespace Verif.Plan
variable {Name : Type} [DecidableEq Name]
variable {E : Type} [NormedAddCommGroup E] [NormedSpace ℝ E]

/-- The contribution of a variable that is not frozen, for entries `dx` starting at `o`. -/
noncomputable def part (rep : ArrayRep E) : Vars Name (Arr ℝ) → Nat → (Nat → ℝ) → Name → E
  | [], _, _, _ => 0
  | (n, s) :: vs, o, dx, w =>
    if s.frozen then (if n = w then 0 else part rep vs o dx w)
    else if n = w then ∑ k ∈ Finset.range s.value.data.length, dx (o + k) • rep.unit k
    else part rep vs (o + s.value.data.length) dx w

/-- The contribution of a frozen variable. -/
noncomputable def base (rep : ArrayRep E) : Vars Name (Arr ℝ) → Name → E
  | [], _ => 0
  | (n, s) :: vs, w =>
    if n = w then (if s.frozen then rep.encode s.value else 0) else base rep vs w

theorem part_add (rep : ArrayRep E) (vs : Vars Name (Arr ℝ)) (o : Nat) (a b : Nat → ℝ) (w : Name) :
    part rep vs o (a + b) w = part rep vs o a w + part rep vs o b w := by
  induction vs generalizing o with
  | nil => simp [part]
  | cons e vs ih =>
    obtain ⟨n, s⟩ := e
    simp only [part]
    split
    · split
      · simp
      · exact ih o
    · split
      · simp [add_smul, Finset.sum_add_distrib]
      · exact ih _

theorem part_smul (rep : ArrayRep E) (vs : Vars Name (Arr ℝ)) (o : Nat) (c : ℝ) (a : Nat → ℝ) (w : Name) :
    part rep vs o (c • a) w = c • part rep vs o a w := by
  induction vs generalizing o with
  | nil => simp [part]
  | cons e vs ih =>
    obtain ⟨n, s⟩ := e
    simp only [part]
    split
    · split
      · simp
      · exact ih o
    · split
      · simp [mul_smul, Finset.smul_sum]
      · exact ih _

/-- The overrides of a plan whose variables were set from a vector. -/
theorem overrides_assign (rep : ArrayRep E) (vs : Vars Name (Arr ℝ)) (x : List ℝ) (o : Nat)
    (hx : x.length = o + (flat vs).length) (w : Name) :
    overrides rep (assign vs (x.drop o)) w =
      if w ∈ vs.map Prod.fst then some (base rep vs w + part rep vs o (fun j => x.getD j 0) w)
      else none := by
  induction vs generalizing o with
  | nil => simp [assign, overrides, getVar]
  | cons e vs ih =>
    obtain ⟨n, s⟩ := e
    rw [flat_cons] at hx
    cases hf : s.frozen with
    | true =>
      simp only [hf, if_true] at hx
      have ih := ih o hx
      simp only [assign, hf, if_true, overrides, getVar, base, part, List.map_cons,
        List.mem_cons]
      by_cases hn : n = w
      · simp [hn]
      · have hn' : ¬ w = n := fun h => hn h.symm
        simp only [hn, hn', if_false, false_or]
        exact ih
    | false =>
      simp only [hf, Bool.false_eq_true, if_false, List.length_append] at hx
      have ih := ih (o + s.value.data.length) (by omega)
      simp only [assign, hf, Bool.false_eq_true, if_false, overrides, getVar, base, part,
        List.map_cons, List.mem_cons, List.drop_drop]
      by_cases hn : n = w
      · simp only [hn, if_true, Option.map_some, true_or, zero_add, ArrayRep.encode]
        have hl : (List.take s.value.data.length (List.drop o x)).length = s.value.data.length := by
          simp; omega
        rw [hl]
        congr 1
        refine Finset.sum_congr rfl fun k hk => ?_
        have hk := Finset.mem_range.1 hk
        congr 1
        rw [List.getD_eq_getElem _ _ (by omega), List.getD_eq_getElem _ _ (by omega)]
        simp
      · have hn' : ¬ w = n := fun h => hn h.symm
        simp only [hn, hn', if_false, false_or]
        exact ih

theorem entries_assign (vs : Vars Name (Arr ℝ)) (x : List ℝ) (hx : x.length = (flat vs).length)
    (w : Name) : entries (assign vs x) w = entries vs w := by
  induction vs generalizing x with
  | nil => rfl
  | cons e vs ih =>
    obtain ⟨n, s⟩ := e
    rw [flat_cons] at hx
    cases hf : s.frozen with
    | true =>
      simp only [hf, if_true] at hx
      simp only [assign, hf, if_true, entries, getVar]
      by_cases hn : n = w
      · simp [hn]
      · simp only [hn, if_false]
        exact ih x hx
    | false =>
      simp only [hf, Bool.false_eq_true, if_false, List.length_append] at hx
      simp only [assign, hf, Bool.false_eq_true, if_false, entries, getVar]
      by_cases hn : n = w
      · simp [hn]; omega
      · simp only [hn, if_false]
        exact ih _ (by simp; omega)

/-- The gradient vector: one block for every variable that is not frozen. -/
noncomputable def gradBlocks (rep : ArrayRep E) (vs : Vars Name (Arr ℝ)) (ρ : Name → E →L[ℝ] ℝ) : List ℝ :=
  (vs.filter (fun e => !e.2.frozen)).flatMap fun e =>
    (List.range e.2.value.data.length).map fun i => ρ e.1 (rep.unit i)

theorem gradBlocks_cons (rep : ArrayRep E) (n : Name) (s : VarState (Arr ℝ)) (vs : Vars Name (Arr ℝ))
    (ρ : Name → E →L[ℝ] ℝ) :
    gradBlocks rep ((n, s) :: vs) ρ = if s.frozen then gradBlocks rep vs ρ
      else ((List.range s.value.data.length).map fun i => ρ n (rep.unit i)) ++ gradBlocks rep vs ρ := by
  cases h : s.frozen <;> simp [gradBlocks, h]

theorem gradBlocks_length (rep : ArrayRep E) (vs : Vars Name (Arr ℝ)) (ρ : Name → E →L[ℝ] ℝ) :
    (gradBlocks rep vs ρ).length = (flat vs).length := by
  induction vs with
  | nil => rfl
  | cons e vs ih =>
    obtain ⟨n, s⟩ := e
    rw [gradBlocks_cons, flat_cons]
    cases s.frozen <;> simp [ih]

theorem zip_map_blocks (rep : ArrayRep E) (ws vs : Vars Name (Arr ℝ)) (ρ : Name → E →L[ℝ] ℝ)
    (hnd : (vs.map Prod.fst).Nodup) (h : ∀ e ∈ vs, entries ws e.1 = e.2.value.data.length) :
    (((thawedNames vs).zip ((thawedNames vs).map ρ)).flatMap fun e =>
      (List.range (entries ws e.1)).map fun i => e.2 (rep.unit i)) = gradBlocks rep vs ρ := by
  induction vs with
  | nil => rfl
  | cons e vs ih =>
    obtain ⟨n, s⟩ := e
    have ih := ih (List.nodup_cons.1 hnd).2 (fun e he => h e (List.mem_cons_of_mem _ he))
    rw [thawedNames_cons, gradBlocks_cons]
    cases hf : s.frozen with
    | true => simpa using ih
    | false =>
      simp only [Bool.false_eq_true, if_false, List.map_cons, List.zip_cons_cons,
        List.flatMap_cons, ih]
      rw [h (n, s) (by simp)]

theorem entries_of_mem (vs : Vars Name (Arr ℝ)) (hnd : (vs.map Prod.fst).Nodup)
    (e : Name × VarState (Arr ℝ)) (he : e ∈ vs) : entries vs e.1 = e.2.value.data.length := by
  induction vs with
  | nil => cases he
  | cons a vs ih =>
    obtain ⟨n, s⟩ := a
    rcases List.mem_cons.1 he with rfl | he'
    · simp [entries, getVar]
    · have hne : n ≠ e.1 := by
        intro h
        exact (List.nodup_cons.1 hnd).1 (List.mem_map.2 ⟨e, he', h.symm⟩)
      have := ih (List.nodup_cons.1 hnd).2 he'
      simpa [entries, getVar, hne] using this

theorem part_eq_zero (rep : ArrayRep E) (vs : Vars Name (Arr ℝ)) (o : Nat) (dx : Nat → ℝ) (w : Name)
    (h : w ∉ vs.map Prod.fst) : part rep vs o dx w = 0 := by
  induction vs generalizing o with
  | nil => rfl
  | cons e vs ih =>
    obtain ⟨n, s⟩ := e
    simp only [List.map_cons, List.mem_cons, not_or] at h
    simp [part, Ne.symm h.1, ih _ h.2]

/-- The derivatives paired with the contributions of the variables add up to the pairing of the
gradient vector with the entries. -/
theorem pairing_blocks (rep : ArrayRep E) (vs : Vars Name (Arr ℝ)) (hnd : (vs.map Prod.fst).Nodup)
    (o : Nat) (dx : Nat → ℝ) (ρ : Name → E →L[ℝ] ℝ) :
    ((vs.map Prod.fst).map fun w => ρ w (part rep vs o dx w)).sum =
      ∑ j ∈ Finset.range (flat vs).length, (gradBlocks rep vs ρ).getD j 0 * dx (o + j) := by
  induction vs generalizing o with
  | nil => simp [flat]
  | cons e vs ih =>
    obtain ⟨n, s⟩ := e
    have hnd' := (List.nodup_cons.1 hnd).2
    have hn : n ∉ vs.map Prod.fst := (List.nodup_cons.1 hnd).1
    have hrest : ∀ o', (∀ w, n ≠ w → part rep ((n, s) :: vs) o dx w = part rep vs o' dx w) →
        ((vs.map Prod.fst).map fun w => ρ w (part rep ((n, s) :: vs) o dx w)).sum =
        ((vs.map Prod.fst).map fun w => ρ w (part rep vs o' dx w)).sum := by
      intro o' ho
      congr 1
      refine List.map_congr_left fun w hw => ?_
      rw [ho w (fun h => hn (h ▸ hw))]
    rw [gradBlocks_cons, flat_cons, List.map_cons, List.map_cons, List.sum_cons]
    cases hf : s.frozen with
    | true =>
      rw [hrest o (fun w hw => by simp [part, hf, hw]), ih hnd' o]
      simp [part, hf]
    | false =>
      rw [hrest (o + s.value.data.length) (fun w hw => by simp [part, hf, hw]), ih hnd' _]
      simp only [Bool.false_eq_true, if_false, List.length_append]
      rw [Finset.sum_range_add]
      congr 1
      · simp only [part, hf, Bool.false_eq_true, if_false, if_true, map_sum, map_smul, smul_eq_mul]
        refine Finset.sum_congr rfl fun k hk => ?_
        have hk := Finset.mem_range.1 hk
        rw [List.getD_append _ _ _ _ (by simpa using hk), List.getD_eq_getElem _ _ (by simpa using hk)]
        simp [mul_comm]
      · refine Finset.sum_congr rfl fun j _ => ?_
        rw [List.getD_append_right _ _ _ _ (by simp)]
        simp [add_assoc]

/-- A vector as a function on all numbers. -/
def ext {n : Nat} (x : Fin n → ℝ) (j : Nat) : ℝ := if h : j < n then x ⟨j, h⟩ else 0

theorem ext_ofFn {n : Nat} (x : Fin n → ℝ) : (fun j => (List.ofFn x).getD j 0) = ext x := by
  funext j
  by_cases h : j < n
  · rw [List.getD_eq_getElem _ _ (by simpa using h)]
    simp [ext, h]
  · rw [List.getD_eq_default _ _ (by simpa using h)]
    simp [ext, h]

theorem ext_add {n : Nat} (x y : Fin n → ℝ) : ext (x + y) = ext x + ext y := by
  funext j; by_cases h : j < n <;> simp [ext, h]

theorem ext_smul {n : Nat} (c : ℝ) (x : Fin n → ℝ) : ext (c • x) = c • ext x := by
  funext j; by_cases h : j < n <;> simp [ext, h]

/-- The contributions of all variables, as a linear map of the vector. -/
noncomputable def partMap (rep : ArrayRep E) (vs : Vars Name (Arr ℝ)) (n : Nat) (w : Name) :
    (Fin n → ℝ) →L[ℝ] E :=
  LinearMap.toContinuousLinearMap
    { toFun := fun x => part rep vs 0 (ext x) w
      map_add' := fun x y => by rw [ext_add, part_add]
      map_smul' := fun c x => by rw [ext_smul, part_smul]; rfl }

theorem partMap_apply (rep : ArrayRep E) (vs : Vars Name (Arr ℝ)) (n : Nat) (w : Name)
    (x : Fin n → ℝ) : partMap rep vs n w x = part rep vs 0 (ext x) w := rfl

/-- The values of the variables of the plan at the vector `x`. -/
noncomputable def point (rep : ArrayRep E) (vs : Vars Name (Arr ℝ)) (x : Fin (flat vs).length → ℝ)
    (i : Fin (vs.map Prod.fst).length) : E :=
  base rep vs ((vs.map Prod.fst).get i) + partMap rep vs (flat vs).length ((vs.map Prod.fst).get i) x

theorem overrides_point (rep : ArrayRep E) (vs : Vars Name (Arr ℝ)) (x : Fin (flat vs).length → ℝ) :
    overrides rep (assign vs (List.ofFn x)) = Exec.assign (vs.map Prod.fst) (point rep vs x) := by
  funext w
  have h := overrides_assign rep vs (List.ofFn x) 0 (by simp) w
  rw [List.drop_zero] at h
  rw [h, ext_ofFn]
  unfold Exec.assign
  by_cases hw : w ∈ vs.map Prod.fst
  · rw [if_pos hw, dif_pos hw]
    simp only [point, partMap_apply]
    have : (vs.map Prod.fst).get ⟨(vs.map Prod.fst).idxOf w, List.idxOf_lt_length_iff.2 hw⟩ = w :=
      List.idxOf_get _
    rw [this]
  · rw [if_neg hw, dif_neg hw]

theorem point_hasFDerivAt (rep : ArrayRep E) (vs : Vars Name (Arr ℝ)) (x : Fin (flat vs).length → ℝ) :
    HasFDerivAt (point rep vs)
      (ContinuousLinearMap.pi fun i => partMap rep vs (flat vs).length ((vs.map Prod.fst).get i)) x := by
  rw [hasFDerivAt_pi']
  intro i
  have h := (partMap rep vs (flat vs).length ((vs.map Prod.fst).get i)).hasFDerivAt (x := x)
  exact h.const_add (base rep vs ((vs.map Prod.fst).get i))

/-- The result of a client only depends on the answers at vectors of the right length. -/
theorem result_congr {R : Type} (n : Nat) (f f' : Query → List R → Option (List R))
    (cb : Nat → List R → Bool) (h : ∀ q x, x.length = n → f q x = f' q x) (c : Client R)
    (hc : Sized n c) (it : Nat) : c.result f cb it = c.result f' cb it := by
  induction c generalizing it with
  | raise => rfl
  | finish x => rfl
  | call q x k ih =>
    rw [Client.result, Client.result, h q x hc.1]
    cases f' q x with
    | none => rfl
    | some r => exact ih r (hc.2 r) it
  | callback x k ih =>
    rw [Client.result, Client.result, ih hc.2]

/-- One amount of fuel for several nodes. -/
theorem createGraph_all {N : Exec.Net Name} (hN : Exec.Acyclic N) (l : List Name) :
    ∃ n₀, ∀ n, n₀ ≤ n → ∀ t ∈ l, ∃ g, Exec.createGraph N n [t] = some g := by
  induction l with
  | nil => exact ⟨0, fun _ _ _ h => by cases h⟩
  | cons t l ih =>
    obtain ⟨a, ha⟩ := ih
    obtain ⟨b, hb⟩ := Exec.createGraph_terminates hN [t]
    refine ⟨max a b, fun n hn u hu => ?_⟩
    rcases List.mem_cons.1 hu with rfl | hu
    · exact hb n (le_trans (le_max_right _ _) hn)
    · exact ha n (le_trans (le_max_left _ _) hn) u hu

end Verif.Plan
