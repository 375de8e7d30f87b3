import Verif.Grating.FitLoops
import Verif.Grating.ParamProps
import Mathlib.Data.Rat.Floor
/-
C30: the edges found by the discretisation respect the minimum feature size. C66: they are the best ones on the lattice.
-/
set_option linter.unusedSectionVars false
set_option linter.unusedVariables false
namespace Verif.Grating
open MeasureTheory

section Generic
variable {K : Type} [Field K] [LinearOrder K] [IsStrictOrderedRing K]

theorem Reach.lattice {d n : Nat} (hd : 1 ≤ d) {S : List Nat} {k : Nat} (h : Reach d S k) :
    S.IsChain (fun a b => a + d ≤ b) ∧ (∀ e, S.head? = some e → e = 0 ∨ d ≤ e) := by
  induction h with
  | nil => simp
  | first k hk => simp [hk]
  | next S i j k hS h1 h2 ih =>
    constructor
    · rw [List.isChain_append]
      refine ⟨ih.1, by simp [h2], ?_⟩
      intro a ha b hb
      simp only [List.head?_cons, Option.mem_def, Option.some.injEq] at hb
      subst hb
      have := hS.le a (List.mem_of_getLast? ha)
      omega
    · intro e he
      cases S with
      | nil =>
        simp only [List.nil_append, List.head?_cons, Option.some.injEq] at he
        omega
      | cons a S => exact ih.2 e (by simpa using he)

theorem reach_of_lattice (d n : Nat) (hd : 1 ≤ d) : ∀ (m : Nat) (S : List Nat), S.length = 2 * m + 2 →
    S.IsChain (fun a b => a + d ≤ b) → (∀ e, S.head? = some e → e = 0 ∨ d ≤ e) → ∃ k, Reach d S k ∧ k ∈ S ∧ d ≤ k := by
  intro m
  induction m with
  | zero =>
    intro S hl hc hh
    match S, hl with
    | [a, b], _ =>
      have hab : a + d ≤ b := by simpa using hc
      refine ⟨b, ?_, by simp, by omega⟩
      rcases hh a rfl with rfl | h
      · exact Reach.first b (by omega)
      · exact Reach.next [] 0 a b Reach.nil (by omega) hab
  | succ m ih =>
    intro S hl hc hh
    obtain ⟨T, k, rfl⟩ : ∃ T k, S = T ++ [k] := by
      rcases List.eq_nil_or_concat S with rfl | ⟨T, k, h⟩
      · simp at hl
      · exact ⟨T, k, by simpa using h⟩
    obtain ⟨U, j, rfl⟩ : ∃ U j, T = U ++ [j] := by
      rcases List.eq_nil_or_concat T with rfl | ⟨U, j, h⟩
      · simp at hl
      · exact ⟨U, j, by simpa using h⟩
    rw [List.append_assoc] at hc hh hl ⊢
    simp only [List.cons_append, List.nil_append] at hc hh hl ⊢
    rw [List.isChain_append] at hc
    obtain ⟨c1, c2, c3⟩ := hc
    have hU : U.length = 2 * m + 2 := by
      simp at hl
      omega
    obtain ⟨i, i1, i2, i3⟩ := ih U hU c1 (fun e he => hh e (by
      cases U with
      | nil => simp at hU
      | cons a U => simpa using he))
    have hjk : j + d ≤ k := by simpa using c2
    have hij : i + d ≤ j := by
      rcases i1.last with ⟨h1, h2⟩ | ⟨h1, h2⟩
      · omega
      · exact c3 i h1 j (by simp)
    exact ⟨k, Reach.next U i j k i1 hij hjk, by simp, by omega⟩

theorem lattice_iff (d n : Nat) (hd : 1 ≤ d) (S : List Nat) :
    LatticeEdges d n S ↔ ∃ k, Reach d S k ∧ d ≤ k ∧ k ≤ 5 * n := by
  constructor
  · rintro ⟨h1, ⟨m, h2⟩, h3, h4, h5⟩
    have : S.length ≠ 0 := by simpa using h1
    obtain ⟨k, k1, k2, k3⟩ := reach_of_lattice d n hd (m - 1) S (by omega) h3 h5
    exact ⟨k, k1, k3, h4 k k2⟩
  · rintro ⟨k, k1, k2, k3⟩
    obtain ⟨h1, h2⟩ := k1.lattice (n := n) hd
    refine ⟨?_, k1.even, h1, fun e he => (k1.le e he).trans k3, h2⟩
    rintro rfl
    rcases k1.last with ⟨_, h⟩ | ⟨h, _⟩
    · omega
    · simp at h

theorem floor_bounds [FloorSemiring K] (f : K) (hf : 1 ≤ f) : 5 ≤ ⌊f * 5⌋₊ ∧ ((⌊f * 5⌋₊ : Nat) : K) / 5 ≤ f ∧
    f < ((⌊f * 5⌋₊ : Nat) : K) / 5 + 1 / 5 := by
  have h0 : 0 ≤ f * 5 := by linarith
  refine ⟨?_, ?_, ?_⟩
  · rw [Nat.le_floor_iff h0]
    push_cast
    linarith
  · have := Nat.floor_le h0
    linarith
  · have := Nat.lt_floor_add_one (f * 5)
    linarith

/-- **C30**. For pixel values between 0 and 1 and a feature size of at least a pixel that fits on the grating, the discretisation
returns an even, positive number of edges on the grating; consecutive ones are at least `w` apart, and the first one is 0 or at
least `w`, where `w` is the feature size rounded down to a fifth of a pixel. -/
theorem fit_min_feature [FloorSemiring K] (x : List K) (hx : ∀ a ∈ x, 0 ≤ a ∧ a ≤ 1) (f : K) (hf : 1 ≤ f)
    (hfn : f ≤ x.length) : ∃ edges w, getEdgeLoc x f = some edges ∧ (w ≤ f ∧ f < w + 1 / 5) ∧ edges ≠ [] ∧ Even edges.length ∧
      edges.IsChain (fun a b => a + w ≤ b) ∧ (∀ e ∈ edges, 0 ≤ e ∧ e ≤ x.length) ∧
      (∀ e, edges.head? = some e → e = 0 ∨ w ≤ e) := by
  obtain ⟨f1, f2, f3⟩ := floor_bounds f hf
  have hdn : ⌊f * 5⌋₊ ≤ 5 * x.length := by
    have : ((⌊f * 5⌋₊ : Nat) : K) ≤ ((5 * x.length : Nat) : K) := by
      push_cast
      linarith
    exact_mod_cast this
  obtain ⟨S, k, h1, h2, h3, h4, _⟩ := edgeLocDp_spec x hx ⌊f * 5⌋₊ f1 hdn
  obtain ⟨l1, l2, l3, l4, l5⟩ := (lattice_iff ⌊f * 5⌋₊ x.length (by omega) S).2 ⟨k, h2, h3, h4⟩
  refine ⟨_, ((⌊f * 5⌋₊ : Nat) : K) / 5, h1, ⟨f2, f3⟩, by simpa using l1, by simpa using l2, ?_, ?_, ?_⟩
  · rw [List.isChain_map]
    refine l3.imp fun a b hab => ?_
    have : ((a + ⌊f * 5⌋₊ : Nat) : K) ≤ b := by exact_mod_cast hab
    push_cast at this
    linarith
  · intro e he
    rw [List.mem_map] at he
    obtain ⟨a, ha, rfl⟩ := he
    refine ⟨by positivity, ?_⟩
    have : (a : K) ≤ ((5 * x.length : Nat) : K) := by exact_mod_cast l4 a ha
    push_cast at this
    linarith
  · intro e he
    rw [List.head?_map] at he
    cases hS : S.head? with
    | none => rw [hS] at he; simp at he
    | some a =>
      rw [hS] at he
      simp only [Option.map_some, Option.some.injEq] at he
      subst he
      rcases l5 a hS with rfl | h
      · simp
      · right
        have : ((⌊f * 5⌋₊ : Nat) : K) ≤ a := by exact_mod_cast h
        linarith

theorem outer_length (x : List K) (d : Nat) : ∀ (l : List Nat) (st : List K × List (List K)),
    (l.foldl (outerStep x d) st).1.length = st.1.length := by
  intro l
  induction l with
  | nil => intro st; rfl
  | cons k l ih => intro st; rw [List.foldl_cons, ih]; simp [outerStep]

theorem back_length (x : List K) : ∀ (l : List Nat) (dp : List K), (l.foldl (backfillStep x) dp).length = dp.length := by
  intro l
  induction l with
  | nil => intro st; rfl
  | cons k l ih => intro st; rw [List.foldl_cons, ih]; simp [backfillStep]

/-- **C30**. A feature size that (rounded down) is larger than the grating makes the discretisation raise, and nothing else does. -/
theorem fit_raises [FloorSemiring K] (x : List K) (f : K) :
    getEdgeLoc x f = none ↔ 5 * x.length < ⌊f * 5⌋₊ := by
  unfold getEdgeLoc edgeLocDp
  simp only [Option.map_eq_none_iff]
  have hl : ((List.range' ⌊f * 5⌋₊ (5 * x.length - ⌊f * 5⌋₊)).foldl (backfillStep x) (fillDp x ⌊f * 5⌋₊).1).length =
      5 * x.length + 1 := by
    rw [back_length, fillDp, outer_length]
    simp
  generalize (List.range' ⌊f * 5⌋₊ (5 * x.length - ⌊f * 5⌋₊)).foldl (backfillStep x) (fillDp x ⌊f * 5⌋₊).1 = dp at hl
  constructor
  · intro h
    by_contra hc
    obtain ⟨i, h1, _⟩ := argmin_spec (dp.drop ⌊f * 5⌋₊) (by
      intro he
      have := congrArg List.length he
      rw [List.length_drop, hl] at this
      simp at this
      omega)
    rw [h1] at h
    cases h
  · intro h
    have : dp.drop ⌊f * 5⌋₊ = [] := by
      apply List.drop_eq_nil_of_le
      omega
    rw [this]
    rfl

/-- **C66**. Among all edge lists on the lattice of fifths of pixels that respect the feature size, the discretisation returns one
with the smallest error `‖R(y) - x‖²`; only the grating that is one hole from end to end is not considered. -/
theorem fit_optimal [FloorSemiring K] (x : List K) (hx : ∀ a ∈ x, 0 ≤ a ∧ a ≤ 1) (f : K) (hf : 1 ≤ f)
    (hfn : f ≤ x.length) : ∃ S, getEdgeLoc x f = some (S.map fun e : Nat => (e : K) / 5) ∧
      LatticeEdges ⌊f * 5⌋₊ x.length S ∧
      ∀ S', LatticeEdges ⌊f * 5⌋₊ x.length S' → S' ≠ [0, 5 * x.length] → fitError x S ≤ fitError x S' := by
  obtain ⟨f1, f2, f3⟩ := floor_bounds f hf
  have hdn : ⌊f * 5⌋₊ ≤ 5 * x.length := by
    have : ((⌊f * 5⌋₊ : Nat) : K) ≤ ((5 * x.length : Nat) : K) := by
      push_cast
      linarith
    exact_mod_cast this
  obtain ⟨S, k, h1, h2, h3, h4, h5⟩ := edgeLocDp_spec x hx ⌊f * 5⌋₊ f1 hdn
  refine ⟨S, h1, (lattice_iff ⌊f * 5⌋₊ x.length (by omega) S).2 ⟨k, h2, h3, h4⟩, ?_⟩
  intro S' hS' hne
  obtain ⟨k', r1, r2, r3⟩ := (lattice_iff ⌊f * 5⌋₊ x.length (by omega) S').1 hS'
  exact h5 S' k' r1 r2 r3 hne

end Generic

/-- A case that meets the hypotheses. -/
example : (∀ a ∈ ([0, 1 / 2, 1, 1 / 4] : List ℚ), 0 ≤ a ∧ a ≤ 1) ∧ (1 : ℚ) ≤ 3 / 2 ∧ (3 / 2 : ℚ) ≤ ([0, 1 / 2, 1, 1 / 4] : List ℚ).length ∧
    LatticeEdges 7 4 [0, 8] ∧ LatticeEdges 7 4 [7, 14] := by
  refine ⟨by decide +kernel, by norm_num, by norm_num, ?_, ?_⟩ <;>
    refine ⟨by simp, ⟨1, rfl⟩, by simp, by simp, by simp⟩

/-- **C66** (violated). The hole from end to end is not considered: for pixels that are all 0 it has no error, but the
discretisation returns another structure. -/
theorem fit_optimal_false : ¬ ∀ (x : List ℚ), (∀ a ∈ x, 0 ≤ a ∧ a ≤ 1) → ∀ f : ℚ, 1 ≤ f → f ≤ x.length →
    ∃ S, getEdgeLoc x f = some (S.map fun e : Nat => (e : ℚ) / 5) ∧
      ∀ S', LatticeEdges ⌊f * 5⌋₊ x.length S' → fitError x S ≤ fitError x S' := by
  intro H
  obtain ⟨S, h1, h2⟩ := H [0, 0] (by decide +kernel) 1 (by norm_num) (by norm_num)
  have e1 : getEdgeLoc ([0, 0] : List ℚ) 1 = some [0, 9 / 5] := by decide +kernel
  rw [e1] at h1
  have hS : S = [0, 9] := by
    match S, h1 with
    | [a, b], h1 =>
      simp only [List.map_cons, List.map_nil, Option.some.injEq, List.cons.injEq, and_true] at h1
      have ha : (a : ℚ) = 0 := by linarith [h1.1]
      have hb : (b : ℚ) = 9 := by linarith [h1.2]
      have ha' : a = 0 := by exact_mod_cast ha
      have hb' : b = 9 := by exact_mod_cast hb
      rw [ha', hb']
    | [], h1 => simp at h1
    | [a], h1 => simp at h1
    | a :: b :: c :: l, h1 => simp at h1
  have hf : ⌊(1 : ℚ) * 5⌋₊ = 5 := by decide +kernel
  have h3 := h2 [0, 10] (by
    rw [hf]
    exact ⟨by simp, ⟨1, rfl⟩, by simp, by simp, by simp⟩)
  rw [hS] at h3
  revert h3
  decide +kernel

/-! ### The grating parametrization gets the edges -/

theorem postProcess_chain (n : Nat) (w : ℝ) (hw : 0 ≤ w) (E : List ℝ) (hE : E ≠ []) (he : Even E.length)
    (hc : E.IsChain fun a b => a + w ≤ b) (hr : ∀ e ∈ E, 0 ≤ e ∧ e ≤ n) (hh : ∀ e, E.head? = some e → e = 0 ∨ w ≤ e) :
    Even (postProcess n E).length ∧ (postProcess n E).Pairwise (· ≤ ·) ∧
    (∀ e ∈ postProcess n E, 0 ≤ e ∧ e ≤ n) ∧ ((postProcess n E).dropLast).IsChain (fun a b => a + w ≤ b) ∧
    ∀ t : ℝ, 0 ≤ t → t < n → (Inside (postProcess n E) t ↔ ¬ Inside E t) := by
  obtain ⟨m, hm⟩ := he
  obtain ⟨a, l, rfl⟩ : ∃ a l, E = a :: l := by
    cases E with
    | nil => exact absurd rfl hE
    | cons a l => exact ⟨a, l, rfl⟩
  unfold postProcess
  simp only [List.head?_cons, Option.some.injEq, List.tail_cons]
  -- the first step
  have step1 : ∃ E1 : List ℝ, (if a = 0 then l else 0 :: a :: l) = E1 ∧ E1 ≠ [] ∧ ¬ Even E1.length ∧
      E1.IsChain (fun a b => a + w ≤ b) ∧ (∀ e ∈ E1, 0 ≤ e ∧ e ≤ (n : ℝ)) ∧
      ∀ t : ℝ, 0 ≤ t → (Inside E1 t ↔ ¬ Inside (a :: l) t) := by
    refine ⟨_, rfl, ?_⟩
    split
    · rename_i h0
      subst h0
      refine ⟨?_, ?_, ?_, fun e he => hr e (by simp [he]), ?_⟩
      · rintro rfl
        simp at hm
        omega
      · simp only [List.length_cons] at hm
        rw [Nat.even_iff]
        omega
      · cases l with
        | nil => simp
        | cons b l => exact (List.isChain_cons_cons.1 hc).2
      · intro t ht
        unfold Inside
        rw [List.countP_cons]
        simp only [ht, decide_true, if_true]
        rw [Nat.odd_add_one, not_not]
    · rename_i h0
      refine ⟨by simp, ?_, ?_, ?_, ?_⟩
      · rw [List.length_cons, hm, Nat.even_iff]
        omega
      · rw [List.isChain_cons_cons]
        refine ⟨?_, hc⟩
        rcases hh a rfl with h | h
        · exact absurd h h0
        · linarith
      · intro e he
        rcases List.mem_cons.1 he with rfl | he
        · exact ⟨le_rfl, Nat.cast_nonneg n⟩
        · exact hr e he
      · intro t ht
        unfold Inside
        rw [List.countP_cons (a := (0 : ℝ))]
        simp only [ht, decide_true, if_true]
        rw [Nat.odd_add_one]
  obtain ⟨E1, h1, h2, h3, h4, h5, h6⟩ := step1
  rw [h1]
  have hsort : E1.Pairwise (· ≤ ·) := by
    have : E1.IsChain (· ≤ ·) := h4.imp fun a b h => by linarith
    exact List.isChain_iff_pairwise.1 this
  split
  · rename_i hl
    have hE1 : E1 = E1.dropLast ++ [(n : ℝ)] := by
      rw [List.getLast?_eq_some_getLast h2] at hl
      have := List.dropLast_append_getLast h2
      rw [Option.some.injEq] at hl
      rw [hl] at this
      exact this.symm
    refine ⟨?_, hsort.sublist (List.dropLast_sublist _), fun e he => h5 e (List.mem_of_mem_dropLast he), ?_, ?_⟩
    · have := congrArg List.length hE1
      rw [List.length_append] at this
      simp only [List.length_cons, List.length_nil] at this
      rw [Nat.even_iff] at h3 ⊢
      omega
    · have c : E1.dropLast.IsChain fun a b => a + w ≤ b := by
        rw [hE1, List.isChain_append] at h4
        exact h4.1
      cases hd : E1.dropLast.reverse with
      | nil => simp [List.reverse_eq_nil_iff.1 hd]
      | cons b r =>
        have : E1.dropLast = r.reverse ++ [b] := by
          have := congrArg List.reverse hd
          simpa using this
        rw [this] at c ⊢
        rw [List.dropLast_concat]
        exact (List.isChain_append.1 c).1
    · intro t ht htn
      rw [← h6 t ht]
      conv_rhs => rw [hE1]
      unfold Inside
      rw [List.countP_append]
      simp [not_le.2 htn]
  · refine ⟨?_, ?_, ?_, ?_, ?_⟩
    · rw [List.length_append]
      simp only [List.length_cons, List.length_nil]
      rw [Nat.even_iff] at h3 ⊢
      omega
    · rw [List.pairwise_append]
      refine ⟨hsort, by simp, ?_⟩
      intro a ha b hb
      simp only [List.mem_singleton] at hb
      rw [hb]
      exact (h5 a ha).2
    · intro e he
      rcases List.mem_append.1 he with he | he
      · exact h5 e he
      · simp only [List.mem_singleton] at he
        rw [he]
        exact ⟨Nat.cast_nonneg n, le_rfl⟩
    · rw [List.dropLast_concat]
      exact h4
    · intro t ht htn
      rw [← h6 t ht]
      unfold Inside
      rw [List.countP_append]
      simp [not_le.2 htn]

theorem discretize_eq (x : List ℝ) (f dx : ℝ) (hf : 1 ≤ f / dx) :
    discretize x f dx = (getEdgeLoc x (f / dx)).map (postProcess x.length) := by
  unfold discretize
  rw [if_neg (not_lt.2 hf)]

/-- **C30** (partial: not the last gap). The edge list given to the grating parametrization is sorted, has even length and lies on
the grating; all its gaps but the last are at least the rounded feature size. -/
theorem discretize_min_feature_partial (x : List ℝ) (hx : ∀ a ∈ x, 0 ≤ a ∧ a ≤ 1) (f dx : ℝ) (hf : 1 ≤ f / dx)
    (hfn : f / dx ≤ x.length) : ∃ v w, discretize x f dx = some v ∧ (w ≤ f / dx ∧ f / dx < w + 1 / 5) ∧ Even v.length ∧
      v.Pairwise (· ≤ ·) ∧ (∀ e ∈ v, 0 ≤ e ∧ e ≤ x.length) ∧ v.dropLast.IsChain (fun a b => a + w ≤ b) := by
  obtain ⟨E, w, e1, e2, e3, e4, e5, e6, e7⟩ := fit_min_feature x hx (f / dx) hf hfn
  have hw : 0 ≤ w := by linarith [e2.2]
  obtain ⟨p1, p2, p3, p4, _⟩ := postProcess_chain x.length w hw E e3 e4 e5 e6 e7
  refine ⟨postProcess x.length E, w, ?_, e2, p1, p2, p3, p4⟩
  rw [discretize_eq x f dx hf, e1]
  rfl

/-- A feature size below a pixel is refused. -/
theorem discretize_refuses (x : List ℝ) (f dx : ℝ) (hf : f / dx < 1) : discretize x f dx = none := by
  unfold discretize
  rw [if_pos hf]

/-- **C30** (violated by the last gap). Pixels that are all 0 and a feature size of one pixel: the result has a wall of a fifth of
a pixel. -/
theorem discretize_min_feature_false : ¬ ∀ (x : List ℚ), (∀ a ∈ x, 0 ≤ a ∧ a ≤ 1) → ∀ f dx : ℚ, 1 ≤ f / dx → f / dx ≤ x.length →
    ∃ v, discretize x f dx = some v ∧ v.IsChain (fun a b => a + (f / dx - 1 / 5) ≤ b) := by
  intro H
  obtain ⟨v, h1, h2⟩ := H [0, 0] (by decide +kernel) 1 1 (by norm_num) (by norm_num)
  have e1 : discretize ([0, 0] : List ℚ) 1 1 = some [9 / 5, 2] := by decide +kernel
  rw [e1] at h1
  cases h1
  revert h2
  norm_num

/-! ### The error is that of the rendered structure -/

theorem ramp_fifth (q e : Nat) : ramp (q : ℝ) ((e : ℝ) / 5) = (∑ r ∈ Finset.range 5, if 5 * q + r < e then (1 : ℝ) else 0) / 5 := by
  unfold ramp
  simp only [Finset.sum_range_succ, Finset.sum_range_zero]
  rcases Nat.lt_or_ge e (5 * q) with h | h
  · have : (e : ℝ) ≤ 5 * q := by exact_mod_cast h.le
    rw [max_eq_right (by linarith), min_eq_left (by linarith)]
    simp only [show ¬ 5 * q + 0 < e by omega, show ¬ 5 * q + 1 < e by omega, show ¬ 5 * q + 2 < e by omega,
      show ¬ 5 * q + 3 < e by omega, show ¬ 5 * q + 4 < e by omega, if_false]
    ring
  · obtain ⟨s, rfl⟩ := Nat.exists_eq_add_of_le h
    rcases Nat.lt_or_ge s 5 with h5 | h5
    · have h1 : ((5 * q + s : Nat) : ℝ) / 5 = q + s / 5 := by
        push_cast
        ring
      rw [h1]
      have h2 : (0 : ℝ) ≤ s / 5 := by positivity
      have h3 : (s : ℝ) / 5 ≤ 1 := by
        have : (s : ℝ) ≤ 5 := by exact_mod_cast h5.le
        linarith
      rw [max_eq_left (by linarith), min_eq_left (by linarith)]
      simp only [Nat.add_lt_add_iff_left]
      interval_cases s <;> norm_num
    · have h1 : ((5 * q + s : Nat) : ℝ) / 5 = q + s / 5 := by
        push_cast
        ring
      rw [h1]
      have h3 : 1 ≤ (s : ℝ) / 5 := by
        have : (5 : ℝ) ≤ s := by exact_mod_cast h5
        linarith
      rw [max_eq_left (by linarith), min_eq_right (by linarith)]
      simp only [Nat.add_lt_add_iff_left, show 0 < s by omega, show 1 < s by omega, show 2 < s by omega,
        show 3 < s by omega, show 4 < s by omega, if_true]
      norm_num

theorem signed_fill (q : Nat) : ∀ (m : Nat) (S : List Nat), S.length = 2 * m → S.Pairwise (· ≤ ·) →
    signed (q : ℝ) (S.map fun e : Nat => (e : ℝ) / 5) = 1 - fill S q := by
  intro m
  induction m with
  | zero =>
    intro S hl _
    obtain rfl : S = [] := List.length_eq_zero_iff.1 (by omega)
    rw [fill_one _ _ fun r _ => by simp [Solid]]
    simp [signed]
  | succ m ih =>
    intro S hl hs
    match S, hl, hs with
    | a :: b :: l, hl, hs =>
      obtain ⟨s1, s2⟩ := List.pairwise_cons.1 hs
      obtain ⟨s3, s4⟩ := List.pairwise_cons.1 s2
      have hab : a ≤ b := s1 b (by simp)
      have ih := ih l (by simp at hl; omega) s4
      simp only [List.map_cons, signed]
      rw [ih, ramp_fifth, ramp_fifth]
      have key : ∀ r ∈ Finset.range 5, (if Solid (a :: b :: l) (5 * q + r) then (1 : ℝ) else 0) =
          (if Solid l (5 * q + r) then 1 else 0) + (if 5 * q + r < a then 1 else 0) - (if 5 * q + r < b then 1 else 0) := by
        intro r _
        generalize 5 * q + r = p
        by_cases h1 : a ≤ p <;> by_cases h2 : b ≤ p
        · have : Solid (a :: b :: l) p ↔ Solid l p := by
            unfold Solid
            rw [List.countP_cons, List.countP_cons]
            simp only [h1, h2, decide_true, if_true]
            rw [Nat.even_add_one, Nat.even_add_one, not_not]
          simp only [this, not_lt.2 h1, not_lt.2 h2, if_false]
          ring
        · have hz : l.countP (fun e => decide (e ≤ p)) = 0 := by
            rw [List.countP_eq_zero]
            intro e he
            have := s3 e he
            simp only [decide_eq_true_eq, not_le]
            omega
          have e1 : ¬ Solid (a :: b :: l) p := by
            unfold Solid
            rw [List.countP_cons, List.countP_cons]
            simp [h1, h2, hz]
          have e2 : Solid l p := by
            unfold Solid
            simp [hz]
          simp only [e1, e2, not_lt.2 h1, not_le.1 h2, if_false, if_true]
          norm_num
        · omega
        · have : Solid (a :: b :: l) p ↔ Solid l p := by
            unfold Solid
            rw [List.countP_cons, List.countP_cons]
            simp [h1, h2]
          simp only [this, not_le.1 h1, not_le.1 h2, if_true]
          ring
      unfold fill
      rw [Finset.sum_congr rfl key, Finset.sum_sub_distrib, Finset.sum_add_distrib]
      ring

/-- **C66**. The structure rendered by the grating parametrization after the discretisation is the closest to the continuous
structure `x`, in the sum of squares, among the renderings `R` of all edge lists on the lattice that respect the feature size (except
one hole from end to end). -/
theorem discretize_optimal (x : List ℝ) (hx : ∀ a ∈ x, 0 ≤ a ∧ a ≤ 1) (f dx : ℝ) (hf : 1 ≤ f / dx) (hfn : f / dx ≤ x.length)
    (p : GratingParam) (hp : p.numPixels = x.length) (hi : p.inverted = false) :
    ∃ v l, discretize x f dx = some v ∧ (p.decode v).getStructure = some l ∧ l.length = x.length ∧
      ∀ S, LatticeEdges ⌊f / dx * 5⌋₊ x.length S → S ≠ [0, 5 * x.length] →
        ∑ q ∈ Finset.range x.length, (l.getD q 0 - x.getD q 0) ^ 2 ≤
        ∑ q ∈ Finset.range x.length, (pixelPart q (fun t => ¬ Inside (S.map fun e : Nat => (e : ℝ) / 5) t) - x.getD q 0) ^ 2 := by
  obtain ⟨S, e1, e2, e3⟩ := fit_optimal x hx (f / dx) hf hfn
  obtain ⟨f1, f2, f3⟩ := floor_bounds (f / dx) hf
  have hn : 1 ≤ x.length := by
    have h5 : (1 : ℝ) ≤ x.length := hf.trans hfn
    exact_mod_cast h5
  -- rendering of lattice edges
  have hrender : ∀ T, LatticeEdges ⌊f / dx * 5⌋₊ x.length T → ∀ q,
      pixelPart q (fun t => ¬ Inside (T.map fun e : Nat => (e : ℝ) / 5) t) = fill T q := by
    rintro T ⟨t1, ⟨m, t2⟩, t3, t4, t5⟩ q
    have hsT : T.Pairwise (· ≤ ·) := by
      have : T.IsChain (· ≤ ·) := t3.imp fun a b h => by omega
      exact List.isChain_iff_pairwise.1 this
    have hsT' : (T.map fun e : Nat => (e : ℝ) / 5).Pairwise (· ≤ ·) := by
      rw [List.pairwise_map]
      refine hsT.imp fun {a b} h => ?_
      have : (a : ℝ) ≤ b := by exact_mod_cast h
      linarith
    obtain ⟨l, h1, h2, h3⟩ := structure_signed ⟨T.map fun e : Nat => (e : ℝ) / 5, q + 1, true⟩ (by simp)
      (by rw [List.length_map]; exact ⟨m, t2⟩) hsT'
    obtain ⟨l', h1', h2', h3'⟩ := grating_structure ⟨T.map fun e : Nat => (e : ℝ) / 5, q + 1, true⟩ (by simp)
      (by rw [List.length_map]; exact ⟨m, t2⟩) hsT'
    rw [h1] at h1'
    cases h1'
    have h4 := h3 q (by simp)
    rw [h3' q (by simp)] at h4
    simp only [if_true, Option.some.injEq] at h4
    rw [h4, signed_fill q m T (by omega) hsT]
    ring
  obtain ⟨l1, l2, l3, l4, l5⟩ := e2
  have hE : ∀ e ∈ S.map (fun e : Nat => (e : ℝ) / 5), 0 ≤ e ∧ e ≤ (x.length : ℝ) := by
    intro e he
    rw [List.mem_map] at he
    obtain ⟨a, ha, rfl⟩ := he
    refine ⟨by positivity, ?_⟩
    have : (a : ℝ) ≤ ((5 * x.length : Nat) : ℝ) := by exact_mod_cast l4 a ha
    push_cast at this
    linarith
  obtain ⟨p1, p2, p3, p4, p5⟩ := postProcess_chain x.length 0 le_rfl (S.map fun e : Nat => (e : ℝ) / 5) (by simpa using l1)
    (by simpa using l2) (by
      rw [List.isChain_map]
      refine l3.imp fun a b hab => ?_
      have : (a : ℝ) ≤ b := by exact_mod_cast (by omega : a ≤ b)
      linarith) hE (fun e he => Or.inr (hE e (List.mem_of_head? he)).1)
  have hdec : (p.decode (postProcess x.length (S.map fun e : Nat => (e : ℝ) / 5))).edges =
      postProcess x.length (S.map fun e : Nat => (e : ℝ) / 5) := npSort_of_sorted _ p2
  obtain ⟨l, g1, g2, g3⟩ := grating_structure (p.decode (postProcess x.length (S.map fun e : Nat => (e : ℝ) / 5)))
    (by show 1 ≤ p.numPixels; omega) (by rw [hdec]; exact p1) (by rw [hdec]; exact p2)
  refine ⟨_, l, by rw [discretize_eq x f dx hf, e1]; rfl, g1, g2.trans hp, ?_⟩
  intro T hT hne
  have hl : ∀ q ∈ Finset.range x.length, (l.getD q 0 - x.getD q 0) ^ 2 = (fill S q - x.getD q 0) ^ 2 := by
    intro q hq
    have hq := Finset.mem_range.1 hq
    rw [List.getD_eq_getElem?_getD (l := l), g3 q (by show q < p.numPixels; omega), Option.getD_some]
    have : (p.decode (postProcess x.length (S.map fun e : Nat => (e : ℝ) / 5))).inverted = false := hi
    rw [this, hdec]
    simp only [Bool.false_eq_true, if_false]
    have hqn : (q : ℝ) + 1 ≤ x.length := by exact_mod_cast hq
    have hset : pixelPart q (fun t => Inside (postProcess x.length (S.map fun e : Nat => (e : ℝ) / 5)) t) =
        pixelPart q (fun t => ¬ Inside (S.map fun e : Nat => (e : ℝ) / 5) t) := by
      unfold pixelPart
      congr 1
      ext t
      simp only [Set.mem_ofPred_eq]
      constructor
      · rintro ⟨h1, h2, h3⟩
        exact ⟨h1, h2, (p5 t (le_trans (Nat.cast_nonneg q) h1) (by linarith)).1 h3⟩
      · rintro ⟨h1, h2, h3⟩
        exact ⟨h1, h2, (p5 t (le_trans (Nat.cast_nonneg q) h1) (by linarith)).2 h3⟩
    rw [hset, hrender S ⟨l1, l2, l3, l4, l5⟩ q]
  rw [Finset.sum_congr rfl hl, Finset.sum_congr rfl (fun q _ => by rw [hrender T hT q] : ∀ q ∈ Finset.range x.length,
    (pixelPart q (fun t => ¬ Inside (T.map fun e : Nat => (e : ℝ) / 5) t) - x.getD q 0) ^ 2 = (fill T q - x.getD q 0) ^ 2)]
  exact e3 T hT hne

end Verif.Grating
