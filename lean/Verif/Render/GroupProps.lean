import Verif.Render.Group
import Mathlib.Data.List.Sort
import Mathlib.Tactic.Common
/-
C28 (order of the shapes of a group) and C63 (gradients of a group go back to their shapes).
-/
set_option linter.unusedVariables false
namespace Verif.Render
variable {α γ : Type}

/-! ### Specification -/

mutual
/-- The shapes of a flow, from left to right, with their priorities. -/
def shapesOf : Flow α → List (α × Int)
  | .shape a p => [(a, p)]
  | .array fs => shapesOfList fs
def shapesOfList : List (Flow α) → List (α × Int)
  | [] => []
  | f :: fs => shapesOf f ++ shapesOfList fs
end

/-- `m` is `l` sorted by priority with ties in the order of `l`. -/
structure StableSort (l m : List (α × Int)) : Prop where
  sorted : m.Pairwise fun a b => a.2 ≤ b.2
  ties : ∀ p, (m.filter fun a => a.2 = p) = l.filter fun a => a.2 = p

mutual
/-- The gradients of the shapes, at the places of the shapes. -/
def gradsAt (G : α → List Nat → γ) : Flow α → List Nat → GradFlow γ
  | .shape a _, path => .grad (some (G a path))
  | .array fs, path => .array (gradsAtList G fs path 0)
def gradsAtList (G : α → List Nat → γ) : List (Flow α) → List Nat → Nat → List (GradFlow γ)
  | [], _, _ => []
  | f :: fs, path, i => gradsAt G f (path ++ [i]) :: gradsAtList G fs path (i + 1)
end

/-! ### Order -/

mutual
theorem extFlow_shapes : ∀ (f : Flow α) (path : List Nat),
    (extFlow f path).map (fun e => (e.flow, e.priority)) = shapesOf f
  | .shape a p, path => rfl
  | .array fs, path => extFlows_shapes fs path 0
theorem extFlows_shapes : ∀ (fs : List (Flow α)) (path : List Nat) (i : Nat),
    (extFlows fs path i).map (fun e => (e.flow, e.priority)) = shapesOfList fs
  | [], _, _ => rfl
  | f :: fs, path, i => by
    rw [extFlows, List.map_append, extFlow_shapes f, extFlows_shapes fs, shapesOfList]
end

theorem sortedExt_perm (inputs : List (Flow α)) : (sortedExt inputs).Perm (extFlows inputs [] 0) := by
  unfold sortedExt
  exact List.mergeSort_perm _ _

theorem prio_total (a b : Ext α) : (decide (a.priority ≤ b.priority) || decide (b.priority ≤ a.priority)) = true := by
  simp only [Bool.or_eq_true, decide_eq_true_eq]
  exact le_total _ _

theorem prio_trans (a b c : Ext α) (h1 : decide (a.priority ≤ b.priority) = true)
    (h2 : decide (b.priority ≤ c.priority) = true) : decide (a.priority ≤ c.priority) = true := by
  simp only [decide_eq_true_eq] at *
  exact h1.trans h2

/-- A stable sort keeps the elements of one priority as they are. -/
theorem mergeSort_ties (l : List (Ext α)) (p : Int) :
    ((l.mergeSort fun a b => decide (a.priority ≤ b.priority)).filter fun a => a.priority = p) =
      l.filter fun a => a.priority = p := by
  have hsub : (l.filter fun a => decide (a.priority = p)).Sublist
      (l.mergeSort fun a b => decide (a.priority ≤ b.priority)) := by
    refine List.sublist_mergeSort prio_trans prio_total ?_ List.filter_sublist
    rw [List.pairwise_filter]
    refine List.pairwise_iff_getElem.2 fun i j hi hj hij h1 h2 => ?_
    simp only [decide_eq_true_eq] at *
    omega
  have h2 := hsub.filter fun a => decide (a.priority = p)
  rw [List.filter_filter] at h2
  simp only [Bool.and_self] at h2
  refine (h2.eq_of_length ?_).symm
  exact ((List.mergeSort_perm l _).filter _).length_eq.symm

/-- **C28**. Every group, nested in any way, renders its shapes in the order of their priorities, and shapes of the same
priority in the order in which they appear; every shape is there as often as it was given. -/
theorem group_order (inputs : List (Flow α)) :
    ∃ m : List (α × Int), groupEval inputs = m.map Prod.fst ∧ StableSort (shapesOfList inputs) m ∧
      m.Perm (shapesOfList inputs) := by
  refine ⟨(sortedExt inputs).map fun e => (e.flow, e.priority), ?_, ⟨?_, ?_⟩, ?_⟩
  · simp [groupEval, Function.comp_def]
  · rw [List.pairwise_map]
    have := List.pairwise_mergeSort (le := fun a b : Ext α => decide (a.priority ≤ b.priority)) prio_trans prio_total
      (extFlows inputs [] 0)
    exact this.imp fun {a b} h => by simpa using h
  · intro p
    rw [← extFlows_shapes inputs [] 0, List.filter_map, List.filter_map]
    exact congrArg _ (mergeSort_ties (extFlows inputs [] 0) p)
  · rw [← extFlows_shapes inputs [] 0]
    exact (sortedExt_perm inputs).map _

/-- The order is determined by this description. -/
theorem stableSort_unique (l m n : List (α × Int)) (hm : StableSort l m) (hn : StableSort l n) : m = n := by
  have key : ∀ (m n : List (α × Int)), (m.Pairwise fun a b => a.2 ≤ b.2) → (n.Pairwise fun a b => a.2 ≤ b.2) →
      (∀ p, (m.filter fun a => a.2 = p) = n.filter fun a => a.2 = p) → m = n := by
    intro m
    induction m with
    | nil =>
      intro n _ _ h
      cases n with
      | nil => rfl
      | cons b n => have := h b.2; simp at this
    | cons a m ih =>
      intro n h1 h2 h
      cases n with
      | nil => have := h a.2; simp at this
      | cons b n =>
        obtain ⟨a1, a2⟩ := List.pairwise_cons.1 h1
        obtain ⟨b1, b2⟩ := List.pairwise_cons.1 h2
        have hab : a.2 = b.2 := by
          have ha : a ∈ (b :: n).filter fun x => decide (x.2 = a.2) := by rw [← h a.2]; simp
          have hb : b ∈ (a :: m).filter fun x => decide (x.2 = b.2) := by rw [h b.2]; simp
          have ha' := (List.mem_filter.1 ha).1
          have hb' := (List.mem_filter.1 hb).1
          have l1 : b.2 ≤ a.2 := by
            rcases List.mem_cons.1 ha' with h | h
            · rw [h]
            · exact b1 a h
          have l2 : a.2 ≤ b.2 := by
            rcases List.mem_cons.1 hb' with h | h
            · rw [h]
            · exact a1 b h
          omega
        have hh := h a.2
        rw [List.filter_cons_of_pos (by simp), List.filter_cons_of_pos (by simp [hab])] at hh
        have hab' : a = b := (List.cons.inj hh).1
        subst hab'
        congr 1
        refine ih n a2 b2 fun p => ?_
        have hp := h p
        by_cases hpa : a.2 = p
        · rw [List.filter_cons_of_pos (by simp [hpa]), List.filter_cons_of_pos (by simp [hpa])] at hp
          exact (List.cons.inj hp).2
        · rwa [List.filter_cons_of_neg (by simp [hpa]), List.filter_cons_of_neg (by simp [hpa])] at hp
  exact key m n hm.sorted hn.sorted fun p => (hm.ties p).trans (hn.ties p).symm

theorem shapesOfList_append (l m : List (Flow α)) : shapesOfList (l ++ m) = shapesOfList l ++ shapesOfList m := by
  induction l with
  | nil => rfl
  | cons f l ih => rw [List.cons_append, shapesOfList, shapesOfList, ih, List.append_assoc]

theorem shapesOfList_map (l : List (Ext α)) :
    shapesOfList (l.map fun e => Flow.shape e.flow e.priority) = l.map fun e => (e.flow, e.priority) := by
  induction l with
  | nil => rfl
  | cons e l ih => simp [shapesOfList, shapesOf, ih]

/-- **C28**. A group inside a group: giving the output of a group (an array of shapes in the order of the inner group) is
the same as giving its shapes themselves. -/
theorem group_nested (pre inner post : List (Flow α)) :
    groupEval (pre ++ [Flow.array ((sortedExt inner).map fun e => Flow.shape e.flow e.priority)] ++ post) =
      groupEval (pre ++ inner ++ post) := by
  obtain ⟨m, hm, sm, _⟩ := group_order (pre ++ [Flow.array ((sortedExt inner).map fun e =>
    Flow.shape e.flow e.priority)] ++ post)
  obtain ⟨n, hn, sn, _⟩ := group_order (pre ++ inner ++ post)
  rw [hm, hn]
  congr 1
  refine stableSort_unique (shapesOfList (pre ++ inner ++ post)) m n ⟨sm.sorted, fun p => ?_⟩ sn
  rw [sm.ties p]
  simp only [shapesOfList_append, List.filter_append, shapesOfList, shapesOf, shapesOfList_map, List.append_nil]
  congr 2
  rw [← extFlows_shapes inner [] 0, List.filter_map, List.filter_map]
  exact congrArg _ (mergeSort_ties (extFlows inner [] 0) p)

/-- Ties and nesting. -/
example : groupEval [Flow.shape 1 0, Flow.array [Flow.shape 2 5, Flow.shape 3 0], Flow.shape 4 (-1), Flow.shape 5 0]
    = [4, 1, 3, 5, 2] := by
  simp [groupEval, sortedExt, extFlows, extFlow, List.mergeSort, List.MergeSort.Internal.splitInTwo]

/-! ### Gradients -/

mutual
theorem extFlow_path : ∀ (f : Flow α) (path : List Nat) (e : Ext α), e ∈ extFlow f path → ∃ r, e.path = path ++ r
  | .shape a p, path, e, h => by
    rw [extFlow, List.mem_singleton] at h
    exact ⟨[], by rw [h, List.append_nil]⟩
  | .array fs, path, e, h => by
    obtain ⟨j, r, _, hr⟩ := extFlows_path fs path 0 e h
    exact ⟨_, hr⟩
theorem extFlows_path : ∀ (fs : List (Flow α)) (path : List Nat) (i : Nat) (e : Ext α), e ∈ extFlows fs path i →
    ∃ j r, i ≤ j ∧ e.path = path ++ (j :: r)
  | [], path, i, e, h => by simp [extFlows] at h
  | f :: fs, path, i, e, h => by
    rw [extFlows, List.mem_append] at h
    rcases h with h | h
    · obtain ⟨r, hr⟩ := extFlow_path f (path ++ [i]) e h
      exact ⟨i, r, le_refl i, by rw [hr, List.append_assoc]; rfl⟩
    · obtain ⟨j, r, hj, hr⟩ := extFlows_path fs path (i + 1) e h
      exact ⟨j, r, by omega, hr⟩
end

mutual
theorem extFlow_nodup : ∀ (f : Flow α) (path : List Nat), ((extFlow f path).map (·.path)).Nodup
  | .shape a p, path => by simp [extFlow]
  | .array fs, path => extFlows_nodup fs path 0
theorem extFlows_nodup : ∀ (fs : List (Flow α)) (path : List Nat) (i : Nat),
    ((extFlows fs path i).map (·.path)).Nodup
  | [], _, _ => by simp [extFlows]
  | f :: fs, path, i => by
    rw [extFlows, List.map_append]
    refine List.nodup_append.2 ⟨extFlow_nodup f _, extFlows_nodup fs _ _, ?_⟩
    intro a ha b hb hab
    obtain ⟨e1, h1, rfl⟩ := List.mem_map.1 ha
    obtain ⟨e2, h2, rfl⟩ := List.mem_map.1 hb
    obtain ⟨r1, hr1⟩ := extFlow_path f _ e1 h1
    obtain ⟨j, r2, hj, hr2⟩ := extFlows_path fs _ _ e2 h2
    rw [hr1, hr2, List.append_assoc] at hab
    have := List.append_cancel_left hab
    have := (List.cons.inj this).1
    omega
end

/-- After the loop, each entry holds the gradient set for it. -/
theorem heap_spec (G : α → List Nat → γ) (l : List (Ext α)) (hl : (l.map (·.path)).Nodup) (h0 : List Nat → Option γ)
    (e : Ext α) (he : e ∈ l) :
    ((l.map fun e => G e.flow e.path).zip l).foldl (fun h ge => setEntry h ge.2.path ge.1) h0 e.path =
      some (G e.flow e.path) := by
  have keep : ∀ (l : List (Ext α)) (h0 : List Nat → Option γ) (q : List Nat), q ∉ l.map (·.path) →
      ((l.map fun e => G e.flow e.path).zip l).foldl (fun h ge => setEntry h ge.2.path ge.1) h0 q = h0 q := by
    intro l
    induction l with
    | nil => intro h0 q _; rfl
    | cons a l ih =>
      intro h0 q hq
      simp only [List.map_cons, List.mem_cons, not_or] at hq
      simp only [List.map_cons, List.zip_cons_cons, List.foldl_cons]
      rw [ih _ q hq.2, setEntry, if_neg hq.1]
  induction l generalizing h0 with
  | nil => cases he
  | cons a l ih =>
    simp only [List.map_cons, List.nodup_cons] at hl
    simp only [List.map_cons, List.zip_cons_cons, List.foldl_cons]
    rcases List.mem_cons.1 he with h | h
    · subst h
      rw [keep l _ _ hl.1, setEntry, if_pos rfl]
    · exact ih hl.2 _ h

mutual
theorem readFlow_spec (G : α → List Nat → γ) (heap : List Nat → Option γ) : ∀ (f : Flow α) (path : List Nat),
    (∀ e ∈ extFlow f path, heap e.path = some (G e.flow e.path)) → readFlow heap f path = gradsAt G f path
  | .shape a p, path, h => by
    have := h ⟨a, path, p⟩ (by simp [extFlow])
    rw [readFlow, gradsAt]
    exact congrArg _ this
  | .array fs, path, h => by
    rw [readFlow, gradsAt, readFlows_spec G heap fs path 0 h]
theorem readFlows_spec (G : α → List Nat → γ) (heap : List Nat → Option γ) :
    ∀ (fs : List (Flow α)) (path : List Nat) (i : Nat),
    (∀ e ∈ extFlows fs path i, heap e.path = some (G e.flow e.path)) → readFlows heap fs path i = gradsAtList G fs path i
  | [], _, _, _ => rfl
  | f :: fs, path, i, h => by
    rw [readFlows, gradsAtList, readFlow_spec G heap f _ fun e he => h e (by rw [extFlows]; exact List.mem_append_left _ he),
      readFlows_spec G heap fs path (i + 1) fun e he => h e (by rw [extFlows]; exact List.mem_append_right _ he)]
end

/-- **C63**. For every group, nested in any way and with any priorities, and gradients in the order of the output, `grad`
returns one gradient per input, with the structure of the inputs, and each shape gets the gradient of its own output. -/
theorem group_grad_routes (inputs : List (Flow α)) (G : α → List Nat → γ) :
    groupGrad inputs ((sortedExt inputs).map fun e => G e.flow e.path) = gradsAtList G inputs [] 0 := by
  unfold groupGrad
  refine readFlows_spec G _ inputs [] 0 fun e he => ?_
  have hp := sortedExt_perm inputs
  refine heap_spec G (sortedExt inputs) ?_ _ e (hp.mem_iff.2 he)
  exact (hp.map _).nodup_iff.2 (extFlows_nodup inputs [] 0)

/-- The constant flags of a group are those of its inputs in the order of the inputs, but its output is in the order of the
priorities: with different priorities the flags describe the wrong shapes. -/
theorem group_flags_false : ∃ (shapes : List (Nat × Int)) (flagOf : Nat → Bool),
    groupFlags (shapes.map fun s => flagOf s.1) ≠
      (groupEval (shapes.map fun s => Flow.shape s.1 s.2)).map flagOf := by
  refine ⟨[(0, 1), (1, 0)], fun n => n == 0, ?_⟩
  simp [groupFlags, groupEval, sortedExt, extFlows, extFlow, List.mergeSort, List.MergeSort.Internal.splitInTwo]

end Verif.Render
