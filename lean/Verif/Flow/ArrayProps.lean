import Verif.Flow.Array
import Verif.Flow.ClassesProps
import Mathlib.Tactic.NormNum
import Mathlib.Tactic.Tauto
import Mathlib.Algebra.Field.Rat
/-
C78: gradients of array flows. C80: outputs of array operations.
-/
namespace Verif.Flow
variable {γ : Type}

/-! ### C78: specification -/

/-- The gradients given for entry `k`, in order. -/
def given (n : Nat) (k : Nat) (cs : List (Int × γ)) : List γ :=
  (cs.filter fun c => pyIndex n c.1 = some k).map Prod.snd

/-- The sum of a list of gradients, `none` for the empty list. -/
def total (add : γ → γ → Except Err γ) : List γ → Except Err (Option γ)
  | [] => .ok none
  | g :: gs => (gs.foldlM add g).map some

/-! ### Lemmas -/

/-- Continuing a sum. -/
def totalFrom (add : γ → γ → Except Err γ) : Option γ → List γ → Except Err (Option γ)
  | none, gs => total add gs
  | some a, gs => (gs.foldlM add a).map some

theorem pyIndex_lt {n : Nat} {i : Int} {k : Nat} (h : pyIndex n i = some k) : k < n := by
  unfold pyIndex at h
  split at h
  · split at h
    · cases h; omega
    · cases h
  · split at h
    · cases h; omega
    · cases h

theorem foldlM_cons_ok {add : γ → γ → Except Err γ} {a b c : γ} {gs : List γ}
    (h : add a b = .ok c) : (b :: gs).foldlM add a = gs.foldlM add c := by
  rw [List.foldlM_cons, h]
  rfl

theorem iaddArr_length {add : γ → γ → Except Err γ} : ∀ {xs ys zs : List (Option γ)},
    iaddArr add xs ys = .ok zs → zs.length = xs.length
  | [], _, zs, h => by unfold iaddArr at h; cases h; rfl
  | x :: xs, [], zs, h => by unfold iaddArr at h; cases h
  | x :: xs, y :: ys, zs, h => by
    unfold iaddArr at h
    split at h
    · cases h
    · cases hr : iaddArr add xs ys with
      | error e => rw [hr] at h; cases h
      | ok ws =>
        rw [hr] at h
        cases h
        simp [iaddArr_length hr]

/-- Adding a one-entry gradient. -/
theorem iaddArr_single {add : γ → γ → Except Err γ} (g : γ) :
    ∀ (xs zs : List (Option γ)) (k : Nat), k < xs.length →
    iaddArr add xs ((List.replicate xs.length none).set k (some g)) = .ok zs →
    ∀ j < xs.length, ∀ gs,
      totalFrom add (xs.getD j none) ((if j = k then [g] else []) ++ gs) =
        totalFrom add (zs.getD j none) gs
  | [], _, _, hk, _ => by simp at hk
  | x :: xs, zs, 0, _, h => by
    intro j hj gs
    simp only [List.length_cons, List.replicate_succ, List.set_cons_zero] at h
    unfold iaddArr at h
    have hrest : ∀ (xs : List (Option γ)), iaddArr add xs (List.replicate xs.length none) =
        .ok xs := by
      intro xs
      induction xs with
      | nil => rfl
      | cons x xs ih =>
        simp only [List.length_cons, List.replicate_succ]
        unfold iaddArr
        cases x <;> simp only [ih, iaddEntry] <;> rfl
    rw [hrest] at h
    cases x with
    | none =>
      simp only [iaddEntry] at h
      cases h
      cases j with
      | zero => simp only [if_true]; rfl
      | succ j => simp
    | some a =>
      simp only [iaddEntry] at h
      cases hab : add a g with
      | error e => rw [hab] at h; cases h
      | ok c =>
        rw [hab] at h
        cases h
        cases j with
        | zero =>
          simp only [if_true, List.getD_cons_zero, List.singleton_append, totalFrom]
          rw [foldlM_cons_ok hab]
        | succ j => simp
  | x :: xs, zs, k + 1, hk, h => by
    intro j hj gs
    simp only [List.length_cons, List.replicate_succ, List.set_cons_succ] at h
    unfold iaddArr at h
    have hz : iaddEntry add x none = .ok x := by cases x <;> rfl
    rw [hz] at h
    simp only at h
    cases hr : iaddArr add xs ((List.replicate xs.length none).set k (some g)) with
    | error e => rw [hr] at h; cases h
    | ok ws =>
      rw [hr] at h
      cases h
      cases j with
      | zero => simp
      | succ j =>
        have := iaddArr_single g xs ws k (by simpa using hk) hr j (by simpa using hj) gs
        simpa using this

theorem accArr_spec {add : γ → γ → Except Err γ} (n : Nat) :
    ∀ (cs : List (Int × γ)) (xs : List (Option γ)) (gs : List (List (Option γ)))
      (zs : List (Option γ)),
    xs.length = n → indexGrads n cs = .ok gs → accArr add xs gs = .ok zs →
    zs.length = n ∧
      ∀ j < n, totalFrom add (xs.getD j none) (given n j cs) = .ok (zs.getD j none)
  | [], xs, gs, zs, hx, hg, ha => by
    cases hg
    cases ha
    refine ⟨hx, fun j _ => ?_⟩
    show totalFrom add (xs.getD j none) [] = _
    cases xs.getD j none <;> rfl
  | (i, g) :: cs, xs, gs, zs, hx, hg, ha => by
    unfold indexGrads at hg
    split at hg
    · cases hg
    · rename_i y hy
      cases hr : indexGrads n cs with
      | error e => rw [hr] at hg; cases hg
      | ok gs' =>
        rw [hr] at hg
        cases hg
        unfold accArr at ha
        split at ha
        · cases ha
        · rename_i ws hws
          have hlen : ws.length = n := by rw [iaddArr_length hws, hx]
          obtain ⟨h1, h2⟩ := accArr_spec n cs ws gs' zs hlen hr ha
          refine ⟨h1, fun j hj => ?_⟩
          unfold indexGrad at hy
          split at hy
          · cases hy
          · rename_i k hk
            cases hy
            subst hx
            have hs := iaddArr_single (add := add) g xs ws k (pyIndex_lt hk) hws j hj
              (given xs.length j cs)
            rw [h2 j hj] at hs
            rw [← hs]
            congr 1
            unfold given
            rw [List.filter_cons]
            by_cases e : j = k
            · subst e
              simp [hk]
            · have : ¬ k = j := fun e' => e e'.symm
              simp [hk, e, this]

/-! ### C78 -/

/-- C78: for every array flow with `n` entries and every sequence of uses of its entries (with
positive or negative indices, each entry any number of times, in any order), the accumulated
gradient has one entry per flow: the sum of the gradients given for that entry, or `None` if there
was none. -/
theorem array_grad_entries {add : γ → γ → Except Err γ} (n : Nat) (cs : List (Int × γ))
    (r : List (Option γ)) (h : arrayGrad add n cs = .ok r) :
    r.length = n ∧ ∀ k < n, total add (given n k cs) = .ok (r.getD k none) := by
  unfold arrayGrad at h
  split at h
  · cases h
  · cases h
  · rename_i x xs hg
    cases cs with
    | nil => cases hg
    | cons c cs =>
      obtain ⟨i, g⟩ := c
      unfold indexGrads at hg
      split at hg
      · cases hg
      · rename_i y hy
        cases hr : indexGrads n cs with
        | error e => rw [hr] at hg; cases hg
        | ok gs' =>
          rw [hr] at hg
          cases hg
          unfold indexGrad at hy
          split at hy
          · cases hy
          · rename_i k hk
            cases hy
            obtain ⟨h1, h2⟩ := accArr_spec n cs _ xs r (by simp) hr h
            refine ⟨h1, fun j hj => ?_⟩
            rw [← h2 j hj]
            unfold given
            rw [List.filter_cons]
            by_cases e : j = k
            · subst e
              have : ((List.replicate n (none : Option γ)).set j (some g)).getD j none = some g := by
                rw [List.getD_eq_getElem?_getD, List.getElem?_set_self (by simpa using hj)]
                rfl
              rw [this]
              simp [hk, total, totalFrom]
            · have h3 : ¬ k = j := fun e' => e e'.symm
              have : ((List.replicate n (none : Option γ)).set k (some g)).getD j none = none := by
                rw [List.getD_eq_getElem?_getD, List.getElem?_set_ne h3]
                simp [hj]
              rw [this]
              simp [hk, h3, totalFrom]

theorem iaddArr_total {add : γ → γ → Except Err γ} (hadd : ∀ a b, ∃ c, add a b = .ok c) :
    ∀ xs ys : List (Option γ), xs.length ≤ ys.length → ∃ zs, iaddArr add xs ys = .ok zs
  | [], ys, _ => ⟨[], by unfold iaddArr; rfl⟩
  | x :: xs, [], h => by simp at h
  | x :: xs, y :: ys, h => by
    obtain ⟨zs, hz⟩ := iaddArr_total hadd xs ys (by simpa using h)
    unfold iaddArr
    rw [hz]
    cases x with
    | none => exact ⟨_, rfl⟩
    | some a =>
      cases y with
      | none => exact ⟨_, rfl⟩
      | some b =>
        obtain ⟨c, hc⟩ := hadd a b
        simp only [iaddEntry, hc]
        exact ⟨_, rfl⟩

/-- C78, no failure: when the entries' `+=` cannot fail and all indices are in range, accumulating
succeeds. -/
theorem array_grad_succeeds {add : γ → γ → Except Err γ} (hadd : ∀ a b, ∃ c, add a b = .ok c)
    (n : Nat) (cs : List (Int × γ)) (hne : cs ≠ []) (hcs : ∀ c ∈ cs, ∃ k, pyIndex n c.1 = some k) :
    ∃ r, arrayGrad add n cs = .ok r := by
  have hgs : ∀ cs : List (Int × γ), (∀ c ∈ cs, ∃ k, pyIndex n c.1 = some k) →
      ∃ gs, indexGrads n cs = .ok gs ∧ gs.length = cs.length ∧ ∀ g ∈ gs, g.length = n := by
    intro cs
    induction cs with
    | nil => intro _; exact ⟨[], rfl, rfl, by simp⟩
    | cons c cs ih =>
      intro h
      obtain ⟨k, hk⟩ := h c (by simp)
      obtain ⟨gs, h1, h2, h3⟩ := ih fun d hd => h d (List.mem_cons_of_mem _ hd)
      obtain ⟨i, g⟩ := c
      refine ⟨(List.replicate n none).set k (some g) :: gs, ?_, by simp [h2], ?_⟩
      · unfold indexGrads indexGrad
        simp only at hk
        rw [hk]
        simp only [h1]
        rfl
      · intro x hx
        rcases List.mem_cons.1 hx with rfl | hx
        · simp
        · exact h3 x hx
  have hacc : ∀ (gs : List (List (Option γ))) (xs : List (Option γ)), xs.length = n →
      (∀ g ∈ gs, g.length = n) → ∃ r, accArr add xs gs = .ok r := by
    intro gs
    induction gs with
    | nil => intro xs _ _; exact ⟨xs, rfl⟩
    | cons g gs ih =>
      intro xs hx hg
      obtain ⟨zs, hz⟩ := iaddArr_total hadd xs g (by rw [hx, hg g (by simp)])
      obtain ⟨r, hr⟩ := ih zs (by rw [iaddArr_length hz, hx]) fun y hy =>
        hg y (List.mem_cons_of_mem _ hy)
      refine ⟨r, ?_⟩
      unfold accArr
      rw [hz]
      exact hr
  obtain ⟨gs, h1, h2, h3⟩ := hgs cs hcs
  unfold arrayGrad
  rw [h1]
  cases gs with
  | nil =>
    cases cs with
    | nil => exact absurd rfl hne
    | cons c cs => simp at h2
  | cons x xs => exact hacc xs x (h3 x (by simp)) fun g hg => h3 g (List.mem_cons_of_mem _ hg)

/-- Non-vacuity: three uses of an array flow with three entries; the last one by a negative
index. -/
example : (arrayGrad (fun a b : ℚ => .ok (a + b)) 3 [(0, 1), (2, 10), (-1, 100)]).toOption =
    some [some 1, none, some 110] := by decide +kernel

/-- C78 with `IndexOp.eval`: the gradient of selecting entry `k` goes to entry `k`, the entry that
was selected. -/
theorem index_grad_adjoint {α : Type} (fs : List α) (i : Int) (g : γ) :
    (∃ f r k, indexEval fs i = .ok f ∧ indexGrad fs.length i g = .ok r ∧ fs[k]? = some f ∧
      r.length = fs.length ∧ ∀ j : Nat, r[j]? = if j < fs.length then
        some (if j = k then some g else none) else none) ∨
    (indexEval fs i = .error .indexError ∧ indexGrad fs.length i g = .error .indexError) := by
  unfold indexEval indexGrad
  cases hk : pyIndex fs.length i with
  | none => exact Or.inr ⟨rfl, rfl⟩
  | some k =>
    have hlt := pyIndex_lt hk
    refine Or.inl ⟨fs[k], _, k, ?_, rfl, List.getElem?_eq_getElem hlt, by simp, fun j => ?_⟩
    · simp [List.getElem?_eq_getElem hlt]
    · by_cases hj : j < fs.length
      · rw [if_pos hj]
        by_cases e : j = k
        · subst e
          rw [List.getElem?_set_self (by simpa using hj), if_pos rfl]
        · rw [List.getElem?_set_ne (fun e' => e e'.symm), if_neg e]
          simp [hj]
      · rw [if_neg hj, List.getElem?_eq_none (by simpa using hj)]

/-- C78 fails with the empty gradient object `ArrayFlow.Grad()`, which the executor creates when a
consumer returns `None` for an array flow (`graph_executor.py` 303-305): if it comes first, every
later gradient is silently lost; if it comes later, `+=` raises. -/
theorem array_grad_empty_false (add : γ → γ → Except Err γ) (gs : List (List (Option γ))) :
    accArr add [] gs = .ok [] ∧
    ∀ (x : Option γ) (xs : List (Option γ)), accArr add (x :: xs) ([] :: gs) =
      .error .indexError := by
  refine ⟨?_, fun x xs => rfl⟩
  induction gs with
  | nil => rfl
  | cons g gs ih =>
    unfold accArr iaddArr
    exact ih

/-- C77 inside arrays: a group of shapes used by two simulations. Each shape's position gradient is
`g₁ + 2 g₂`. -/
theorem array_shape_grad_doubled_false :
    ∃ (r : List (Option (Obj ℚ))) (s : Obj ℚ), arrayGrad (gradIadd goosEnv 3) 2
        [(0, fun _ => some (.num 1)), (1, fun _ => some (.num 5)), (0, fun _ => some (.num 10))] =
        .ok r ∧
      r.getD 0 none = some s ∧ s "pos" = some (.num 21) := by
  obtain ⟨s, hs, h⟩ := shape_grad_doubled (K := ℚ) 3 (by simp) "pos" (by simp)
    (fun _ => some (.num 1)) (fun _ => some (.num 10))
    (fun f _ => ⟨.num 1, .num 10, rfl, rfl, trivial⟩) _ _ rfl rfl
  refine ⟨[some s, some fun _ => some (.num 5)], s, ?_, rfl, ?_⟩
  · have : arrayGrad (gradIadd goosEnv 3) 2
        [(0, fun _ => some (.num (1 : ℚ))), (1, fun _ => some (.num 5)),
          (0, fun _ => some (.num 10))] =
        accArr (gradIadd goosEnv 3) [some fun _ => some (.num 1), none]
          [[none, some fun _ => some (.num 5)], [some fun _ => some (.num 10), none]] := rfl
    rw [this]
    simp only [accArr, iaddArr, iaddEntry, Except.map, hs]
  · rw [h]
    norm_num [Val.add]

/-! ### C80: specification -/

/-- The output that a key refers to: integers as in Python lists, names by position. -/
def outputOf (n : Nat) (names : List (Option String)) : Key → Option Nat
  | .int i => pyIndex n i
  | .str s =>
    match names.findIdx? (· = some s) with
    | some k => if k < n then some k else none
    | none => none

/-! ### C80: invariant -/

/-- Invariant: cached nodes exist, belong to the position they are cached at, and are distinct. -/
structure OpOk (p : ArrayOp) : Prop where
  names : p.names.length = p.cache.length
  valid : ∀ (k c : Nat), p.cache[k]? = some (some c) →
    ∃ o, p.nodes[c]? = some o ∧ pyIndex p.cache.length o.index = some k ∧
      o.name = p.outName ((p.names[k]?).getD none)
  back : ∀ (c : Nat) (o : OutNode), p.nodes[c]? = some o →
    ∃ k, pyIndex p.cache.length o.index = some k ∧ p.cache[k]? = some (some c)

theorem outputOf_resolve (p : ArrayOp) (key : Key) (k : Nat) (hn : p.names.length = p.cache.length) :
    outputOf p.cache.length p.names key = some k ↔
      ∃ i, p.resolve key = .ok i ∧ pyIndex p.cache.length i = some k := by
  cases key with
  | int i =>
    simp only [outputOf, ArrayOp.resolve, Except.ok.injEq]
    constructor
    · intro h; exact ⟨i, rfl, h⟩
    · rintro ⟨j, rfl, h⟩; exact h
  | str s =>
    simp only [outputOf, ArrayOp.resolve]
    cases h : p.names.findIdx? (· = some s) with
    | none => simp
    | some m =>
      simp only [Except.ok.injEq]
      have hm : m < p.cache.length := by
        rw [← hn]
        exact (List.findIdx?_eq_some_iff_getElem.1 h).1
      constructor
      · intro h'
        rw [if_pos hm] at h'
        cases h'
        refine ⟨_, rfl, ?_⟩
        unfold pyIndex
        rw [if_pos (by omega), if_pos (by omega)]
        simp
      · rintro ⟨j, rfl, h'⟩
        unfold pyIndex at h'
        rw [if_pos (by omega), if_pos (by omega)] at h'
        rw [if_pos hm]
        simpa using h'

theorem init_ok {parent : String} {n : Nat} {names : List (Option String)} {p : ArrayOp}
    (h : ArrayOp.init parent n names = .ok p) (hn : names = [] ∨ names.length = n) :
    OpOk p ∧ p.cache.length = n ∧ p.parent = parent ∧
      p.names = (if names = [] then List.replicate n none else names) := by
  unfold ArrayOp.init at h
  dsimp only at h
  generalize hns : (if names = [] then List.replicate n none else names) = ns at h ⊢
  by_cases hok : namesOk ns [] = true
  · rw [if_pos hok] at h
    cases h
    have hlen : ns.length = n := by
      rw [← hns]
      split
      · simp
      · rcases hn with h | h
        · contradiction
        · exact h
    refine ⟨⟨by simpa using hlen, ?_, ?_⟩, by simp, rfl, rfl⟩
    · intro k c hk
      simp only [List.getElem?_replicate] at hk
      split at hk <;> simp at hk
    · intro c o ho
      simp at ho
  · rw [if_neg hok] at h
    cases h

/-- One indexing operation keeps the invariant and returns the node cached for the output. -/
theorem getitem_ok {p q : ArrayOp} {key : Key} {c : Nat} (hok : OpOk p)
    (h : p.getitem key = .ok (c, q)) :
    OpOk q ∧ q.parent = p.parent ∧ q.names = p.names ∧ q.cache.length = p.cache.length ∧
      (∀ (k d : Nat), p.cache[k]? = some (some d) → q.cache[k]? = some (some d)) ∧
      (∀ (d : Nat) (o : OutNode), p.nodes[d]? = some o → q.nodes[d]? = some o) ∧
      ∃ k, outputOf p.cache.length p.names key = some k ∧ q.cache[k]? = some (some c) := by
  unfold ArrayOp.getitem at h
  split at h
  · cases h
  · rename_i i hi
    split at h
    · cases h
    · rename_i k hk
      have hkl := pyIndex_lt hk
      have hout : outputOf p.cache.length p.names key = some k :=
        (outputOf_resolve p key k hok.names).2 ⟨i, hi, hk⟩
      split at h
      · cases h
      · rename_i d hd
        cases h
        exact ⟨hok, rfl, rfl, rfl, fun _ _ h => h, fun _ _ h => h, k, hout, hd⟩
      · rename_i hd
        split at h
        · cases h
        · rename_i j hj
          cases h
          have hjk : j = k := by
            rw [hok.names, hk] at hj
            cases hj
            rfl
          subst hjk
          have hset : ∀ (m e : Nat), (p.cache.set j (some p.nodes.length))[m]? = some (some e) →
              (m = j ∧ e = p.nodes.length) ∨ (m ≠ j ∧ p.cache[m]? = some (some e)) := by
            intro m e hm
            by_cases hmj : m = j
            · subst hmj
              rw [List.getElem?_set_self hkl] at hm
              simp only [Option.some.injEq] at hm
              exact Or.inl ⟨rfl, hm.symm⟩
            · rw [List.getElem?_set_ne (fun e' => hmj e'.symm)] at hm
              exact Or.inr ⟨hmj, hm⟩
          have hnodes : ∀ (d : Nat) (o : OutNode), p.nodes[d]? = some o →
              (p.nodes ++ [⟨i, p.outName ((p.names[j]?).getD none)⟩])[d]? = some o := by
            intro d o ho
            have hlt : d < p.nodes.length := by
              by_contra hge
              rw [List.getElem?_eq_none (by omega)] at ho
              cases ho
            rw [List.getElem?_append_left hlt]
            exact ho
          refine ⟨⟨by simpa using hok.names, ?_, ?_⟩, rfl, rfl, by simp, ?_, hnodes, j, hout, ?_⟩
          · intro m e hm
            simp only [List.length_set]
            rcases hset m e hm with ⟨rfl, rfl⟩ | ⟨hmj, hm'⟩
            · exact ⟨_, getElem?_append_last _ _, hk, rfl⟩
            · obtain ⟨o, ho, h1, h2⟩ := hok.valid m e hm'
              exact ⟨o, hnodes e o ho, h1, h2⟩
          · intro e o ho
            simp only [List.length_set]
            by_cases hlt : e < p.nodes.length
            · rw [List.getElem?_append_left hlt] at ho
              obtain ⟨m, h1, h2⟩ := hok.back e o ho
              refine ⟨m, h1, ?_⟩
              have hmj : m ≠ j := by
                rintro rfl
                rw [hd] at h2
                cases h2
              rw [List.getElem?_set_ne (fun e' => hmj e'.symm)]
              exact h2
            · have he : e = p.nodes.length := by
                by_contra hne
                rw [List.getElem?_eq_none (by simp; omega)] at ho
                cases ho
              subst he
              rw [getElem?_append_last] at ho
              cases ho
              exact ⟨j, hk, List.getElem?_set_self hkl⟩
          · intro m e hm
            have hmj : m ≠ j := by
              rintro rfl
              rw [hd] at hm
              cases hm
            show (p.cache.set j (some p.nodes.length))[m]? = _
            rw [List.getElem?_set_ne (fun e' => hmj e'.symm)]
            exact hm
          · exact List.getElem?_set_self hkl

/-- A history keeps the invariant; every returned node is cached, at the end, for the output its key
refers to. -/
theorem run_ok : ∀ (keys : List Key) (p : ArrayOp), OpOk p →
    OpOk (p.run keys).2 ∧ (p.run keys).2.parent = p.parent ∧ (p.run keys).2.names = p.names ∧
    (p.run keys).2.cache.length = p.cache.length ∧
    (∀ (k d : Nat), p.cache[k]? = some (some d) → (p.run keys).2.cache[k]? = some (some d)) ∧
    ∀ (t : Nat) (c : Nat), (p.run keys).1[t]? = some (some c) →
      ∃ key k, keys[t]? = some key ∧ outputOf p.cache.length p.names key = some k ∧
        (p.run keys).2.cache[k]? = some (some c)
  | [], p, hok => ⟨hok, rfl, rfl, rfl, fun _ _ h => h, fun t c h => by simp [ArrayOp.run] at h⟩
  | key :: keys, p, hok => by
    unfold ArrayOp.run
    cases hg : p.getitem key with
    | error e =>
      obtain ⟨h1, h2, h3, h4, h5, h6⟩ := run_ok keys p hok
      refine ⟨h1, h2, h3, h4, h5, ?_⟩
      intro t c ht
      cases t with
      | zero => simp at ht
      | succ t => simpa using h6 t c (by simpa using ht)
    | ok r =>
      obtain ⟨c0, q⟩ := r
      obtain ⟨g1, g2, g3, g4, g5, _, k0, hk0, hc0⟩ := getitem_ok hok hg
      obtain ⟨h1, h2, h3, h4, h5, h6⟩ := run_ok keys q g1
      refine ⟨h1, h2.trans g2, h3.trans g3, h4.trans g4, fun k d h => h5 k d (g5 k d h), ?_⟩
      intro t c ht
      cases t with
      | zero =>
        simp only [List.getElem?_cons_zero, Option.some.injEq] at ht
        subst ht
        exact ⟨key, k0, rfl, hk0, h5 k0 _ hc0⟩
      | succ t =>
        obtain ⟨key', k, e1, e2, e3⟩ := h6 t c (by simpa using ht)
        rw [g3, g4] at e2
        exact ⟨key', k, by simpa using e1, e2, e3⟩

/-! ### C80 -/

/-- C80: over every history of indexing operations on an array operation with `n` outputs (names
given for all of them, or none), two successful operations return the same node exactly when their
keys refer to the same output: by positive or negative position, or by name. -/
theorem outputs_unique {parent : String} {n : Nat} {names : List (Option String)} {p : ArrayOp}
    (h : ArrayOp.init parent n names = .ok p) (hn : names = [] ∨ names.length = n)
    (keys : List Key) (t u : Nat) (a b : Nat)
    (ha : (p.run keys).1[t]? = some (some a)) (hb : (p.run keys).1[u]? = some (some b)) :
    ∃ kt ku i j, keys[t]? = some kt ∧ keys[u]? = some ku ∧
      outputOf n p.names kt = some i ∧ outputOf n p.names ku = some j ∧ (a = b ↔ i = j) := by
  obtain ⟨hok, hl, _, _⟩ := init_ok h hn
  obtain ⟨h1, _, _, _, _, h6⟩ := run_ok keys p hok
  obtain ⟨kt, i, e1, e2, e3⟩ := h6 t a ha
  obtain ⟨ku, j, f1, f2, f3⟩ := h6 u b hb
  rw [hl] at e2 f2
  refine ⟨kt, ku, i, j, e1, f1, e2, f2, ?_, ?_⟩
  · rintro rfl
    obtain ⟨o, ho, hp, _⟩ := h1.valid i a e3
    obtain ⟨o', ho', hp', _⟩ := h1.valid j a f3
    rw [ho] at ho'
    cases ho'
    rw [hp] at hp'
    cases hp'
    rfl
  · rintro rfl
    rw [e3] at f3
    simpa using f3

/-- C80: the node returned for an output selects that output of every array flow with `n` entries,
and its name is the name of the operation, a dot and the name of the output. -/
theorem outputs_select {parent : String} {n : Nat} {names : List (Option String)} {p : ArrayOp}
    (h : ArrayOp.init parent n names = .ok p) (hn : names = [] ∨ names.length = n)
    (keys : List Key) (t : Nat) (a : Nat) (ha : (p.run keys).1[t]? = some (some a)) :
    ∃ key k o, keys[t]? = some key ∧ outputOf n p.names key = some k ∧
      (p.run keys).2.nodes[a]? = some o ∧
      (∀ {α : Type} (fs : List α), fs.length = n → ∃ f, indexEval fs o.index = .ok f ∧
        fs[k]? = some f) ∧
      (∀ s, names[k]? = some (some s) → s ≠ "" → o.name = some (parent ++ "." ++ s)) := by
  obtain ⟨hok, hl, hpar, hnm⟩ := init_ok h hn
  obtain ⟨h1, h2, h3, h4, _, h6⟩ := run_ok keys p hok
  obtain ⟨key, k, e1, e2, e3⟩ := h6 t a ha
  obtain ⟨o, ho, hp, hname⟩ := h1.valid k a e3
  rw [hl] at e2
  rw [h4, hl] at hp
  refine ⟨key, k, o, e1, e2, ho, ?_, ?_⟩
  · intro α fs hfs
    subst hfs
    have hlt := pyIndex_lt hp
    refine ⟨fs[k], ?_, List.getElem?_eq_getElem hlt⟩
    unfold indexEval
    rw [hp]
    simp [List.getElem?_eq_getElem hlt]
  · intro s hs hs0
    have hne : names ≠ [] := by rintro rfl; simp at hs
    rw [hname, h3, hnm, if_neg hne, hs]
    unfold ArrayOp.outName
    simp only [Option.getD_some, if_neg hs0, h2, hpar]

/-- C80: every in-range key succeeds; keys out of range or unknown names raise. -/
theorem getitem_succeeds_iff {parent : String} {n : Nat} {names : List (Option String)}
    {p : ArrayOp} (h : ArrayOp.init parent n names = .ok p) (hn : names = [] ∨ names.length = n)
    (keys : List Key) (key : Key) :
    (∃ c q, (p.run keys).2.getitem key = .ok (c, q)) ↔
      ∃ k, outputOf n p.names key = some k := by
  obtain ⟨hok, hl, _, _⟩ := init_ok h hn
  obtain ⟨h1, _, h3, h4, _, _⟩ := run_ok keys p hok
  constructor
  · rintro ⟨c, q, hg⟩
    obtain ⟨_, _, _, _, _, _, k, hk, _⟩ := getitem_ok h1 hg
    rw [h3, h4, hl] at hk
    exact ⟨k, hk⟩
  · rintro ⟨k, hk⟩
    generalize hq : (p.run keys).2 = q at *
    have hk' : outputOf q.cache.length q.names key = some k := by rw [h3, h4, hl]; exact hk
    obtain ⟨i, hi, hki⟩ := (outputOf_resolve q key k h1.names).1 hk'
    have hkl := pyIndex_lt hki
    unfold ArrayOp.getitem
    rw [hi]
    simp only [hki]
    rw [List.getElem?_eq_getElem hkl]
    cases hc : q.cache[k] with
    | some d => exact ⟨d, q, rfl⟩
    | none =>
      simp only [h1.names, hki]
      exact ⟨_, _, rfl⟩

theorem namesOk_spec : ∀ (ns : List (Option String)) (seen : List String),
    namesOk ns seen = true ↔
      ((ns.filterMap id).filter (· ≠ "")).Nodup ∧
        ∀ s ∈ seen, s ∉ (ns.filterMap id).filter (· ≠ "")
  | [], seen => by simp [namesOk]
  | none :: ns, seen => by
    simp only [namesOk, namesOk_spec ns seen, List.filterMap_cons, id_eq]
  | some s :: ns, seen => by
    unfold namesOk
    by_cases h0 : s = ""
    · subst h0
      simp [namesOk_spec ns seen]
    · rw [if_neg h0]
      have hf : ((some s :: ns).filterMap id).filter (· ≠ "") =
          s :: (ns.filterMap id).filter (· ≠ "") := by simp [h0]
      rw [hf, List.nodup_cons]
      by_cases hs : s ∈ seen
      · rw [if_pos hs]
        simp only [Bool.false_eq_true, false_iff]
        rintro ⟨_, h2⟩
        exact h2 s hs (by simp)
      · rw [if_neg hs, namesOk_spec ns (s :: seen)]
        constructor
        · rintro ⟨h1, h2⟩
          refine ⟨⟨h2 s (by simp), h1⟩, fun r hr hm => ?_⟩
          rcases List.mem_cons.1 hm with rfl | hm
          · exact hs hr
          · exact h2 r (List.mem_cons_of_mem _ hr) hm
        · rintro ⟨⟨h1, h2⟩, h3⟩
          refine ⟨h2, fun r hr hm => ?_⟩
          rcases List.mem_cons.1 hr with rfl | hr
          · exact h1 hm
          · exact h3 r hr (List.mem_cons_of_mem _ hm)

/-- C80: an array operation is rejected exactly when two of its outputs have the same (nonempty)
name. -/
theorem array_op_rejects_duplicates (parent : String) (n : Nat) (names : List (Option String)) :
    (∃ p, ArrayOp.init parent n names = .ok p) ↔
      ((names.filterMap id).filter (· ≠ "")).Nodup := by
  unfold ArrayOp.init
  simp only
  by_cases h0 : names = []
  · subst h0
    have : namesOk (List.replicate n none) [] = true := by
      rw [namesOk_spec]
      have he : (List.replicate n (none : Option String)).filterMap id = [] := by
        induction n with
        | zero => rfl
        | succ n _ => simp
      exact ⟨by rw [he]; simp, by simp⟩
    simp [this]
  · rw [if_neg h0]
    by_cases h : namesOk names [] = true
    · rw [if_pos h]
      have := (namesOk_spec names []).1 h
      exact ⟨fun _ => this.1, fun _ => ⟨_, rfl⟩⟩
    · rw [if_neg h]
      constructor
      · rintro ⟨p, hp⟩; cases hp
      · intro hn
        exact absurd ((namesOk_spec names []).2 ⟨hn, by simp⟩) h

/-- Non-vacuity: three outputs, the last one used by its name, by `2` and by `-1`. -/
example : ∃ p, ArrayOp.init "sim" 3 [some "eps", none, some "overlap"] = .ok p ∧
    (p.run [.int (-1), .str "overlap", .int 2, .int 0, .str "none", .int 3]).1 =
      [some 0, some 0, some 0, some 1, none, none] := ⟨_, rfl, by decide +kernel⟩

end Verif.Flow
