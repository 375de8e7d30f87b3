import Verif.Obj.ExprSpec
/-
Lemmas about broadcasting and about flattened sums and products.
-/
namespace Verif.Obj

theorem bc_some {f : ℝ → ℝ → ℝ} {a b r : Val} (h : bc f a b = some r) :
    bshape a.length b.length = some r.length ∧
    ∀ i, (i < r.length ∨ r.length = 1) → bget r i = f (bget a i) (bget b i) := by
  unfold bc at h
  cases hs : bshape a.length b.length with
  | none => rw [hs] at h; cases h
  | some n =>
    rw [hs] at h
    have hr : r = (List.range n).map fun i => f (bget a i) (bget b i) := by
      simpa using h.symm
    have hl : r.length = n := by rw [hr]; simp
    refine ⟨by rw [hl], fun i hi => ?_⟩
    have hone : n = 1 → a.length = 1 ∧ b.length = 1 := by
      intro hn
      unfold bshape at hs
      split at hs
      · cases hs; omega
      · split at hs
        · cases hs; omega
        · split at hs
          · cases hs; omega
          · cases hs
    by_cases h1 : n = 1
    · obtain ⟨ha, hb⟩ := hone h1
      have : bget r i = f (bget a 0) (bget b 0) := by
        rw [hr, h1]
        simp [bget]
      rw [this]
      unfold bget
      simp [ha, hb]
    · have hi' : i < n := by omega
      unfold bget
      rw [if_neg (by omega), hr]
      simp only [List.getD_eq_getElem?_getD, List.getElem?_map, List.getElem?_range hi', Option.map_some,
        Option.getD_some, bget]

theorem bc_eq {f : ℝ → ℝ → ℝ} {a b r : Val} (hs : bshape a.length b.length = some r.length)
    (h : ∀ i, i < r.length → bget r i = f (bget a i) (bget b i)) : bc f a b = some r := by
  unfold bc
  rw [hs]
  simp only [Option.map_some, Option.some.injEq]
  apply List.ext_getElem
  · simp
  · intro i h1 h2
    simp only [List.getElem_map, List.getElem_range]
    rw [← h i h2]
    unfold bget
    by_cases h3 : r.length = 1
    · have : i = 0 := by omega
      subst this
      simp [List.getD_eq_getElem?_getD, h2]
    · rw [if_neg h3]
      simp [List.getD_eq_getElem?_getD, h2]

theorem bc_none {f g : ℝ → ℝ → ℝ} {a b : Val} : bc f a b = none ↔ bc g a b = none := by
  unfold bc
  cases bshape a.length b.length <;> simp

theorem bc_none_iff {f : ℝ → ℝ → ℝ} {a b : Val} : bc f a b = none ↔ bshape a.length b.length = none := by
  unfold bc
  cases bshape a.length b.length <;> simp

theorem bshape_comm (p q : Nat) : bshape p q = bshape q p := by
  unfold bshape
  by_cases h1 : p = q
  · rw [if_pos h1, if_pos h1.symm, h1]
  · rw [if_neg h1, if_neg (Ne.symm h1)]
    by_cases h2 : p = 1
    · rw [if_pos h2]
      rw [if_neg (by omega), if_pos h2]
    · rw [if_neg h2]
      by_cases h3 : q = 1
      · rw [if_pos h3, if_pos h3]
      · rw [if_neg h3, if_neg h3, if_neg h2]

theorem bshape_assoc (p q r : Nat) : (bshape p q).bind (bshape · r) = (bshape q r).bind (bshape p ·) := by
  unfold bshape
  by_cases h1 : p = q
  · subst h1
    by_cases h2 : p = r
    · subst h2; simp
    · by_cases h3 : p = 1
      · subst h3; simp [h2]
      · by_cases h4 : r = 1
        · subst h4; simp [h3]
        · simp [h2, h3, h4]
  · by_cases h2 : p = 1
    · subst h2
      simp only [h1, if_false, if_true, Option.bind_some]
      by_cases h3 : q = r
      · subst h3; simp [h1]
      · by_cases h4 : q = 1
        · omega
        · by_cases h5 : r = 1
          · subst h5; simp [h4, h1]
          · simp [h3, h4, h5]
    · by_cases h3 : q = 1
      · subst h3
        by_cases h4 : p = r
        · subst h4; simp [h2, Ne.symm h2]
        · by_cases h5 : r = 1
          · subst h5; simp [h2]
          · simp [h2, h4, h5, Ne.symm h5]
      · simp only [h1, h2, h3, if_false, Option.bind_none]
        by_cases h4 : q = r
        · subst h4; simp [h1, h3]
        · by_cases h5 : r = 1
          · subst h5; simp [h1, h3]
          · simp [h4, h5]

theorem bshape_one {p q : Nat} (h : bshape p q = some 1) : p = 1 ∧ q = 1 := by
  unfold bshape at h
  split at h
  · cases h; omega
  · split at h
    · cases h; omega
    · split at h
      · cases h; omega
      · cases h

/-- The entries an inner operation contributes to an outer one. -/
theorem bshape_use {p q n i : Nat} (h : bshape p q = some n) (hi : i < n) : (i < p ∨ p = 1) ∧ (i < q ∨ q = 1) := by
  unfold bshape at h
  split at h
  · cases h; omega
  · split at h
    · cases h; omega
    · split at h
      · cases h; omega
      · cases h

theorem bc_assoc {f : ℝ → ℝ → ℝ} (hf : ∀ x y z, f (f x y) z = f x (f y z)) (a b c : Val) :
    (bc f a b).bind (fun r => bc f r c) = (bc f b c).bind (fun r => bc f a r) := by
  have hsh := bshape_assoc a.length b.length c.length
  cases h1 : bc f a b with
  | none =>
    have h1' := bc_none_iff.1 h1
    rw [h1'] at hsh
    cases h2 : bc f b c with
    | none => rfl
    | some s =>
      rw [(bc_some h2).1] at hsh
      exact (bc_none_iff.2 hsh.symm).symm
  | some r =>
    obtain ⟨s1, g1⟩ := bc_some h1
    rw [s1] at hsh
    cases h2 : bc f b c with
    | none =>
      rw [bc_none_iff.1 h2] at hsh
      exact bc_none_iff.2 hsh
    | some s =>
      obtain ⟨s2, g2⟩ := bc_some h2
      rw [s2] at hsh
      show bc f r c = bc f a s
      cases h3 : bc f r c with
      | none =>
        have h4 : bshape r.length c.length = bshape a.length s.length := hsh
        exact (bc_none_iff.2 (by rw [← h4]; exact bc_none_iff.1 h3)).symm
      | some t =>
        obtain ⟨s3, g3⟩ := bc_some h3
        have h4 : bshape r.length c.length = bshape a.length s.length := hsh
        symm
        apply bc_eq (by rw [← h4, s3])
        intro i hi
        rw [g3 i (Or.inl hi), g1 i (bshape_use s3 hi).1, hf]
        rw [g2 i (bshape_use (h4 ▸ s3) hi).2]

theorem bc_comm {f : ℝ → ℝ → ℝ} (hf : ∀ x y, f x y = f y x) (a b : Val) : bc f a b = bc f b a := by
  unfold bc
  rw [bshape_comm]
  congr 1
  funext n
  congr 1
  funext i
  exact hf _ _

theorem bshape_left (n : Nat) : bshape 1 n = some n := by
  unfold bshape
  split
  · rename_i h; rw [h]
  · simp

theorem bc_left {f : ℝ → ℝ → ℝ} (u : ℝ) (hf : ∀ x, f u x = x) (a : Val) : bc f [u] a = some a := by
  apply bc_eq (by simpa using bshape_left a.length)
  intro i _
  simp [bget, hf]

theorem bc_right {f : ℝ → ℝ → ℝ} (u : ℝ) (hf : ∀ x, f x u = x) (a : Val) : bc f a [u] = some a := by
  apply bc_eq (by rw [bshape_comm]; simpa using bshape_left a.length)
  intro i _
  simp [bget, hf]

theorem bget_map (g : ℝ → ℝ) (a : Val) (i : Nat) (h : i < a.length ∨ a.length = 1) :
    bget (a.map g) i = g (bget a i) := by
  unfold bget
  rw [List.length_map]
  have : (if a.length = 1 then 0 else i) < a.length := by split <;> omega
  simp [List.getD_eq_getElem?_getD, this]

/-- Applying a function to the right operand first. -/
theorem bc_map_right (f h : ℝ → ℝ → ℝ) (g : ℝ → ℝ) (e : ∀ x y, h x y = f x (g y)) (a b : Val) :
    bc h a b = bc f a (b.map g) := by
  cases h1 : bc h a b with
  | none => exact (bc_none_iff.2 (by simpa using bc_none_iff.1 h1)).symm
  | some r =>
    obtain ⟨s, g1⟩ := bc_some h1
    symm
    apply bc_eq (by simpa using s)
    intro i hi
    rw [g1 i (Or.inl hi), e, bget_map g b i (bshape_use s hi).2]

/-- An operation with a number is a map. -/
theorem bc_const_right (f : ℝ → ℝ → ℝ) (a : Val) (u : ℝ) : bc f a [u] = some (a.map (f · u)) := by
  apply bc_eq (by rw [bshape_comm]; simpa using bshape_left a.length)
  intro i hi
  rw [bget_map _ a i (Or.inl (by simpa using hi))]
  simp [bget]

/-! ### Folding -/

theorem foldlM_unit {f : ℝ → ℝ → ℝ} (hf : ∀ x y z, f (f x y) z = f x (f y z)) (u : ℝ) (hl : ∀ x, f u x = x)
    (hr : ∀ x, f x u = x) (l : List Val) (a : Val) :
    l.foldlM (bc f) a = (l.foldlM (bc f) [u]).bind (bc f a) := by
  induction l generalizing a with
  | nil => simp [bc_right u hr]
  | cons b l ih =>
    simp only [List.foldlM_cons]
    rw [bc_left u hl b]
    show (bc f a b).bind (fun r => l.foldlM (bc f) r) = (l.foldlM (bc f) b).bind (bc f a)
    rw [ih b]
    cases hb : l.foldlM (bc f) [u] with
    | none =>
      cases hab : bc f a b with
      | none => rfl
      | some r => simp [ih r, hb]
    | some t =>
      have h1 : (fun r => l.foldlM (bc f) r) = fun r => bc f r t := by
        funext r; rw [ih r, hb]; rfl
      rw [h1]
      simp only [Option.bind_some]
      exact bc_assoc hf a b t

theorem foldlM_append {f : ℝ → ℝ → ℝ} (hf : ∀ x y z, f (f x y) z = f x (f y z)) (u : ℝ) (hl : ∀ x, f u x = x)
    (hr : ∀ x, f x u = x) (l m : List Val) :
    (l ++ m).foldlM (bc f) [u] = (l.foldlM (bc f) [u]).bind fun a => (m.foldlM (bc f) [u]).bind (bc f a) := by
  rw [List.foldlM_append]
  show (l.foldlM (bc f) [u]).bind (fun a => m.foldlM (bc f) a) = _
  congr 1
  funext a
  exact foldlM_unit hf u hl hr m a

theorem evalFns_append (chk : Check) (env : Nat → Val) (l m : List Fn) :
    evalFns chk env (l ++ m) =
      (evalFns chk env l).bind fun vs => (evalFns chk env m).map fun ws => vs ++ ws := by
  induction l with
  | nil => simp [evalFns]
  | cons f l ih =>
    simp only [List.cons_append, evalFns, ih]
    cases evalFn chk env f with
    | none => rfl
    | some v =>
      cases evalFns chk env l with
      | none => rfl
      | some vs =>
        cases evalFns chk env m with
        | none => rfl
        | some ws => rfl

theorem evalFns_length {chk : Check} {env : Nat → Val} {l : List Fn} {vs : List Val}
    (h : evalFns chk env l = some vs) : vs.length = l.length := by
  induction l generalizing vs with
  | nil => simp [evalFns] at h; subst h; rfl
  | cons f l ih =>
    simp only [evalFns] at h
    cases h1 : evalFn chk env f with
    | none => rw [h1] at h; cases h
    | some v =>
      cases h2 : evalFns chk env l with
      | none => rw [h1, h2] at h; cases h
      | some ws =>
        rw [h1, h2] at h
        cases h
        simp [ih h2]

/-- A check that holds of both parts of a list it holds of, and of single values. -/
structure Hereditary (chk : Check) : Prop where
  single : ∀ v, chk [v]
  left : ∀ vs ws, chk (vs ++ ws) → vs ≠ [] → chk vs
  right : ∀ vs ws, chk (vs ++ ws) → ws ≠ [] → chk ws

theorem true_hereditary : Hereditary (fun _ => True) := ⟨fun _ => trivial, fun _ _ _ _ => trivial, fun _ _ _ _ => trivial⟩

theorem domOk_iff (vs : List Val) : domOk vs ↔ vs ≠ [] ∧
    ((∃ n, ∀ w ∈ vs, w.length = n) ∨ (vs.filter fun w => decide (1 < w.length)).length ≤ 1) := by
  cases vs with
  | nil => simp [domOk]
  | cons v l =>
    unfold domOk
    constructor
    · rintro (h | h)
      · exact ⟨by simp, Or.inl ⟨_, h⟩⟩
      · exact ⟨by simp, Or.inr h⟩
    · rintro ⟨_, ⟨n, h⟩ | h⟩
      · left
        intro w hw
        rw [h w hw, h v (by simp)]
      · exact Or.inr h

theorem domOk_hereditary : Hereditary domOk := by
  refine ⟨fun v => ?_, fun vs ws h hne => ?_, fun vs ws h hne => ?_⟩
  · rw [domOk_iff]
    exact ⟨by simp, Or.inl ⟨v.length, by simp⟩⟩
  · rw [domOk_iff] at h ⊢
    refine ⟨hne, ?_⟩
    rcases h.2 with ⟨n, h⟩ | h
    · exact Or.inl ⟨n, fun w hw => h w (List.mem_append_left _ hw)⟩
    · right
      rw [List.filter_append, List.length_append] at h
      omega
  · rw [domOk_iff] at h ⊢
    refine ⟨hne, ?_⟩
    rcases h.2 with ⟨n, h⟩ | h
    · exact Or.inl ⟨n, fun w hw => h w (List.mem_append_right _ hw)⟩
    · right
      rw [List.filter_append, List.length_append] at h
      omega

/-- A kind of flattened node: sums and products. -/
structure NodeKind (chk : Check) (env : Nat → Val) (mk : List Fn → Fn) (f : ℝ → ℝ → ℝ) (u : ℝ) : Prop where
  eval : ∀ l, evalFn chk env (mk l) = (evalFns chk env l).bind fun vs =>
    open Classical in if chk vs then vs.foldlM (bc f) [u] else none
  assoc : ∀ x y z, f (f x y) z = f x (f y z)
  comm : ∀ x y, f x y = f y x
  left : ∀ x, f u x = x

theorem sumKind (chk : Check) (env : Nat → Val) : NodeKind chk env .sum (· + ·) 0 :=
  ⟨fun l => by simp only [evalFn, npSum], fun _ _ _ => by ring, fun _ _ => by ring, fun _ => by ring⟩

theorem prodKind (chk : Check) (env : Nat → Val) : NodeKind chk env .prod (· * ·) 1 :=
  ⟨fun l => by simp only [evalFn, npProd], fun _ _ _ => by ring, fun _ _ => by ring, fun _ => by ring⟩

variable {chk : Check} {env : Nat → Val} {mk : List Fn → Fn} {f : ℝ → ℝ → ℝ} {u : ℝ}

theorem NodeKind.single (K : NodeKind chk env mk f u) (H : Hereditary chk) (g : Fn) :
    evalFn chk env (mk [g]) = evalFn chk env g := by
  rw [K.eval]
  cases h : evalFn chk env g with
  | none => simp [evalFns, h]
  | some v =>
    simp only [evalFns, h, Option.bind_some, Option.map_some, if_pos (H.single v), List.foldlM_cons, List.foldlM_nil]
    rw [bc_left u K.left v]
    rfl

theorem NodeKind.append (K : NodeKind chk env mk f u) (H : Hereditary chk) (l m : List Fn) (hl : l ≠ []) (hm : m ≠ [])
    (v : Val) (h : evalFn chk env (mk (l ++ m)) = some v) :
    ∃ a b, evalFn chk env (mk l) = some a ∧ evalFn chk env (mk m) = some b ∧ bc f a b = some v := by
  rw [K.eval, evalFns_append] at h
  cases h1 : evalFns chk env l with
  | none => rw [h1] at h; cases h
  | some vs =>
    cases h2 : evalFns chk env m with
    | none => rw [h1, h2] at h; cases h
    | some ws =>
      rw [h1, h2] at h
      replace h : (open Classical in if chk (vs ++ ws) then (vs ++ ws).foldlM (bc f) [u] else none) = some v := h
      split at h
      · rename_i hc
        have hvs : vs ≠ [] := by
          intro e; rw [e] at h1; have := evalFns_length h1; exact hl (List.length_eq_zero_iff.1 this.symm)
        have hws : ws ≠ [] := by
          intro e; rw [e] at h2; have := evalFns_length h2; exact hm (List.length_eq_zero_iff.1 this.symm)
        rw [foldlM_append K.assoc u K.left (fun x => by rw [K.comm, K.left])] at h
        rw [K.eval, K.eval, h1, h2]
        simp only [Option.bind_some, if_pos (H.left _ _ hc hvs), if_pos (H.right _ _ hc hws)]
        cases h3 : vs.foldlM (bc f) [u] with
        | none => rw [h3] at h; cases h
        | some a =>
          cases h4 : ws.foldlM (bc f) [u] with
          | none => rw [h3, h4] at h; cases h
          | some b =>
            rw [h3, h4] at h
            exact ⟨a, b, rfl, rfl, h⟩
      · cases h

theorem NodeKind.append_true {env : Nat → Val} (K : NodeKind (fun _ => True) env mk f u) (l m : List Fn) :
    evalFn (fun _ => True) env (mk (l ++ m)) = (evalFn (fun _ => True) env (mk l)).bind fun a =>
      (evalFn (fun _ => True) env (mk m)).bind (bc f a) := by
  rw [K.eval, K.eval, K.eval, evalFns_append]
  cases h1 : evalFns (fun _ => True) env l with
  | none => rfl
  | some vs =>
    cases h2 : evalFns (fun _ => True) env m with
    | none =>
      simp only [Option.bind_some, Option.map_none, Option.bind_none, if_true]
      cases vs.foldlM (bc f) [u] <;> rfl
    | some ws =>
      simp only [Option.bind_some, Option.map_some, if_true]
      exact foldlM_append K.assoc u K.left (fun x => by rw [K.comm, K.left]) vs ws

end Verif.Obj
