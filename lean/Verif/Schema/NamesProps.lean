import Verif.Schema.Names
import Mathlib.Data.List.Nodup
/-
Properties C14, C15 and C16.
-/
namespace Verif.Schema

/-! ### Decimal notation -/

/-- The number a decimal string denotes. -/
def value (l : Str) : Nat := l.foldl (fun n c => 10 * n + (c.toNat - 48)) 0

theorem digit_toNat (n : Nat) (h : n < 10) : (digit n).toNat = 48 + n := by
  have : ∀ n : Fin 10, (digit n.1).toNat = 48 + n.1 := by decide
  exact this ⟨n, h⟩

theorem value_decimal (n : Nat) : value (decimal n) = n := by
  induction n using Nat.strongRecOn with
  | _ n ih =>
    rw [decimal]
    split
    · rename_i h
      simp [value, digit_toNat n h]
    · rename_i h
      have := ih (n / 10) (by omega)
      unfold value at this ⊢
      rw [List.foldl_append, this]
      simp only [List.foldl_cons, List.foldl_nil, digit_toNat (n % 10) (by omega)]
      omega

theorem dot_not_mem_decimal (n : Nat) : '.' ∉ decimal n := by
  induction n using Nat.strongRecOn with
  | _ n ih =>
    have hd : ∀ k, k < 10 → digit k ≠ '.' := by
      have : ∀ k : Fin 10, digit k.1 ≠ '.' := by decide
      exact fun k hk => this ⟨k, hk⟩
    rw [decimal]
    split
    · rename_i h
      simp only [List.mem_singleton]
      exact fun h' => hd n h h'.symm
    · rename_i h
      rw [List.mem_append, List.mem_singleton]
      rintro (h1 | h1)
      · exact ih (n / 10) (by omega) h1
      · exact hd _ (by omega) h1.symm

/-- A generated name determines the type and the number. -/
theorem name_injective (t t' : Str) (n n' : Nat)
    (h : t ++ ['.'] ++ decimal n = t' ++ ['.'] ++ decimal n') : t = t' ∧ n = n' := by
  have key : ∀ (t t' d d' : Str), '.' ∉ d → '.' ∉ d' → t ++ '.' :: d = t' ++ '.' :: d' →
      t = t' ∧ d = d' := by
    intro t
    induction t with
    | nil =>
      intro t' d d' hd hd' h
      cases t' with
      | nil => simpa using h
      | cons c t' =>
        exfalso
        simp only [List.nil_append, List.cons_append, List.cons.injEq] at h
        exact hd (by rw [h.2]; simp)
    | cons c t ih =>
      intro t' d d' hd hd' h
      cases t' with
      | nil =>
        exfalso
        simp only [List.nil_append, List.cons_append, List.cons.injEq] at h
        exact hd' (by rw [← h.2]; simp)
      | cons c' t' =>
        simp only [List.cons_append, List.cons.injEq] at h
        obtain ⟨h1, h2⟩ := ih t' d d' hd hd' h.2
        exact ⟨by rw [h.1, h1], h2⟩
  rw [List.append_assoc, List.append_assoc] at h
  obtain ⟨h1, h2⟩ := key t t' _ _ (dot_not_mem_decimal n) (dot_not_mem_decimal n') h
  refine ⟨h1, ?_⟩
  rw [← value_decimal n, ← value_decimal n', h2]

theorem generateName_eq (m : Counters) (t : Str) :
    (generateName m t).1 = t ++ ['.'] ++ decimal ((m t).getD 0) ∧
    ∀ s, ((generateName m t).2 s).getD 0 =
      if s = t then (m t).getD 0 + 1 else (m s).getD 0 := by
  unfold generateName
  cases h : m t with
  | none =>
    refine ⟨by simp, fun s => ?_⟩
    by_cases hs : s = t <;> simp [hs]
  | some n =>
    refine ⟨by simp [h], fun s => ?_⟩
    by_cases hs : s = t <;> simp [hs, h]

/-- Every name generated later carries a number at least the current counter of its type. -/
theorem createAll_mem (cs : List Create) (m : Counters) (x : Str) (hx : x ∈ createAll m cs) :
    (∃ t n, Create.auto t ∈ cs ∧ (m t).getD 0 ≤ n ∧ x = t ++ ['.'] ++ decimal n) ∨
      Create.user x ∈ cs := by
  induction cs generalizing m with
  | nil => cases hx
  | cons c cs ih =>
    cases c with
    | user n =>
      rcases List.mem_cons.1 hx with rfl | hx
      · exact Or.inr (by simp)
      · rcases ih m hx with ⟨t, k, h1, h2, h3⟩ | h
        · exact Or.inl ⟨t, k, List.mem_cons_of_mem _ h1, h2, h3⟩
        · exact Or.inr (List.mem_cons_of_mem _ h)
    | auto t =>
      have hg := generateName_eq m t
      rcases List.mem_cons.1 hx with rfl | hx
      · exact Or.inl ⟨t, (m t).getD 0, by simp, Nat.le_refl _, hg.1⟩
      · rcases ih _ hx with ⟨s, k, h1, h2, h3⟩ | h
        · refine Or.inl ⟨s, k, List.mem_cons_of_mem _ h1, ?_, h3⟩
          rw [hg.2 s] at h2
          by_cases hs : s = t
          · subst hs; simp only [if_true] at h2; omega
          · simpa [hs] using h2
        · exact Or.inr (List.mem_cons_of_mem _ h)

/-- The user's names in a sequence of creations. -/
def userNames (cs : List Create) : List Str :=
  cs.filterMap (fun c => match c with | .user n => some n | .auto _ => none)

theorem mem_userNames (cs : List Create) (n : Str) : n ∈ userNames cs ↔ Create.user n ∈ cs := by
  simp only [userNames, List.mem_filterMap]
  constructor
  · rintro ⟨c, hc, h⟩
    cases c with
    | user k => simp only [Option.some.injEq] at h; rw [← h]; exact hc
    | auto t => cases h
  · exact fun h => ⟨_, h, rfl⟩

/-- C14: whatever nodes are created since the last reset (`m` may be any counters), with whatever
type strings: if the user's names are distinct and contain no period, all names are distinct. -/
theorem generated_names_unique (m : Counters) (cs : List Create)
    (hu : (userNames cs).Nodup) (hdot : ∀ n ∈ userNames cs, '.' ∉ n) :
    (createAll m cs).Nodup := by
  induction cs generalizing m with
  | nil => exact List.nodup_nil
  | cons c cs ih =>
    cases c with
    | user n =>
      have e : userNames (.user n :: cs) = n :: userNames cs := rfl
      rw [e] at hu hdot
      rw [List.nodup_cons] at hu
      rw [createAll, List.nodup_cons]
      refine ⟨fun h => ?_, ih m hu.2 (fun k hk => hdot k (List.mem_cons_of_mem _ hk))⟩
      rcases createAll_mem cs m n h with ⟨t, k, _, _, h3⟩ | h
      · exact hdot n (by simp) (by rw [h3]; simp)
      · exact hu.1 ((mem_userNames cs n).2 h)
    | auto t =>
      have e : userNames (.auto t :: cs) = userNames cs := rfl
      rw [e] at hu hdot
      have hg := generateName_eq m t
      rw [createAll, List.nodup_cons]
      refine ⟨fun h => ?_, ih _ hu hdot⟩
      rcases createAll_mem cs _ _ h with ⟨s, k, _, h2, h3⟩ | h
      · rw [hg.1] at h3
        obtain ⟨h4, h5⟩ := name_injective _ _ _ _ h3
        subst h4
        rw [hg.2 t, if_pos rfl] at h2
        omega
      · refine hdot _ ((mem_userNames cs _).2 h) ?_
        rw [hg.1]; simp

/-- C14 without user names: any sequence of requests, any type strings (also ones that end in a
period and digits). -/
theorem generateAll_nodup (m : Counters) (ts : List Str) : (generateAll m ts).Nodup := by
  have h : ∀ (ts : List Str) (m : Counters), generateAll m ts = createAll m (ts.map .auto) := by
    intro ts
    induction ts with
    | nil => intro m; rfl
    | cons t ts ih => intro m; simp [generateAll, createAll, ih]
  have hu : userNames (ts.map .auto) = [] := by
    simp [userNames, List.filterMap_map]
  rw [h]
  exact generated_names_unique m _ (by rw [hu]; exact List.nodup_nil) (by rw [hu]; simp)

example : generateAll (fun _ => none) ["a".toList, "a.0".toList, "a".toList] =
    ["a.0".toList, "a.0.0".toList, "a.1".toList] := by
  simp [generateAll, generateName, decimal, digit]

/-- The condition on user names is needed, and it excludes loaded plans: `load` gives the nodes
their saved names and leaves the counters alone, so the first node of the same type created
afterwards gets a name that is already taken. -/
theorem name_collision_after_load (t : Str) :
    ¬ (createAll (fun _ => none) [.user (t ++ ['.'] ++ decimal 0), .auto t]).Nodup := by
  simp [createAll, (generateName_eq (fun _ => none) t).1]

/-! ### C15 -/

theorem checkNames_iff (ns seen : List Str) :
    checkNames ns seen = true ↔ ns.Nodup ∧ ∀ n ∈ ns, n ∉ seen := by
  induction ns generalizing seen with
  | nil => simp [checkNames]
  | cons n ns ih =>
    rw [checkNames, List.nodup_cons]
    by_cases h : n ∈ seen
    · simp [h]
    · simp only [h, if_false, ih, List.mem_cons, not_or, forall_eq_or_imp, not_false_eq_true,
        true_and]
      constructor
      · rintro ⟨h1, h2⟩
        exact ⟨⟨fun hn => (h2 n hn).1 rfl, h1⟩, fun k hk => (h2 k hk).2⟩
      · rintro ⟨⟨h1, h2⟩, h3⟩
        exact ⟨h2, fun k hk => ⟨fun e => h1 (e ▸ hk), h3 k hk⟩⟩

/-- C15: the check passes exactly for lists of distinct names. -/
theorem validate_names_iff_nodup (ns : List Str) : checkNames ns [] = true ↔ ns.Nodup := by
  rw [checkNames_iff]; simp

example : checkNames ["a".toList, "b".toList] [] = true ∧
    checkNames ["a".toList, "b".toList, "a".toList] [] = false := by decide

/-! ### C16 -/

/-- A version `a.b.c` is at least `x.y.z`. -/
def atLeast (x y z a b c : Int) : Prop := x < a ∨ (x = a ∧ (y < b ∨ (y = b ∧ z ≤ c)))

/-- C16 for goos: within major version 0 the check accepts exactly the versions from 0.3.0 on. -/
theorem goos_version_check_partial (b c : Int) (hc : 0 ≤ c) :
    goosVersion [0, b, c] = .accepted ↔ atLeast 0 3 0 0 b c := by
  unfold goosVersion atLeast
  by_cases h : b < 3
  · simp only [h, if_true]
    constructor
    · intro h'; cases h'
    · intro h'; omega
  · simp only [h, if_false]
    constructor
    · intro _
      exact Or.inr ⟨trivial, by omega⟩
    · intro _; rfl

/-- The exact behaviour: all versions of any major version with minor part at least 3. -/
theorem goos_version_exact (a b c : Int) :
    goosVersion [a, b, c] = .accepted ↔ 0 ≤ a ∧ 3 ≤ b := by
  unfold goosVersion
  by_cases h1 : a < 0
  · simp [h1]; omega
  · by_cases h2 : b < 3
    · simp [h1, h2]
    · simp [h1, h2]; omega

/-- C16 in full is false for goos: version 1.0.0 is rejected. -/
theorem C16_goos_full_false :
    ¬ ∀ a b c : Int, goosVersion [a, b, c] = .accepted ↔ atLeast 0 3 0 a b c := by
  intro h
  have := (h 1 0 0).2 (Or.inl (by decide))
  revert this
  decide

/-- The exact behaviour of invdes: minor part at least 2 and patch part at least 3. -/
theorem invdes_version_exact (a b c : Int) :
    invdesVersion [a, b, c] = .accepted ↔ 0 ≤ a ∧ 2 ≤ b ∧ 3 ≤ c := by
  unfold invdesVersion
  by_cases h1 : a < 0
  · simp [h1]; omega
  · by_cases h2 : b < 2
    · simp [h1, h2]; omega
    · by_cases h3 : c < 3
      · simp [h1, h2, h3]
      · simp [h1, h2, h3]; omega

/-- C16 for invdes with respect to version 0.2.3 (the code) holds for the versions 0.2.c. -/
theorem invdes_version_check_partial (c : Int) :
    invdesVersion [0, 2, c] = .accepted ↔ atLeast 0 2 3 0 2 c := by
  rw [invdes_version_exact]
  unfold atLeast
  omega

/-- C16 in full is false for invdes, whether 0.2.3 (the code) or 0.2.1 (the error message) is
taken as the required version: 0.3.0 is rejected. -/
theorem C16_invdes_full_false :
    (¬ ∀ a b c : Int, invdesVersion [a, b, c] = .accepted ↔ atLeast 0 2 3 a b c) ∧
    (¬ ∀ a b c : Int, invdesVersion [a, b, c] = .accepted ↔ atLeast 0 2 1 a b c) := by
  constructor
  · intro h
    have := (h 0 3 0).2 (Or.inr ⟨rfl, Or.inl (by decide)⟩)
    revert this
    decide
  · intro h
    have := (h 0 3 0).2 (Or.inr ⟨rfl, Or.inl (by decide)⟩)
    revert this
    decide

example : goosVersion [0, 3, 0] = .accepted ∧ invdesVersion [0, 2, 3] = .accepted := by decide

end Verif.Schema
