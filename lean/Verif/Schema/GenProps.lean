import Verif.Schema.Gen
import Mathlib.Data.List.Nodup
import Mathlib.Tactic.Push
/-
Property C116: schemas generated from constructors.
-/
set_option linter.unusedSimpArgs false
namespace Verif.Schema.Gen

/-! ### Annotations -/

/-- The annotations the documentation promises (88-100): numbers, strings, truth values, arrays, nodes,
models, and lists and unions of such. -/
inductive Supported : Ann → Prop
  | int : Supported .int
  | float : Supported .float
  | str : Supported .str
  | bool : Supported .bool
  | complex : Supported .complex
  | array : Supported .array
  | node (c : Nat) : Supported (.node c)
  | model (c : Nat) : Supported (.model c)
  | oldModel (c : Nat) : Supported (.oldModel c)
  | list {t : Ann} : Supported t → Supported (.list t)
  | union {ts : List Ann} : (∀ t ∈ ts, Supported t) → Supported (.union ts)

mutual
theorem convert_ok_iff : ∀ t, (∃ s, convert t = .ok s) ↔ Supported t
  | .int => by simp [convert, Supported.int]
  | .float => by simp [convert, Supported.float]
  | .str => by simp [convert, Supported.str]
  | .bool => by simp [convert, Supported.bool]
  | .complex => by simp [convert, Supported.complex]
  | .array => by simp [convert, Supported.array]
  | .node c => by simp [convert, Supported.node]
  | .model c => by simp [convert, Supported.model]
  | .oldModel c => by simp [convert, Supported.oldModel]
  | .generic => by simp only [convert]; exact ⟨fun ⟨_, h⟩ => by (cases h), fun h => by (cases h)⟩
  | .cls c => by simp only [convert]; exact ⟨fun ⟨_, h⟩ => by (cases h), fun h => by (cases h)⟩
  | .special => by simp only [convert]; exact ⟨fun ⟨_, h⟩ => by (cases h), fun h => by (cases h)⟩
  | .list t => by
    have ih := convert_ok_iff t
    simp only [convert]
    cases h : convert t with
    | error e =>
      refine ⟨fun ⟨_, h⟩ => (by cases h), fun hs => ?_⟩
      cases hs with
      | list hs => obtain ⟨s, hs⟩ := ih.2 hs; rw [h] at hs; cases hs
    | ok s => exact ⟨fun _ => .list (ih.1 ⟨s, h⟩), fun _ => ⟨_, rfl⟩⟩
  | .union ts => by
    have ih := convertAll_ok_iff ts
    simp only [convert]
    cases h : convertAll ts with
    | error e =>
      refine ⟨fun ⟨_, h⟩ => (by cases h), fun hs => ?_⟩
      cases hs with
      | union hs => obtain ⟨s, hs⟩ := ih.2 hs; rw [h] at hs; cases hs
    | ok s => exact ⟨fun _ => .union (ih.1 ⟨s, h⟩), fun _ => ⟨_, rfl⟩⟩
theorem convertAll_ok_iff : ∀ ts, (∃ l, convertAll ts = .ok l) ↔ ∀ t ∈ ts, Supported t
  | [] => by simp [convertAll]
  | t :: ts => by
    have ih1 := convert_ok_iff t
    have ih2 := convertAll_ok_iff ts
    simp only [convertAll, List.mem_cons, forall_eq_or_imp, ← ih1, ← ih2]
    cases convert t with
    | error e => simp
    | ok s => cases convertAll ts <;> simp
end

/-- C116 (annotations): a schema type exists exactly for the documented annotations. -/
theorem annotation_supported_iff (t : Ann) : (∃ s, convert t = .ok s) ↔ Supported t := convert_ok_iff t

mutual
/-- The value obeys the annotation, as Python's type checkers understand it (an integer is a float and
a complex number); `sub a b`: class `a` is derived from `b`. -/
def Obeys (sub : Nat → Nat → Prop) : Ann → Val → Prop
  | .int, v => ∃ n, v = .int n
  | .float, v => (∃ n, v = .int n) ∨ ∃ q, v = .float q
  | .str, v => ∃ s, v = .str s
  | .bool, v => ∃ b, v = .bool b
  | .complex, v => (∃ n, v = .int n) ∨ (∃ q, v = .float q) ∨ ∃ a b, v = .complex a b
  | .array, v => ∃ l, v = .array l
  | .union ts, v => ObeysAny sub ts v
  | .list t, v => ∃ l, v = .list l ∧ ∀ x ∈ l, Obeys sub t x
  | .node c, v => ∃ c' w n, v = .node c' w n ∧ sub c' c
  | .model c, v => ∃ c', v = .model c' ∧ sub c' c
  | .oldModel c, v => ∃ c', v = .model c' ∧ sub c' c
  | .generic, _ => False
  | .cls c, v => c = 0 ∧ v = .none
  | .special, _ => True
/-- One of the annotations is obeyed. -/
def ObeysAny (sub : Nat → Nat → Prop) : List Ann → Val → Prop
  | [], _ => False
  | t :: ts, v => Obeys sub t v ∨ ObeysAny sub ts v
end

mutual
/-- The value is one of the values of the schema type. -/
def Fits (sub : Nat → Nat → Prop) : SType → Val → Prop
  | .int, v => ∃ n, v = .int n
  | .float, v => (∃ n, v = .int n) ∨ ∃ q, v = .float q
  | .string, v => ∃ s, v = .str s
  | .boolean, v => ∃ b, v = .bool b
  | .complex, v => (∃ n, v = .int n) ∨ (∃ q, v = .float q) ∨ ∃ a b, v = .complex a b
  | .array, v => ∃ l, v = .array l
  | .union ts, v => FitsAny sub ts v
  | .list t, v => ∃ l, v = .list l ∧ ∀ x ∈ l, Fits sub t x
  | .ref c, v => ∃ c' w n, v = .node c' w n ∧ sub c' c
  | .poly c, v => ∃ c', v = .model c' ∧ sub c' c
/-- One of the types fits. -/
def FitsAny (sub : Nat → Nat → Prop) : List SType → Val → Prop
  | [], _ => False
  | t :: ts, v => Fits sub t v ∨ FitsAny sub ts v
end

mutual
theorem convert_fits (sub : Nat → Nat → Prop) : ∀ t s, convert t = .ok s → ∀ v, Obeys sub t v ↔ Fits sub s v
  | .int, s, h, v => by cases h; simp only [Obeys, Fits]
  | .float, s, h, v => by cases h; simp only [Obeys, Fits]
  | .str, s, h, v => by cases h; simp only [Obeys, Fits]
  | .bool, s, h, v => by cases h; simp only [Obeys, Fits]
  | .complex, s, h, v => by cases h; simp only [Obeys, Fits]
  | .array, s, h, v => by cases h; simp only [Obeys, Fits]
  | .node c, s, h, v => by cases h; simp only [Obeys, Fits]
  | .model c, s, h, v => by cases h; simp only [Obeys, Fits]
  | .oldModel c, s, h, v => by cases h; simp only [Obeys, Fits]
  | .generic, s, h, v => by cases h
  | .cls c, s, h, v => by cases h
  | .special, s, h, v => by cases h
  | .list t, s, h, v => by
    simp only [convert] at h
    cases h1 : convert t with
    | error e => rw [h1] at h; cases h
    | ok s' =>
      rw [h1] at h
      cases h
      simp only [Obeys, Fits, convert_fits sub t s' h1]
  | .union ts, s, h, v => by
    simp only [convert] at h
    cases h1 : convertAll ts with
    | error e => rw [h1] at h; cases h
    | ok l =>
      rw [h1] at h
      cases h
      simp only [Obeys, Fits, convertAll_fits sub ts l h1]
theorem convertAll_fits (sub : Nat → Nat → Prop) :
    ∀ ts l, convertAll ts = .ok l → ∀ v, ObeysAny sub ts v ↔ FitsAny sub l v
  | [], l, h, v => by cases h; simp only [ObeysAny, FitsAny]
  | t :: ts, l, h, v => by
    simp only [convertAll] at h
    cases h1 : convert t with
    | error e => rw [h1] at h; cases h
    | ok s' =>
      rw [h1] at h
      cases h2 : convertAll ts with
      | error e => rw [h2] at h; cases h
      | ok l' =>
        rw [h2] at h
        cases h
        simp only [ObeysAny, FitsAny, convert_fits sub t s' h1, convertAll_fits sub ts l' h2]
end

/-- C116 (annotations): the schema type has exactly the values the annotation allows. -/
theorem converted_type_values (sub : Nat → Nat → Prop) (t : Ann) (s : SType) (h : convert t = .ok s)
    (v : Val) : Obeys sub t v ↔ Fits sub s v := convert_fits sub t s h v

/-- Optional parameters (`Optional[X]` is the union of `X` and `NoneType`) are not supported. -/
theorem optional_false (t : Ann) : ¬ ∃ s, convert (.union [t, .cls 0]) = .ok s := by
  rw [annotation_supported_iff]
  intro h
  cases h with
  | union h => have := h (.cls 0) (by simp); cases this

/-! ### Dictionaries -/

section
variable {A : Type}

theorem look_put (k k' : Str) (a : A) (s : List (Str × A)) :
    look k (put k' a s) = if k' = k then some a else look k s := by
  induction s with
  | nil => simp [put, look]
  | cons e s ih =>
    obtain ⟨k0, a0⟩ := e
    simp only [put]
    by_cases h0 : k0 = k'
    · subst h0
      by_cases h1 : k0 = k <;> simp [look, h1]
    · simp only [h0, if_false, look, ih]
      by_cases h1 : k0 = k
      · have : ¬ k' = k := fun h => h0 (h1.trans h.symm)
        simp [h1, this]
      · simp [h1]

theorem keys_put (k : Str) (a : A) (s : List (Str × A)) (x : Str) :
    x ∈ (put k a s).map Prod.fst ↔ x = k ∨ x ∈ s.map Prod.fst := by
  induction s with
  | nil => simp [put]
  | cons e s ih =>
    obtain ⟨k0, a0⟩ := e
    simp only [put]
    by_cases h0 : k0 = k
    · simp [h0]
    · simp only [h0, if_false, List.map_cons, List.mem_cons, ih]
      tauto

theorem nodup_put (k : Str) (a : A) (s : List (Str × A)) (h : (s.map Prod.fst).Nodup) :
    ((put k a s).map Prod.fst).Nodup := by
  induction s with
  | nil => simp [put]
  | cons e s ih =>
    obtain ⟨k0, a0⟩ := e
    rw [List.map_cons, List.nodup_cons] at h
    simp only [put]
    by_cases h0 : k0 = k
    · subst h0
      simpa using h
    · simp only [h0, if_false, List.map_cons, List.nodup_cons]
      refine ⟨fun hx => ?_, ih h.2⟩
      rcases (keys_put k a s k0).1 hx with h1 | h1
      · exact h0 h1
      · exact h.1 h1

theorem nodup_putAll (l s : List (Str × A)) (h : (s.map Prod.fst).Nodup) :
    ((putAll l s).map Prod.fst).Nodup := by
  induction l generalizing s with
  | nil => exact h
  | cons e l ih => exact ih _ (nodup_put _ _ _ h)

theorem keys_putAll (l s : List (Str × A)) (x : Str) :
    x ∈ (putAll l s).map Prod.fst ↔ x ∈ l.map Prod.fst ∨ x ∈ s.map Prod.fst := by
  induction l generalizing s with
  | nil => simp [putAll]
  | cons e l ih =>
    obtain ⟨k0, a0⟩ := e
    simp only [putAll, ih, keys_put, List.map_cons, List.mem_cons]
    tauto

theorem look_none_iff (k : Str) (s : List (Str × A)) : look k s = none ↔ k ∉ s.map Prod.fst := by
  induction s with
  | nil => simp [look]
  | cons e s ih =>
    obtain ⟨k0, a0⟩ := e
    by_cases h : k0 = k
    · simp [look, h]
    · have : ¬ k = k0 := fun h' => h h'.symm
      simp [look, h, ih, this]

theorem look_putAll (l s : List (Str × A)) (hl : (l.map Prod.fst).Nodup) (k : Str) :
    look k (putAll l s) = (look k l).or (look k s) := by
  induction l generalizing s with
  | nil => simp [putAll, look]
  | cons e l ih =>
    obtain ⟨k0, a0⟩ := e
    rw [List.map_cons, List.nodup_cons] at hl
    simp only [putAll, ih _ hl.2, look_put, look]
    by_cases h : k0 = k
    · have : look k l = none := (look_none_iff k l).2 (h ▸ hl.1)
      simp [h, this]
    · simp [h]

theorem look_of_mem (s : List (Str × A)) (hs : (s.map Prod.fst).Nodup) (e : Str × A) (he : e ∈ s) :
    look e.1 s = some e.2 := by
  induction s with
  | nil => cases he
  | cons e0 s ih =>
    obtain ⟨k0, a0⟩ := e0
    rw [List.map_cons, List.nodup_cons] at hs
    rcases List.mem_cons.1 he with rfl | he
    · simp [look]
    · have : k0 ≠ e.1 := fun h => hs.1 (List.mem_map.2 ⟨e, he, h.symm⟩)
      simp [look, this, ih hs.2 he]

theorem mem_of_look (s : List (Str × A)) (k : Str) (a : A) (h : look k s = some a) : (k, a) ∈ s := by
  induction s with
  | nil => cases h
  | cons e0 s ih =>
    obtain ⟨k0, a0⟩ := e0
    simp only [look] at h
    split at h
    · rename_i h0; cases h; simp [h0]
    · exact List.mem_cons_of_mem _ (ih h)

theorem look_filter (s : List (Str × A)) (hs : (s.map Prod.fst).Nodup) (p : Str × A → Bool) (k : Str) :
    look k (s.filter p) = (look k s).bind fun a => if p (k, a) then some a else none := by
  induction s with
  | nil => simp [look]
  | cons e0 s ih =>
    obtain ⟨k0, a0⟩ := e0
    rw [List.map_cons, List.nodup_cons] at hs
    have ih := ih hs.2
    by_cases h0 : k0 = k
    · subst h0
      have hn : look k0 s = none := (look_none_iff k0 s).2 hs.1
      by_cases hp : p (k0, a0)
      · simp [List.filter_cons, hp, look]
      · simp [List.filter_cons, hp, look, ih, hn]
    · by_cases hp : p (k0, a0)
      · simp [List.filter_cons, hp, look, h0, ih]
      · simp [List.filter_cons, hp, look, h0, ih]

theorem look_map (fs : List (Str × A)) {B : Type} (g : Str → A → B) (k : Str) :
    look k (fs.map fun e => (e.1, g e.1 e.2)) = (look k fs).map (g k) := by
  induction fs with
  | nil => rfl
  | cons e fs ih =>
    obtain ⟨k0, a0⟩ := e
    by_cases h : k0 = k
    · simp [look, h]
    · simp [look, h, ih]

theorem look_append (l s : List (Str × A)) (k : Str) : look k (l ++ s) = (look k l).or (look k s) := by
  induction l with
  | nil => simp [look]
  | cons e l ih =>
    obtain ⟨k0, a0⟩ := e
    by_cases h : k0 = k <;> simp [look, h, ih]
end

/-! ### Classes -/

/-- A parameter a node class may have. -/
structure GoodParam (p : Param) : Prop where
  name : p.name ≠ kName ∧ p.name ≠ kType
  ann : ∃ a, p.ann = some a ∧ Supported a
  fixed : p.variadic = false
  default : ∀ x y l, p.default ≠ some (.array (x :: y :: l))

theorem neEmpty_ok_iff (o : Option Val) : (∃ b, neEmpty o = .ok b) ↔ ∀ x y l, o ≠ some (.array (x :: y :: l)) := by
  rcases o with _ | v
  · simp [neEmpty]
  · cases v with
    | array l => rcases l with _ | ⟨x, _ | ⟨y, l⟩⟩ <;> simp [neEmpty]
    | _ => simp [neEmpty]

theorem checkParam_ok_iff (p : Param) : checkParam p = .ok () ↔
    (p.name ≠ kName ∧ p.name ≠ kType) ∧ p.ann.isSome ∧ p.variadic = false ∧
      ∀ x y l, p.default ≠ some (.array (x :: y :: l)) := by
  rw [← neEmpty_ok_iff]
  unfold checkParam
  by_cases h1 : p.name = kName ∨ p.name = kType
  · simp only [h1, if_true]
    refine ⟨fun h => (by cases h), fun h => ?_⟩
    rcases h1 with h1 | h1
    · exact absurd h1 h.1.1
    · exact absurd h1 h.1.2
  · push Not at h1
    rw [if_neg (by tauto)]
    cases ha : p.ann with
    | none => simp
    | some a =>
      simp only [Option.isNone_some, Bool.false_eq_true, if_false]
      cases hd : neEmpty p.default with
      | error e => simp
      | ok b => cases p.variadic <;> simp [h1]

theorem checkParams_ok_iff (ps : List Param) : checkParams ps = .ok () ↔ ∀ p ∈ ps, checkParam p = .ok () := by
  induction ps with
  | nil => simp [checkParams]
  | cons p ps ih =>
    simp only [checkParams, List.mem_cons, forall_eq_or_imp]
    cases h : checkParam p with
    | error e => simp
    | ok u => cases u; simp [ih]

theorem convertParam_ok_iff (a : Ann) (o : Option Val) : (∃ f, convertParam a o = .ok f) ↔
    Supported a ∧ ∀ x y l, o ≠ some (.array (x :: y :: l)) := by
  rw [← neEmpty_ok_iff, ← annotation_supported_iff]
  unfold convertParam
  cases convert a with
  | error e => simp
  | ok s =>
    cases neEmpty o with
    | error e => simp
    | ok b => cases b <;> simp

theorem convertParams_ok_iff (ps : List Param) : (∃ l, convertParams ps = .ok l) ↔
    ∀ p ∈ ps, (∃ a, p.ann = some a ∧ Supported a) ∧ ∀ x y l, p.default ≠ some (.array (x :: y :: l)) := by
  induction ps with
  | nil => simp [convertParams]
  | cons p ps ih =>
    simp only [convertParams, List.mem_cons, forall_eq_or_imp, ← ih]
    cases ha : p.ann with
    | none => simp
    | some a =>
      have h := convertParam_ok_iff a p.default
      simp only [Option.some.injEq, exists_eq_left', ← h]
      cases convertParam a p.default with
      | error e => simp
      | ok f => cases convertParams ps <;> simp

/-- C116 (definition): a node class with its own constructor can be defined exactly if its type is new
and every parameter has an admissible name, a supported annotation, a fixed position, and no array of
several entries as default. -/
theorem define_succeeds_iff (cs : List Cls) (t : Str) (bases : List Nat) (ps : List Param) :
    (∃ cs', define cs ⟨t, bases, some ps, none⟩ = .ok cs') ↔
      t ∉ cs.map Cls.nodeType ∧ ∀ p ∈ ps, GoodParam p := by
  have hg : (∀ p ∈ ps, GoodParam p) ↔ checkParams ps = .ok () ∧ ∃ l, convertParams ps = .ok l := by
    rw [checkParams_ok_iff, convertParams_ok_iff]
    constructor
    · exact fun h => ⟨fun p hp => (checkParam_ok_iff p).2 ⟨(h p hp).name,
        (by obtain ⟨a, ha, -⟩ := (h p hp).ann; simp [ha]), (h p hp).fixed, (h p hp).default⟩,
        fun p hp => ⟨(h p hp).ann, (h p hp).default⟩⟩
    · rintro ⟨h1, h2⟩ p hp
      have := (checkParam_ok_iff p).1 (h1 p hp)
      exact ⟨this.1, (h2 p hp).1, this.2.2.1, this.2.2.2⟩
  rw [hg]
  unfold define
  simp only [signature]
  cases checkParams ps with
  | error e => simp
  | ok u =>
    cases u
    cases convertParams ps with
    | error e => simp
    | ok l =>
      by_cases ht : t ∈ cs.map Cls.nodeType
      · simp [ht]
      · have ht' : (cs.map Cls.nodeType).contains t = false := by simpa using ht
        simp only [ht, ht', Bool.false_eq_true, if_false, not_false_eq_true, true_and]
        exact ⟨fun _ => ⟨l, rfl⟩, fun _ => ⟨_, rfl⟩⟩

/-- The result of a successful definition. -/
theorem define_ok {cs cs' : List Cls} {d : Decl} (h : define cs d = .ok cs') :
    checkParams (signature cs d) = .ok () ∧ d.nodeType ∉ cs.map Cls.nodeType ∧ ∃ fs,
      cs' = cs ++ [⟨d.nodeType, d.bases, signature cs d, d.init.isSome, fs,
        if d.schema.isSome then [] else d.bases, d.schema.isSome⟩] ∧
      (∀ s, d.schema = some s → fs = s) ∧
      (d.schema = none → d.init = none → fs = inherited cs d.bases) ∧
      (∀ ps, d.schema = none → d.init = some ps → ∃ l, convertParams ps = .ok l ∧
        fs = putAll (put kType (typeField d.nodeType) (putAll l [])) (inherited cs d.bases)) := by
  obtain ⟨t, bases, init, schema⟩ := d
  unfold define at h
  cases h1 : checkParams (signature cs ⟨t, bases, init, schema⟩) with
  | error e => rw [h1] at h; cases h
  | ok u =>
    cases u
    rw [h1] at h
    simp only at h
    refine ⟨rfl, ?_⟩
    rcases schema with _ | s
    · rcases init with _ | ps
      · simp only at h
        split at h
        · cases h
        · rename_i hn
          cases h
          refine ⟨by simpa using hn, _, rfl, by simp, by simp, by simp⟩
      · simp only at h
        cases h2 : convertParams ps with
        | error e => rw [h2] at h; cases h
        | ok l =>
          rw [h2] at h
          simp only at h
          split at h
          · cases h
          · rename_i hn
            cases h
            refine ⟨by simpa using hn, _, rfl, by simp, by simp, ?_⟩
            intro ps' _ hps
            cases hps
            exact ⟨l, h2, rfl⟩
    · simp only at h
      split at h
      · cases h
      · rename_i hn
        cases h
        exact ⟨by simpa using hn, _, rfl, by simp, by simp, by simp⟩

theorem convertParams_keys (ps : List Param) (l : Fields) (h : convertParams ps = .ok l) :
    l.map Prod.fst = ps.map Param.name := by
  induction ps generalizing l with
  | nil => cases h; rfl
  | cons p ps ih =>
    simp only [convertParams] at h
    cases ha : p.ann with
    | none => rw [ha] at h; cases h
    | some a =>
      rw [ha] at h
      simp only at h
      cases h1 : convertParam a p.default with
      | error e => rw [h1] at h; cases h
      | ok f =>
        rw [h1] at h
        simp only at h
        cases h2 : convertParams ps with
        | error e => rw [h2] at h; cases h
        | ok l' => rw [h2] at h; cases h; simp [ih l' h2]

theorem convertParams_look (ps : List Param) (l : Fields) (h : convertParams ps = .ok l)
    (hn : (ps.map Param.name).Nodup) (p : Param) (hp : p ∈ ps) :
    ∃ a f, p.ann = some a ∧ convertParam a p.default = .ok f ∧ look p.name l = some f := by
  induction ps generalizing l with
  | nil => cases hp
  | cons q ps ih =>
    simp only [convertParams] at h
    cases ha : q.ann with
    | none => rw [ha] at h; cases h
    | some a =>
      rw [ha] at h
      simp only at h
      cases h1 : convertParam a q.default with
      | error e => rw [h1] at h; cases h
      | ok f =>
        rw [h1] at h
        simp only at h
        cases h2 : convertParams ps with
        | error e => rw [h2] at h; cases h
        | ok l' =>
          rw [h2] at h
          cases h
          rw [List.map_cons, List.nodup_cons] at hn
          rcases List.mem_cons.1 hp with rfl | hp
          · exact ⟨a, f, ha, h1, by simp [look]⟩
          · obtain ⟨a', f', k1, k2, k3⟩ := ih l' h2 hn.2 hp
            have : q.name ≠ p.name := fun h => hn.1 (h ▸ List.mem_map.2 ⟨p, hp, rfl⟩)
            exact ⟨a', f', k1, k2, by simp [look, this, k3]⟩

theorem inherited_nodup (cs : List Cls) (bases : List Nat) : ((inherited cs bases).map Prod.fst).Nodup := by
  unfold inherited
  suffices ∀ (l : List Nat) (s : Fields), (s.map Prod.fst).Nodup →
      ((l.foldl (fun s b => match cs[b]? with
        | none => s
        | some c => putAll c.fields s) s).map Prod.fst).Nodup from this _ [] (by simp)
  intro l
  induction l with
  | nil => exact fun s h => h
  | cons b l ih =>
    intro s h
    rw [List.foldl_cons]
    apply ih
    cases cs[b]? with
    | none => exact h
    | some c => exact nodup_putAll _ _ h

theorem inherited_keys (cs : List Cls) (bases : List Nat) (k : Str) :
    k ∈ (inherited cs bases).map Prod.fst ↔ ∃ b ∈ bases, ∃ c, cs[b]? = some c ∧ k ∈ c.fields.map Prod.fst := by
  unfold inherited
  suffices ∀ (l : List Nat) (s : Fields), (k ∈ (l.foldl (fun s b => match cs[b]? with
        | none => s
        | some c => putAll c.fields s) s).map Prod.fst ↔
        k ∈ s.map Prod.fst ∨ ∃ b ∈ l, ∃ c, cs[b]? = some c ∧ k ∈ c.fields.map Prod.fst) by
    refine (this _ []).trans ?_
    simp
  intro l
  induction l with
  | nil => simp
  | cons b l ih =>
    intro s
    rw [List.foldl_cons, ih]
    simp only [List.mem_cons, exists_eq_or_imp]
    cases hb : cs[b]? with
    | none => simp
    | some c => simp only [keys_putAll, Option.some.injEq, exists_eq_left']; tauto

/-- What holds of every class of a program. -/
structure Inv (cs : List Cls) : Prop where
  types : (cs.map Cls.nodeType).Nodup
  bases : ∀ (i : Nat) (c : Cls), cs[i]? = some c → ∀ b ∈ c.bases, b < i
  schemaBases : ∀ (i : Nat) (c : Cls), cs[i]? = some c → c.schemaBases = if c.custom then [] else c.bases
  nodup : ∀ (i : Nat) (c : Cls), cs[i]? = some c → (c.fields.map Prod.fst).Nodup
  named : ∀ (i : Nat) (c : Cls), cs[i]? = some c → kName ∈ c.fields.map Prod.fst
  own : ∀ (i : Nat) (c : Cls), cs[i]? = some c → c.ownInit = true → c.custom = false →
    (c.init.map Param.name).Nodup ∧ look kType c.fields = some (typeField c.nodeType) ∧
    ∀ p ∈ c.init, GoodParam p ∧ ∃ a f, p.ann = some a ∧ convertParam a p.default = .ok f ∧
      look p.name c.fields = some f
  keys : ∀ (i : Nat) (c : Cls), cs[i]? = some c → c.ownInit = true → c.custom = false → ∀ k,
    k ∈ c.fields.map Prod.fst ↔ k = kType ∨ k ∈ c.init.map Param.name ∨
      ∃ b ∈ c.bases, ∃ c', cs[b]? = some c' ∧ k ∈ c'.fields.map Prod.fst
  inherits : ∀ (i : Nat) (c : Cls), cs[i]? = some c → c.ownInit = false → c.custom = false →
    c.fields = inherited cs c.bases
  others : ∀ (i : Nat) (c : Cls), cs[i]? = some c → c.ownInit = true → c.custom = false → ∀ k, k ≠ kType →
    k ∉ c.init.map Param.name → look k c.fields = look k (inherited cs c.bases)

/-- The field of the first base that has one. -/
theorem look_inherited (cs : List Cls) (hn : ∀ (i : Nat) (c : Cls), cs[i]? = some c → (c.fields.map Prod.fst).Nodup)
    (bases : List Nat) (k : Str) :
    look k (inherited cs bases) = bases.findSome? fun b => (cs[b]?).bind fun c => look k c.fields := by
  unfold inherited
  induction bases with
  | nil => rfl
  | cons b l ih =>
    rw [List.reverse_cons, List.foldl_append, List.foldl_cons, List.foldl_nil, List.findSome?_cons, ← ih]
    cases hb : cs[b]? with
    | none => simp
    | some c =>
      simp only [Option.bind_some]
      rw [look_putAll _ _ (hn b c hb)]
      cases look k c.fields <;> rfl

theorem inherited_append (cs : List Cls) (c : Cls) (bases : List Nat) (h : ∀ b ∈ bases, b < cs.length) :
    inherited (cs ++ [c]) bases = inherited cs bases := by
  unfold inherited
  have : ∀ (l : List Nat) (s : Fields), (∀ b ∈ l, b < cs.length) →
      l.foldl (fun s b => match (cs ++ [c])[b]? with
        | none => s
        | some c => putAll c.fields s) s = l.foldl (fun s b => match cs[b]? with
        | none => s
        | some c => putAll c.fields s) s := by
    intro l
    induction l with
    | nil => exact fun _ _ => rfl
    | cons b l ih =>
      intro s hl
      rw [List.foldl_cons, List.foldl_cons, List.getElem?_append_left (hl b (by simp))]
      exact ih _ fun b' hb' => hl b' (List.mem_cons_of_mem _ hb')
  exact this _ [] (by simpa using h)

theorem Program.inv {cs : List Cls} (h : Program cs) : Inv cs := by
  induction h with
  | base =>
    have key : ∀ {i : Nat} {c : Cls}, Gen.base[i]? = some c → i = 0 ∧ c = ⟨"goos.problem_graph_node".toList, [],
        [], true, [(kName, ⟨.string, none, true⟩)], [], true⟩ := by
      intro i c h
      rcases i with _ | i
      · cases h; exact ⟨rfl, rfl⟩
      · simp [Gen.base] at h
    refine ⟨by simp [Gen.base], ?_, ?_, ?_, ?_, ?_, ?_, ?_, ?_⟩ <;> intro i c hc <;> obtain ⟨rfl, rfl⟩ := key hc <;> simp
  | @define cs cs' d _ hok hdef ih =>
    obtain ⟨hcheck, hnew, fs, rfl, hcustom, hinh, hown⟩ := define_ok hdef
    have hlast : ∀ {i : Nat} {c : Cls}, (cs ++ [⟨d.nodeType, d.bases, signature cs d, d.init.isSome, fs,
        if d.schema.isSome then [] else d.bases, d.schema.isSome⟩])[i]? = some c →
        (i < cs.length ∧ cs[i]? = some c) ∨ (i = cs.length ∧ c = ⟨d.nodeType, d.bases, signature cs d,
          d.init.isSome, fs, if d.schema.isSome then [] else d.bases, d.schema.isSome⟩) := by
      intro i c h
      by_cases hi : i < cs.length
      · rw [List.getElem?_append_left hi] at h
        exact .inl ⟨hi, h⟩
      · rw [List.getElem?_append_right (by omega)] at h
        rcases hk : i - cs.length with _ | k
        · rw [hk] at h
          cases h
          exact .inr ⟨by omega, rfl⟩
        · rw [hk] at h; simp at h
    have hmem : ∀ k, (k ∈ (inherited cs d.bases).map Prod.fst ↔
        ∃ b ∈ d.bases, ∃ c, cs[b]? = some c ∧ k ∈ c.fields.map Prod.fst) := inherited_keys cs d.bases
    have hname : kName ∈ (inherited cs d.bases).map Prod.fst := by
      rw [hmem]
      obtain ⟨b, hb⟩ := List.exists_mem_of_ne_nil _ hok.bases_ne
      have hlt := hok.bases_lt b hb
      exact ⟨b, hb, cs[b], List.getElem?_eq_getElem hlt, ih.named b _ (List.getElem?_eq_getElem hlt)⟩
    have hfs : (fs.map Prod.fst).Nodup ∧ kName ∈ fs.map Prod.fst := by
      cases hs : d.schema with
      | some s => rw [hcustom s hs]; exact hok.custom s hs
      | none =>
        cases hi : d.init with
        | none => rw [hinh hs hi]; exact ⟨inherited_nodup _ _, hname⟩
        | some ps =>
          obtain ⟨l, -, rfl⟩ := hown ps hs hi
          exact ⟨nodup_putAll _ _ (inherited_nodup _ _), (keys_putAll _ _ _).2 (.inr hname)⟩
    have happ : ∀ {b : Nat} {c : Cls} (x : Cls), cs[b]? = some c → (cs ++ [x])[b]? = some c := by
      intro b c x h
      have : b < cs.length := by
        by_contra hb
        rw [List.getElem?_eq_none (by omega)] at h
        cases h
      rw [List.getElem?_append_left this]; exact h
    have hback : ∀ {bases : List Nat} (x : Cls) (k : Str), (∀ b ∈ bases, b < cs.length) →
        ((∃ b ∈ bases, ∃ c, (cs ++ [x])[b]? = some c ∧ k ∈ c.fields.map Prod.fst) ↔
        ∃ b ∈ bases, ∃ c, cs[b]? = some c ∧ k ∈ c.fields.map Prod.fst) := by
      intro bases x k hlt
      constructor
      · rintro ⟨b, hb, c, hc, hk⟩
        rw [List.getElem?_append_left (hlt b hb)] at hc
        exact ⟨b, hb, c, hc, hk⟩
      · rintro ⟨b, hb, c, hc, hk⟩
        exact ⟨b, hb, c, happ x hc, hk⟩
    refine ⟨?_, ?_, ?_, ?_, ?_, ?_, ?_, ?_, ?_⟩
    · rw [List.map_append, List.nodup_append]
      refine ⟨ih.types, by simp, ?_⟩
      intro a ha b hb
      simp only [List.map_cons, List.map_nil, List.mem_cons, List.not_mem_nil, or_false] at hb
      rintro rfl
      exact hnew (hb ▸ ha)
    · intro i c hc b hb
      rcases hlast hc with ⟨-, hc⟩ | ⟨rfl, rfl⟩
      · exact ih.bases i c hc b hb
      · exact hok.bases_lt b hb
    · intro i c hc
      rcases hlast hc with ⟨-, hc⟩ | ⟨rfl, rfl⟩
      · exact ih.schemaBases i c hc
      · rfl
    · intro i c hc
      rcases hlast hc with ⟨-, hc⟩ | ⟨rfl, rfl⟩
      · exact ih.nodup i c hc
      · exact hfs.1
    · intro i c hc
      rcases hlast hc with ⟨-, hc⟩ | ⟨rfl, rfl⟩
      · exact ih.named i c hc
      · exact hfs.2
    · intro i c hc h1 h2
      rcases hlast hc with ⟨-, hc⟩ | ⟨rfl, rfl⟩
      · exact ih.own i c hc h1 h2
      · obtain ⟨ps, hps⟩ := Option.isSome_iff_exists.1 h1
        have hs : d.schema = none := by simpa using h2
        obtain ⟨l, hl, rfl⟩ := hown ps hs hps
        have hnd := hok.params ps hps
        have hkeys := convertParams_keys ps l hl
        have hsig : signature cs d = ps := by simp [signature, hps]
        have hcheck' := (checkParams_ok_iff ps).1 (hsig ▸ hcheck)
        have hcv := (convertParams_ok_iff ps).1 ⟨l, hl⟩
        have hl0 : ((putAll l ([] : Fields)).map Prod.fst).Nodup := nodup_putAll _ _ (by simp)
        have hl1 := nodup_put kType (typeField d.nodeType) (putAll l []) hl0
        have hnd' : (l.map Prod.fst).Nodup := by rw [hkeys]; exact hnd
        refine ⟨by rw [hsig]; exact hnd, ?_, ?_⟩
        · rw [look_putAll _ _ hl1, look_put]
          simp
        · intro p hp
          have hp : p ∈ ps := by rw [← hsig]; exact hp
          have hc := (checkParam_ok_iff p).1 (hcheck' p hp)
          refine ⟨⟨hc.1, (hcv p hp).1, hc.2.2.1, hc.2.2.2⟩, ?_⟩
          obtain ⟨a, f, k1, k2, k3⟩ := convertParams_look ps l hl hnd p hp
          refine ⟨a, f, k1, k2, ?_⟩
          rw [look_putAll _ _ hl1, look_put, if_neg (Ne.symm hc.1.2), look_putAll _ _ hnd', k3]
          rfl
    · intro i c hc h1 h2 k
      rcases hlast hc with ⟨hi, hc⟩ | ⟨rfl, rfl⟩
      · rw [ih.keys i c hc h1 h2 k, hback _ k (fun b hb => lt_trans (ih.bases i c hc b hb) hi)]
      · obtain ⟨ps, hps⟩ := Option.isSome_iff_exists.1 h1
        have hs : d.schema = none := by simpa using h2
        obtain ⟨l, hl, rfl⟩ := hown ps hs hps
        have hkeys := convertParams_keys ps l hl
        have hsig : signature cs d = ps := by simp [signature, hps]
        rw [hback _ k hok.bases_lt, ← hmem]
        show k ∈ List.map Prod.fst _ ↔ _
        rw [keys_putAll, keys_put, keys_putAll, hkeys, hsig]
        simp [or_assoc]
    · intro i c hc h1 h2
      rcases hlast hc with ⟨hi, hc⟩ | ⟨rfl, rfl⟩
      · rw [ih.inherits i c hc h1 h2, inherited_append]
        exact fun b hb => lt_trans (ih.bases i c hc b hb) hi
      · have hi : d.init = none := by simpa using h1
        have hs : d.schema = none := by simpa using h2
        show fs = _
        rw [hinh hs hi, inherited_append _ _ _ hok.bases_lt]
    · intro i c hc h1 h2 k hk hk'
      rcases hlast hc with ⟨hi, hc⟩ | ⟨rfl, rfl⟩
      · rw [ih.others i c hc h1 h2 k hk hk', inherited_append]
        exact fun b hb => lt_trans (ih.bases i c hc b hb) hi
      · obtain ⟨ps, hps⟩ := Option.isSome_iff_exists.1 h1
        have hs : d.schema = none := by simpa using h2
        obtain ⟨l, hl, rfl⟩ := hown ps hs hps
        have hkeys := convertParams_keys ps l hl
        have hsig : signature cs d = ps := by simp [signature, hps]
        have hl1 := nodup_put kType (typeField d.nodeType) (putAll l []) (nodup_putAll _ _ (by simp))
        have hk' : k ∉ l.map Prod.fst := by rw [hkeys, ← hsig]; exact hk'
        rw [inherited_append _ _ _ hok.bases_lt]
        show look k (putAll _ _) = _
        have : look k (put kType (typeField d.nodeType) (putAll l ([] : Fields))) = none := by
          rw [look_none_iff, keys_put, keys_putAll]
          simp only [List.map_nil, List.not_mem_nil, or_false]
          rintro (h | h)
          · exact hk h
          · exact hk' h
        rw [look_putAll _ _ hl1, this]
        rfl

/-- C116 (fields): in every program, the schema of a class with its own constructor has for every
parameter a field with the values its annotation allows and its default, required if it has none; the field
`type` with the type of the class; and otherwise only fields of the schemas of its bases.
(An empty array as default is lost.) -/
theorem schema_fields {cs : List Cls} (h : Program cs) {i : Nat} {c : Cls} (hc : cs[i]? = some c)
    (hown : c.ownInit = true) (hcust : c.custom = false) :
    (∀ p ∈ c.init, ∃ a f, p.ann = some a ∧ look p.name c.fields = some f ∧
      (∀ sub v, Obeys sub a v ↔ Fits sub f.stype v) ∧
      (p.default = none → f.default = none ∧ f.required = true) ∧
      (∀ v, p.default = some v → v ≠ .array [] → f.default = some v ∧ f.required = false)) ∧
    look kType c.fields = some ⟨.string, some (.str c.nodeType), false⟩ ∧
    ∀ k, k ∈ c.fields.map Prod.fst ↔ k = kType ∨ k ∈ c.init.map Param.name ∨
      ∃ b ∈ c.bases, ∃ c', cs[b]? = some c' ∧ k ∈ c'.fields.map Prod.fst := by
  have hi := h.inv
  obtain ⟨-, h2, h3⟩ := hi.own i c hc hown hcust
  refine ⟨fun p hp => ?_, h2, hi.keys i c hc hown hcust⟩
  obtain ⟨-, a, f, k1, k2, k3⟩ := h3 p hp
  refine ⟨a, f, k1, k3, ?_⟩
  unfold convertParam at k2
  cases hs : convert a with
  | error e => rw [hs] at k2; cases k2
  | ok s =>
    rw [hs] at k2
    simp only at k2
    cases hd : neEmpty p.default with
    | error e => rw [hd] at k2; cases k2
    | ok b =>
      rw [hd] at k2
      cases b with
      | true =>
        cases k2
        refine ⟨fun sub v => converted_type_values sub a s hs v, fun hn => ?_, fun v hv _ => ⟨hv, rfl⟩⟩
        rw [hn] at hd; cases hd
      | false =>
        cases k2
        refine ⟨fun sub v => converted_type_values sub a s hs v, fun _ => ⟨rfl, rfl⟩, fun v hv hne => ?_⟩
        rw [hv] at hd
        cases v with
        | array l => rcases l with _ | ⟨x, _ | ⟨y, l⟩⟩ <;> simp [neEmpty] at hd hne
        | _ => simp [neEmpty] at hd

/-! ### Derivation -/

/-- `j` is `i` or one of its bases, directly or indirectly. -/
inductive Sub (cs : List Cls) : Nat → Nat → Prop
  | refl (i : Nat) : Sub cs i i
  | step {i b j : Nat} {c : Cls} : cs[i]? = some c → b ∈ c.bases → Sub cs b j → Sub cs i j

/-- Through the bases `up`. -/
inductive Above (up : Nat → List Nat) : Nat → Nat → Prop
  | refl (i : Nat) : Above up i i
  | step {i b j : Nat} : b ∈ up i → Above up b j → Above up i j

theorem derives_iff (up : Nat → List Nat) (hup : ∀ a, ∀ c ∈ up a, c < a) (n a b : Nat) (hn : a ≤ n) :
    derives up n a b = true ↔ Above up a b := by
  induction n generalizing a with
  | zero =>
    have h0 : a = 0 := by omega
    subst h0
    simp only [derives, decide_eq_true_eq]
    constructor
    · rintro rfl; exact .refl _
    · intro h
      cases h with
      | refl => rfl
      | step h1 _ => exact absurd (hup 0 _ h1) (by omega)
  | succ n ih =>
    simp only [derives, Bool.or_eq_true, decide_eq_true_eq, List.any_eq_true]
    constructor
    · rintro (rfl | ⟨c, hc, h⟩)
      · exact .refl _
      · exact .step hc ((ih c (by have := hup a c hc; omega)).1 h)
    · intro h
      cases h with
      | refl => exact .inl rfl
      | step h1 h2 => exact .inr ⟨_, h1, (ih _ (by have := hup a _ h1; omega)).2 h2⟩

/-- C116 (inherited fields): a field that is neither `type` nor a parameter of the class' own constructor is the one of the first
base that has a field of this name. -/
theorem inherited_fields {cs : List Cls} (h : Program cs) {i : Nat} {c : Cls} (hc : cs[i]? = some c) (hcust : c.custom = false)
    (k : Str) (hk : c.ownInit = true → k ≠ kType ∧ k ∉ c.init.map Param.name) :
    look k c.fields = c.bases.findSome? fun b => (cs[b]?).bind fun c' => look k c'.fields := by
  rw [← look_inherited cs h.inv.nodup]
  cases ho : c.ownInit with
  | false => rw [h.inv.inherits i c hc ho hcust]
  | true => exact h.inv.others i c hc ho hcust k (hk ho).1 (hk ho).2

/-- C116 (hierarchy): if no class between `i` and `j` has a schema written by hand, the schema of `i` is
derived from that of `j` exactly if class `i` is derived from class `j`. -/
theorem schema_hierarchy {cs : List Cls} (h : Program cs) (i j : Nat) (hi : i < cs.length)
    (hcust : ∀ (k : Nat) (c : Cls), Sub cs i k → cs[k]? = some c → c.custom = true → k = j) :
    schemaDerives cs i j = true ↔ Sub cs i j := by
  have hinv := h.inv
  unfold schemaDerives
  rw [derives_iff _ _ _ _ _ (le_of_lt hi)]
  · constructor
    · clear hcust
      intro hA
      induction hA with
      | refl => exact .refl _
      | @step i b j h1 _ ih =>
        cases hc : cs[i]? with
        | none => simp [hc] at h1
        | some c =>
          simp only [hc] at h1
          have hb : b ∈ c.bases := by
            rw [hinv.schemaBases i c hc] at h1
            split at h1
            · cases h1
            · exact h1
          exact .step hc hb (ih (lt_trans (hinv.bases i c hc b hb) hi))
    · intro hS
      induction hS with
      | refl => exact .refl _
      | @step i b j c hc hb hS ih =>
        by_cases hij : i = j
        · subst hij; exact .refl _
        · have hcu : c.custom = false := by
            cases hcu : c.custom with
            | false => rfl
            | true => exact absurd (hcust i c (.refl _) hc hcu) hij
          refine .step (b := b) ?_ (ih (lt_trans (hinv.bases i c hc b hb) hi)
            (fun k c' hk => hcust k c' (.step hc hb hk)))
          simp only [hc, hinv.schemaBases i c hc, hcu, Bool.false_eq_true, if_false]
          exact hb
  · intro a c hc
    cases ha : cs[a]? with
    | none => simp [ha] at hc
    | some x =>
      simp only [ha, hinv.schemaBases a x ha] at hc
      split at hc
      · cases hc
      · exact hinv.bases a x ha c hc

/-- C116 (references): the check of a node given for a parameter annotated with a node class. -/
theorem reference_check {cs : List Cls} (h : Program cs) (i j : Nat) (name : Str) (hi : i < cs.length)
    (hcust : ∀ (k : Nat) (c : Cls), Sub cs i k → cs[k]? = some c → c.custom = true → k = j) :
    refOk cs (.ref j) (.node i false name) = true ↔ Sub cs i j := by
  simp only [refOk, Bool.or_false]
  exact schema_hierarchy h i j hi hcust

/-! ### Saving and loading -/

theorem look_instantiate (fs : Fields) (kw : List (Str × Val)) (k : Str) :
    look k (instantiate fs kw) = (look k fs).map fun f => (look k kw).getD (f.default.getD .none) :=
  look_map fs (fun k f => (look k kw).getD (f.default.getD .none)) k

theorem instantiate_keys (fs : Fields) (kw : List (Str × Val)) :
    (instantiate fs kw).map Prod.fst = fs.map Prod.fst := by simp [instantiate]

theorem instantiate_export (fs : Fields) (hfs : (fs.map Prod.fst).Nodup) (kw : List (Str × Val))
    (h : ∀ e ∈ fs, ((look e.1 kw).getD (e.2.default.getD .none)).isNone = true → e.2.default.getD .none = .none) :
    instantiate fs (exportData (instantiate fs kw)) = instantiate fs kw := by
  conv_rhs => unfold instantiate
  rw [instantiate]
  refine List.map_congr_left fun e he => ?_
  refine congrArg (Prod.mk e.1) ?_
  have hnd : ((instantiate fs kw).map Prod.fst).Nodup := by rw [instantiate_keys]; exact hfs
  rw [exportData, look_filter _ hnd, look_instantiate, look_of_mem fs hfs e he]
  simp only [Option.map_some, Option.bind_some]
  have h := h e he
  generalize hv : (look e.1 kw).getD (e.2.default.getD .none) = v at h
  cases hn : v.isNone with
  | false => simp
  | true =>
    simp only [Bool.not_true, Bool.false_eq_true, if_false, Option.getD_none]
    rw [h hn]
    cases v with
    | none => rfl
    | _ => cases hn

theorem classOf_type {cs : List Cls} (hinv : Inv cs) {i : Nat} {c : Cls} (hc : cs[i]? = some c) :
    classOf cs (.str c.nodeType) = some (i, c) := by
  have hmem : (c, i) ∈ cs.zipIdx := by
    rw [List.mem_zipIdx_iff_getElem?]; exact hc
  simp only [classOf]
  cases hf : cs.zipIdx.find? fun e => decide (e.1.nodeType = c.nodeType) with
  | none =>
    have := List.find?_eq_none.1 hf (c, i) hmem
    simp at this
  | some e =>
    have h1 := List.find?_some hf
    have h2 := List.mem_of_find?_eq_some hf
    obtain ⟨c', j⟩ := e
    rw [List.mem_zipIdx_iff_getElem?] at h2
    simp only [decide_eq_true_eq] at h1
    have hi : i < cs.length := by
      by_contra hb; rw [List.getElem?_eq_none (by omega)] at hc; cases hc
    have hj : j < cs.length := by
      by_contra hb; rw [List.getElem?_eq_none (by omega)] at h2; cases h2
    have : j = i := by
      have e1 : (cs.map Cls.nodeType)[j]'(by simpa using hj) = (cs.map Cls.nodeType)[i]'(by simpa using hi) := by
        rw [List.getElem?_eq_getElem hi] at hc
        rw [List.getElem?_eq_getElem hj] at h2
        cases hc; cases h2
        simpa using h1
      exact (List.Nodup.getElem_inj_iff hinv.types).1 e1
    subst this
    rw [hc] at h2
    cases h2
    rfl

/-- C116 (saving), for classes whose schema has no fields but their own parameters, and calls that do
not give `None` for a parameter with another default: a node that can be recorded and saved is loaded as
a node of the same class, with the same name and the same arguments. -/
theorem node_restored_partial {cs : List Cls} (h : Program cs) {i : Nat} {c : Cls} (hc : cs[i]? = some c)
    (hown : c.ownInit = true) (hcust : c.custom = false)
    (hcov : ∀ b ∈ c.bases, ∀ c', cs[b]? = some c' → ∀ k ∈ c'.fields.map Prod.fst,
      k = kName ∨ k = kType ∨ k ∈ c.init.map Param.name)
    (args : List (Str × Val)) (hargs : args.map Prod.fst = c.init.map Param.name)
    (hnone : ∀ p ∈ c.init, look p.name args = some .none → p.default = none ∨ p.default = some .none)
    (name : Str) (data raw : List (Str × Val)) (hrec : recordCall cs c args name = .ok data)
    (hsave : saveNode c.fields data = .ok raw) :
    ∃ kw, loadNode cs raw = .ok (i, some (.str name), kw) ∧
      (∀ p ∈ c.init, look p.name kw = look p.name args) ∧
      ∀ k ∈ kw.map Prod.fst, k ∈ c.init.map Param.name := by
  have hinv := h.inv
  obtain ⟨hpn, htype, hpar⟩ := hinv.own i c hc hown hcust
  have hnd := hinv.nodup i c hc
  have hkeys := hinv.keys i c hc hown hcust
  have hnk : ∀ p ∈ c.init, p.name ≠ kName ∧ p.name ≠ kType := fun p hp => (hpar p hp).1.name
  have hnn : kName ∉ args.map Prod.fst := by
    rw [hargs]
    intro hm
    obtain ⟨p, hp, he⟩ := List.mem_map.1 hm
    exact (hnk p hp).1 he
  have htt : kType ∉ args.map Prod.fst := by
    rw [hargs]
    intro hm
    obtain ⟨p, hp, he⟩ := List.mem_map.1 hm
    exact (hnk p hp).2 he
  have hne : kType ≠ kName := by decide
  set kw0 := args ++ [(kName, Val.str name)] with hkw0
  have l0 : ∀ p ∈ c.init, look p.name kw0 = look p.name args := by
    intro p hp
    rw [hkw0, look_append]
    have : look p.name [(kName, Val.str name)] = none := by simp [look, Ne.symm (hnk p hp).1]
    rw [this, Option.or_none]
  have ls : ∀ p ∈ c.init, ∃ v, look p.name args = some v := by
    intro p hp
    cases hl : look p.name args with
    | some v => exact ⟨v, rfl⟩
    | none =>
      rw [look_none_iff, hargs] at hl
      exact absurd (List.mem_map.2 ⟨p, hp, rfl⟩) hl
  have ln : look kName kw0 = some (.str name) := by
    rw [hkw0, look_append, (look_none_iff kName args).2 hnn]; simp [look]
  have lt : look kType kw0 = none := by
    rw [hkw0, look_append, (look_none_iff kType args).2 htt]; simp [look, Ne.symm hne]
  -- the record
  have hdata : data = instantiate c.fields kw0 := by
    unfold recordCall nodeSchema at hrec
    simp only at hrec
    split at hrec
    · cases hrec
    · split at hrec
      · cases hrec; rfl
      · cases hrec
  have hvalid : valid c.fields data = true ∧ raw = exportData data := by
    unfold saveNode at hsave
    split at hsave
    · cases hsave; exact ⟨by assumption, rfl⟩
    · cases hsave
  have hkey : ∀ e ∈ c.fields, e.1 = kName ∨ e.1 = kType ∨ ∃ p ∈ c.init, e.1 = p.name := by
    intro e he
    rcases (hkeys e.1).1 (List.mem_map.2 ⟨e, he, rfl⟩) with h1 | h1 | ⟨b, hb, c', hc', hk⟩
    · exact .inr (.inl h1)
    · obtain ⟨p, hp, hpe⟩ := List.mem_map.1 h1
      exact .inr (.inr ⟨p, hp, hpe.symm⟩)
    · rcases hcov b hb c' hc' e.1 hk with h2 | h2 | h2
      · exact .inl h2
      · exact .inr (.inl h2)
      · obtain ⟨p, hp, hpe⟩ := List.mem_map.1 h2
        exact .inr (.inr ⟨p, hp, hpe.symm⟩)
  have hround : instantiate c.fields raw = data := by
    rw [hvalid.2, hdata]
    refine instantiate_export _ hnd _ fun e he hn => ?_
    rcases hkey e he with h1 | h1 | ⟨p, hp, h1⟩
    · rw [h1, ln] at hn; cases hn
    · have hf := look_of_mem c.fields hnd e he
      rw [h1, htype] at hf
      have hf : typeField c.nodeType = e.2 := Option.some.inj hf
      rw [h1, lt, ← hf] at hn
      cases hn
    · obtain ⟨-, a, f, k1, k2, k3⟩ := hpar p hp
      have hf := look_of_mem c.fields hnd e he
      rw [h1, k3] at hf
      obtain ⟨v, hv⟩ := ls p hp
      rw [h1, l0 p hp, hv] at hn
      have hv0 : v = .none := by
        cases v with
        | none => rfl
        | _ => cases hn
      have hd := hnone p hp (by rw [hv, hv0])
      have hfd : f.default.getD .none = .none := by
        unfold convertParam at k2
        cases hs : convert a with
        | error e => rw [hs] at k2; cases k2
        | ok s =>
          rw [hs] at k2
          simp only at k2
          rcases hd with hd | hd <;> rw [hd] at k2 <;> simp only [neEmpty] at k2 <;> cases k2 <;> rfl
      have : e.2 = f := by cases hf; rfl
      rw [this, hfd]
  have hraw : look kType raw = some (.str c.nodeType) := by
    have hdn : (data.map Prod.fst).Nodup := by rw [hdata, instantiate_keys]; exact hnd
    rw [hvalid.2, exportData, look_filter _ hdn, hdata, look_instantiate, htype, lt]
    simp [typeField, Val.isNone]
  have hnode : nodeSchema cs c.fields raw = .ok data := by
    have hrec' := hrec
    unfold recordCall at hrec'
    unfold nodeSchema at hrec' ⊢
    simp only at hrec' ⊢
    rw [hround]
    rw [← hkw0, ← hdata] at hrec'
    exact hrec'
  have hdn : (data.map Prod.fst).Nodup := by rw [hdata, instantiate_keys]; exact hnd
  refine ⟨data.filter fun e => decide (e.1 ≠ kType ∧ e.1 ≠ kName), ?_, ?_, ?_⟩
  · unfold loadNode
    rw [hraw]
    simp only [Option.bind_some, classOf_type hinv hc, hnode, hvalid.1, if_true]
    have hacc : acceptsKw c.init (data.filter fun e => decide (e.1 ≠ kType ∧ e.1 ≠ kName)) = true := by
      unfold acceptsKw
      rw [Bool.and_eq_true, List.all_eq_true, List.all_eq_true]
      constructor
      · intro e he
        rw [List.mem_filter] at he
        have he1 : e.1 ∈ c.fields.map Prod.fst := by
          rw [← instantiate_keys c.fields kw0, ← hdata]; exact List.mem_map.2 ⟨e, he.1, rfl⟩
        obtain ⟨e', he', hee⟩ := List.mem_map.1 he1
        have hx := of_decide_eq_true he.2
        rw [List.contains_iff_mem]
        rcases hkey e' he' with h1 | h1 | ⟨p, hp, h1⟩
        · exact absurd (hee.symm.trans h1) hx.2
        · exact absurd (hee.symm.trans h1) hx.1
        · exact List.mem_map.2 ⟨p, hp, by rw [← h1, hee]⟩
      · intro p hp
        rw [Bool.or_eq_true]
        right
        obtain ⟨-, a, f, -, -, k3⟩ := hpar p hp
        rw [look_filter _ hdn, hdata, look_instantiate, k3]
        simp [(hnk p hp).1, (hnk p hp).2]
    rw [if_pos hacc]
    have : look kName data = some (.str name) := by
      rw [hdata, look_instantiate, ln]
      cases hl : look kName c.fields with
      | none => exact absurd (hinv.named i c hc) ((look_none_iff _ _).1 hl)
      | some f => rfl
    rw [this]
  · intro p hp
    obtain ⟨-, a, f, -, -, k3⟩ := hpar p hp
    obtain ⟨v, hv⟩ := ls p hp
    rw [look_filter _ hdn, hdata, look_instantiate, k3, l0 p hp, hv]
    simp [(hnk p hp).1, (hnk p hp).2]
  · intro k hk
    obtain ⟨e, he, rfl⟩ := List.mem_map.1 hk
    rw [List.mem_filter] at he
    have he1 : e.1 ∈ c.fields.map Prod.fst := by
      rw [← instantiate_keys c.fields kw0, ← hdata]; exact List.mem_map.2 ⟨e, he.1, rfl⟩
    obtain ⟨e', he', hee⟩ := List.mem_map.1 he1
    have hx := of_decide_eq_true he.2
    rcases hkey e' he' with h1 | h1 | ⟨p, hp, h1⟩
    · exact absurd (hee.symm.trans h1) hx.2
    · exact absurd (hee.symm.trans h1) hx.1
    · exact List.mem_map.2 ⟨p, hp, by rw [← h1, hee]⟩

/-! ### Examples and counterexamples -/

/-- A parameter with annotation. -/
def par (n : String) (a : Ann) (v : Option Val := none) : Param := ⟨n.toList, some a, v, false⟩

/-- `class Shape(ProblemGraphNode): def __init__(self, width: float, level: int = 3)` and
`class Disk(Shape): def __init__(self, width: float, level: int = 3, holes: List[Union[int, Shape]] = None)`. -/
def shapes : List Cls := base ++
  [⟨"shape".toList, [0], [par "width" .float, par "level" .int (some (.int 3))], true,
    [(kName, ⟨.string, none, true⟩), ("width".toList, ⟨.float, none, true⟩),
      ("level".toList, ⟨.int, some (.int 3), false⟩), (kType, typeField "shape".toList)], [0], false⟩,
   ⟨"disk".toList, [1], [par "width" .float, par "level" .int (some (.int 3)),
      par "holes" (.list (.union [.int, .node 1])) (some .none)], true,
    [(kName, ⟨.string, none, true⟩), ("width".toList, ⟨.float, none, true⟩),
      ("level".toList, ⟨.int, some (.int 3), false⟩), (kType, typeField "disk".toList),
      ("holes".toList, ⟨.list (.union [.int, .ref 1]), some .none, false⟩)], [1], false⟩]

/-- The declaration of `Shape`. -/
def shapeDecl : Decl :=
  ⟨"shape".toList, [0], some [par "width" .float, par "level" .int (some (.int 3))], none⟩
/-- The declaration of `Disk`. -/
def diskDecl : Decl :=
  ⟨"disk".toList, [1], some [par "width" .float, par "level" .int (some (.int 3)),
    par "holes" (.list (.union [.int, .node 1])) (some .none)], none⟩

theorem shapes_program : Program shapes := by
  have h1 : define base shapeDecl = .ok (shapes.take 2) := rfl
  have h2 : define (shapes.take 2) diskDecl = .ok shapes := rfl
  refine .define diskDecl (.define shapeDecl .base ⟨by simp [shapeDecl], ?_, ?_, ?_⟩ h1)
    ⟨by simp [diskDecl], ?_, ?_, ?_⟩ h2
  · intro b hb; simp [shapeDecl] at hb; subst hb; decide
  · intro ps hps; cases hps; decide
  · intro s hs; cases hs
  · intro b hb; simp [diskDecl] at hb; subst hb; decide
  · intro ps hps; cases hps; decide
  · intro s hs; cases hs

/-- A union in a list is supported. -/
example : Supported (.list (.union [.int, .node 1])) :=
  .list (.union (by simp [Supported.int, Supported.node]))

/-- A disk is a shape; a shape is no disk. -/
theorem disk_shape : Sub shapes 2 1 ∧ refOk shapes (.ref 1) (.node 2 false "d".toList) = true ∧
    refOk shapes (.ref 2) (.node 1 false "s".toList) = false :=
  ⟨.step (b := 1) (c := shapes[2]) rfl (by decide) (.refl _), rfl, rfl⟩

/-- A disk with a hole is restored. -/
theorem disk_restored : ∃ kw, loadNode shapes
      [(kName, .str "d".toList), ("width".toList, .float 2), ("level".toList, .int 3),
        (kType, .str "disk".toList), ("holes".toList, .list [.node 1 false "s".toList])] =
        .ok (2, some (.str "d".toList), kw) ∧
      look "holes".toList kw = some (.list [.node 1 false "s".toList]) := by
  obtain ⟨kw, h1, h2, -⟩ := node_restored_partial shapes_program (i := 2) (c := shapes[2]) rfl rfl rfl
    (by
      intro b hb c' hc' k hk
      have hb : b ∈ [1] := hb
      have hb : b = 1 := by simpa using hb
      subst hb
      have hc' : c' = shapes[1] := by
        have : shapes[1]? = some shapes[1] := rfl
        rw [this] at hc'; exact (Option.some.inj hc').symm
      subst hc'
      revert hk
      show k ∈ [kName, "width".toList, "level".toList, kType] → _
      intro hk
      simp only [List.mem_cons, List.not_mem_nil, or_false] at hk
      rcases hk with rfl | rfl | rfl | rfl
      · exact .inl rfl
      · exact .inr (.inr (by decide))
      · exact .inr (.inr (by decide))
      · exact .inr (.inl rfl))
    [("width".toList, .float 2), ("level".toList, .int 3),
      ("holes".toList, .list [.node 1 false "s".toList])] rfl
    (by
      intro p hp hn
      have hp : p = par "width" .float ∨ p = par "level" .int (some (.int 3)) ∨
          p = par "holes" (.list (.union [.int, .node 1])) (some .none) := by
        have hp : p ∈ [par "width" .float, par "level" .int (some (.int 3)),
          par "holes" (.list (.union [.int, .node 1])) (some .none)] := hp
        simpa using hp
      rcases hp with rfl | rfl | rfl
      · exact .inl rfl
      · cases hn
      · exact .inr rfl) "d".toList _ _ rfl rfl
  exact ⟨kw, h1, h2 (par "holes" (.list (.union [.int, .node 1])) (some .none))
    (show _ ∈ [par "width" .float, par "level" .int (some (.int 3)),
      par "holes" (.list (.union [.int, .node 1])) (some .none)] by simp)⟩

/-- `None` given for a parameter with another default is restored as the default:
`Shape(2.0, level=None)` comes back as `Shape(2.0, level=3)`. -/
theorem none_argument_false : ∃ data raw kw,
    recordCall shapes shapes[1] [("width".toList, .float 2), ("level".toList, .none)] "s".toList = .ok data ∧
    look "level".toList data = some .none ∧ saveNode shapes[1].fields data = .ok raw ∧
    loadNode shapes raw = .ok (1, some (.str "s".toList), kw) ∧ look "level".toList kw = some (.int 3) :=
  ⟨_, _, _, rfl, rfl, rfl, rfl, rfl⟩

/-- `class Square(Shape): def __init__(self, side: float)`: the parent's required parameter is still
required, so a recorded square cannot be saved. -/
theorem dropped_required_false : ∃ cs c data,
    define shapes ⟨"square".toList, [1], some [par "side" .float], none⟩ = .ok cs ∧ cs[3]? = some c ∧
    recordCall cs c [("side".toList, .float 2)] "q".toList = .ok data ∧
    saveNode c.fields data = .error .invalid :=
  ⟨_, _, _, rfl, rfl, rfl, rfl⟩

/-- `class Square(Shape): def __init__(self, width: float)`: the parent's optional parameter is saved
and then handed to a constructor that does not take it, so a saved square cannot be loaded. -/
theorem dropped_optional_false : ∃ cs c data raw,
    define shapes ⟨"square".toList, [1], some [par "width" .float], none⟩ = .ok cs ∧ cs[3]? = some c ∧
    recordCall cs c [("width".toList, .float 2)] "q".toList = .ok data ∧
    saveNode c.fields data = .ok raw ∧ loadNode cs raw = .error .call :=
  ⟨_, _, _, _, rfl, rfl, rfl, rfl, rfl⟩

/-- `class Round(Disk): pass`: without a constructor of its own, the class keeps the type of its parent
in its schema, and what is saved as `Round` is loaded as `Disk`. -/
theorem no_init_false : ∃ cs c data raw kw,
    define shapes ⟨"round".toList, [2], none, none⟩ = .ok cs ∧ cs[3]? = some c ∧
    recordCall cs c [("width".toList, .float 2)] "r".toList = .ok data ∧
    saveNode c.fields data = .ok raw ∧ loadNode cs raw = .ok (2, some (.str "r".toList), kw) :=
  ⟨_, _, _, _, _, rfl, rfl, rfl, rfl, rfl⟩

/-- A class one of whose parameters has an array of two entries as default cannot be defined; with an
empty array as default the parameter is required. -/
theorem array_default_false :
    (∃ e, define base ⟨"g".toList, [0], some [par "a" .array (some (.array [1, 2]))], none⟩ = .error e) ∧
    ∃ cs c f, define base ⟨"g".toList, [0], some [par "a" .array (some (.array []))], none⟩ = .ok cs ∧
      cs[1]? = some c ∧ look "a".toList c.fields = some f ∧ f.required = true ∧ f.default = none :=
  ⟨⟨_, rfl⟩, _, _, _, rfl, rfl, rfl, rfl, rfl⟩

end Verif.Schema.Gen
