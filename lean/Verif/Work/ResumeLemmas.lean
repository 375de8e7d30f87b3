import Mathlib.Tactic.ByContra
import Mathlib.Tactic.Push
import Mathlib.Tactic.Tauto
import Verif.Work.Resume

/-! Lemmas about `runPlan`: how files are numbered, what becomes known, and what `restoreWorkspace` finds. -/
namespace Verif.Work

set_option linter.unusedSectionVars false

variable {Val Mem : Type}

theorem know_ne_none (init : Nat → Val) (ns : List Nat) (s : Nat → Option Val) (p : Nat) :
    know init ns s p ≠ none ↔ s p ≠ none ∨ p ∈ ns := by
  unfold know
  cases h : s p with
  | some v => simp
  | none => simp

theorem put_ne_none (s : Nat → Option Val) (p : Nat) (v : Val) (q : Nat) : put s p v q ≠ none ↔ s q ≠ none ∨ q = p := by
  unfold put
  split <;> simp_all

theorem setParameters_ne_none (plan : Plan Val Mem) (pz : Nat → Option Val) :
    ∀ (l : List (Nat × ((Nat → Val) → (Nat → Val) → Val))) (par : Nat → Option Val) (p : Nat),
      setParameters plan pz par l p ≠ none ↔ par p ≠ none ∨ p ∈ l.map (·.1)
  | [], par, p => by simp [setParameters]
  | (q, f) :: rest, par, p => by
    rw [setParameters, setParameters_ne_none plan pz rest, put_ne_none, know_ne_none]
    simp only [List.map_cons, List.mem_cons, List.not_mem_nil, or_false]
    tauto

/-- The logs are numbered from `c + 1` to `c'`, and belong to the given transformations. -/
def Numbered (names : List Nat) : Nat → List (File Val) → Nat → Prop
  | c, [], c' => c' = c
  | c, .log s tr _ _ _ :: fs, c' => s = c + 1 ∧ tr ∈ names ∧ Numbered names (c + 1) fs c'
  | c, .chkpt _ _ _ :: fs, c' => Numbered names c fs c'

theorem Numbered.append {names : List Nat} : ∀ {a b : List (File Val)} {c c' c'' : Nat}, Numbered names c a c' → Numbered names c' b c'' →
    Numbered names c (a ++ b) c''
  | [], b, c, c', c'', h, h' => by simp only [Numbered] at h; subst h; exact h'
  | .log _ _ _ _ _ :: a, b, c, c', c'', h, h' => ⟨h.1, h.2.1, Numbered.append (a := a) h.2.2 h'⟩
  | .chkpt _ _ _ :: a, b, c, c', c'', h, h' => by
    simp only [Numbered, List.cons_append] at h ⊢; exact Numbered.append (a := a) h h'

theorem Numbered.mono {names names' : List Nat} (hn : ∀ x ∈ names, x ∈ names') : ∀ {a : List (File Val)} {c c' : Nat},
    Numbered names c a c' → Numbered names' c a c'
  | [], c, c', h => h
  | .log _ _ _ _ _ :: a, c, c', h => ⟨h.1, hn _ h.2.1, Numbered.mono hn (a := a) h.2.2⟩
  | .chkpt _ _ _ :: a, c, c', h => by simp only [Numbered] at h ⊢; exact Numbered.mono hn (a := a) h

theorem iterate_numbered (o : Optimizer Val Mem) (name : Nat) (par : Nat → Option Val) (e : Nat → Val) :
    ∀ (n : Nat) (m : Mem) (v : Val) (i c : Nat),
      Numbered [name] c (iterate o name par e n m v i c).2.2 (iterate o name par e n m v i c).2.1
  | 0, m, v, i, c => rfl
  | n + 1, m, v, i, c => by
    unfold iterate
    split
    · rfl
    · split
      · exact ⟨rfl, by simp, iterate_numbered o name par e n _ _ _ _⟩
      · exact iterate_numbered o name par e n _ _ _ _

theorem optimizerCall_numbered (o : Optimizer Val Mem) (name : Nat) (par : Nat → Option Val) (e : Nat → Val) (v : Val) (c : Nat)
    (event : Option Event) :
    Numbered [name] c (optimizerCall o name par e v c event).2.2 (optimizerCall o name par e v c event).2.1 := by
  unfold optimizerCall
  cases event with
  | none =>
    simp only [reduceCtorEq, if_true, if_false]
    refine Numbered.append (Numbered.append (c' := c + 1) ⟨rfl, by simp, rfl⟩ (iterate_numbered o name par e _ _ _ _ _)) ⟨rfl, by simp, rfl⟩
  | some ev =>
    cases ev with
    | finish => simp [Numbered]
    | start =>
      simp only [reduceCtorEq, if_false, Option.some.injEq]
      refine Numbered.append (Numbered.append (c' := c) rfl (iterate_numbered o name par e _ _ _ _ _)) ⟨rfl, by simp, rfl⟩
    | optimizing k =>
      simp only [reduceCtorEq, if_false, Option.some.injEq]
      refine Numbered.append (Numbered.append (c' := c) rfl (iterate_numbered o name par e _ _ _ _ _)) ⟨rfl, by simp, rfl⟩

theorem runTransformation_numbered (plan : Plan Val Mem) (t : Transformation Val Mem) (event : Option Event) (s : Proc Val) :
    Numbered [t.name] s.counter (runTransformation plan t event s).2 (runTransformation plan t event s).1.counter := by
  unfold runTransformation
  cases t.action with
  | compute f => rfl
  | optimize o => exact optimizerCall_numbered o t.name _ _ _ _ event

theorem runAll_numbered (plan : Plan Val Mem) : ∀ (ts : List (Transformation Val Mem)) (event : Option Event) (s : Proc Val),
    Numbered (ts.map (·.name)) s.counter (runAll plan ts event s).2 (runAll plan ts event s).1.counter
  | [], event, s => rfl
  | t :: ts, event, s => by
    refine Numbered.append ((runTransformation_numbered plan t event s).mono (by simp)) ?_
    exact (runAll_numbered plan ts none _).mono (fun x hx => List.mem_cons_of_mem _ hx)

/-- The names of the checkpoints. -/
def chkNames (files : List (File Val)) : List Nat :=
  files.filterMap fun f => match f with
    | .chkpt n _ _ => some n
    | _ => none

theorem chkNames_append (a b : List (File Val)) : chkNames (a ++ b) = chkNames a ++ chkNames b := by simp [chkNames]

theorem iterate_chkNames (o : Optimizer Val Mem) (name : Nat) (par : Nat → Option Val) (e : Nat → Val) :
    ∀ (n : Nat) (m : Mem) (v : Val) (i c : Nat), chkNames (iterate o name par e n m v i c).2.2 = []
  | 0, m, v, i, c => rfl
  | n + 1, m, v, i, c => by
    unfold iterate
    split
    · rfl
    · split
      · exact iterate_chkNames o name par e n _ _ _ _
      · exact iterate_chkNames o name par e n _ _ _ _

theorem runTransformation_chkNames (plan : Plan Val Mem) (t : Transformation Val Mem) (event : Option Event) (s : Proc Val) :
    chkNames (runTransformation plan t event s).2 = [] := by
  unfold runTransformation
  cases t.action with
  | compute f => rfl
  | optimize o =>
    simp only [optimizerCall, chkNames_append]
    have h : ∀ (b : Prop) [Decidable b] (x y : Val × Nat × List (File Val)), chkNames x.2.2 = [] → chkNames y.2.2 = [] →
        chkNames (if b then x else y).2.2 = [] := by
      intro b _ x y hx hy; split <;> assumption
    rw [h _ _ _ rfl (iterate_chkNames o _ _ _ _ _ _ _ _)]
    split <;> split <;> rfl

theorem runAll_chkNames (plan : Plan Val Mem) : ∀ (ts : List (Transformation Val Mem)) (event : Option Event) (s : Proc Val),
    chkNames (runAll plan ts event s).2 = ts.map (·.name)
  | [], event, s => rfl
  | t :: ts, event, s => by
    simp only [runAll, chkNames_append, runTransformation_chkNames, List.nil_append, List.map_cons]
    show _ :: chkNames _ = _
    rw [runAll_chkNames plan ts none]

theorem runAll_append (plan : Plan Val Mem) : ∀ (a b : List (Transformation Val Mem)) (s : Proc Val),
    runAll plan (a ++ b) none s =
      ((runAll plan b none (runAll plan a none s).1).1, (runAll plan a none s).2 ++ (runAll plan b none (runAll plan a none s).1).2)
  | [], b, s => by simp [runAll]
  | t :: a, b, s => by simp [runAll, runAll_append plan a b]

/-- What is known after running transformations. -/
theorem runTransformation_known (plan : Plan Val Mem) (t : Transformation Val Mem) (s : Proc Val) :
    (∀ q, (runTransformation plan t none s).1.pz q ≠ none ↔ s.pz q ≠ none ∨ q = t.parametrization) ∧
    ∀ p, (runTransformation plan t none s).1.par p ≠ none ↔ s.par p ≠ none ∨ p ∈ t.uses ++ t.sets.map (·.1) := by
  unfold runTransformation
  cases t.action with
  | compute f =>
    refine ⟨fun q => ?_, fun p => ?_⟩
    · show put (know plan.initPz [t.parametrization] s.pz) t.parametrization _ q ≠ none ↔ _
      rw [put_ne_none, know_ne_none]; simp only [List.mem_singleton]; tauto
    · show setParameters plan s.pz (know plan.initPar t.uses s.par) t.sets p ≠ none ↔ _
      rw [setParameters_ne_none, know_ne_none, List.mem_append]; tauto
  | optimize o =>
    refine ⟨fun q => ?_, fun p => ?_⟩
    · show put (know plan.initPz [t.parametrization] s.pz) t.parametrization _ q ≠ none ↔ _
      rw [put_ne_none, know_ne_none]; simp only [List.mem_singleton]; tauto
    · show setParameters plan s.pz (know plan.initPar t.uses s.par) t.sets p ≠ none ↔ _
      rw [setParameters_ne_none, know_ne_none, List.mem_append]; tauto

theorem runAll_known (plan : Plan Val Mem) : ∀ (ts : List (Transformation Val Mem)) (s : Proc Val),
    (∀ q, (runAll plan ts none s).1.pz q ≠ none ↔ s.pz q ≠ none ∨ q ∈ ts.map (·.parametrization)) ∧
    ∀ p, (runAll plan ts none s).1.par p ≠ none ↔ s.par p ≠ none ∨ p ∈ ts.flatMap fun t => t.uses ++ t.sets.map (·.1)
  | [], s => by simp [runAll]
  | t :: ts, s => by
    obtain ⟨h1, h2⟩ := runTransformation_known plan t s
    obtain ⟨g1, g2⟩ := runAll_known plan ts (runTransformation plan t none s).1
    refine ⟨fun q => ?_, fun p => ?_⟩
    · rw [runAll, g1, h1]; simp only [List.map_cons, List.mem_cons]; tauto
    · rw [runAll, g2, h2]; simp only [List.flatMap_cons, List.mem_append]; tauto

/-- The last checkpoint of a run holds its final state. -/
theorem runAll_last (plan : Plan Val Mem) : ∀ (ts : List (Transformation Val Mem)) (t : Transformation Val Mem) (s : Proc Val),
    ∃ pre, (runAll plan (ts ++ [t]) none s).2 =
      pre ++ [.chkpt t.name (runAll plan (ts ++ [t]) none s).1.pz (runAll plan (ts ++ [t]) none s).1.par]
  | [], t, s => ⟨(runTransformation plan t none s).2, by simp [runAll]⟩
  | u :: ts, t, s => by
    obtain ⟨pre, h⟩ := runAll_last plan ts t (runTransformation plan u none s).1
    refine ⟨(runTransformation plan u none s).2 ++ .chkpt u.name (runTransformation plan u none s).1.pz
      (runTransformation plan u none s).1.par :: pre, ?_⟩
    simp only [List.cons_append, runAll]
    rw [h]
    simp

theorem findChkpt_none (files : List (File Val)) (n : Nat) (h : n ∉ chkNames files) : findChkpt files n = none := by
  induction files with
  | nil => rfl
  | cons f fs ih =>
    cases f with
    | log s tr ev v par => exact ih h
    | chkpt m pz par =>
      have h' : ¬ (n = m ∨ n ∈ chkNames fs) := by
        intro hc
        apply h
        show n ∈ m :: chkNames fs
        exact List.mem_cons.mpr hc
      push Not at h'
      have := ih h'.2
      unfold findChkpt at this ⊢
      rw [List.filterMap_cons]
      simp only [if_neg (Ne.symm h'.1)]
      exact this

theorem findChkpt_append (a b : List (File Val)) (n : Nat) :
    findChkpt (a ++ b) n = (findChkpt b n).or (findChkpt a n) := by
  unfold findChkpt
  rw [List.filterMap_append, List.getLast?_append]

theorem findChkpt_some (files : List (File Val)) (n : Nat) (h : n ∈ chkNames files) : (findChkpt files n).isSome := by
  induction files with
  | nil => simp [chkNames] at h
  | cons f fs ih =>
    rw [← List.singleton_append, findChkpt_append]
    cases hfs : findChkpt fs n with
    | some x => simp
    | none =>
      cases f with
      | log s tr ev v par =>
        have : n ∈ chkNames fs := h
        have := ih this
        rw [hfs] at this
        simp at this
      | chkpt m pz par =>
        have h' : n = m ∨ n ∈ chkNames fs := List.mem_cons.mp h
        rcases h' with rfl | h'
        · simp [findChkpt]
        · have := ih h'
          rw [hfs] at this
          simp at this

theorem transformIndex_none (files : List (File Val)) : ∀ (l : List (Transformation Val Mem)) (i acc : Nat),
    (∀ t ∈ l, t.name ∉ chkNames files) → transformIndex files l i acc = acc
  | [], i, acc, h => rfl
  | t :: l, i, acc, h => by
    rw [transformIndex, findChkpt_none files _ (h t (by simp))]
    exact transformIndex_none files l (i + 1) acc fun u hu => h u (by simp [hu])

theorem transformIndex_done (files : List (File Val)) : ∀ (done rest : List (Transformation Val Mem)) (i acc : Nat),
    (∀ t ∈ done, t.name ∈ chkNames files) → (∀ t ∈ rest, t.name ∉ chkNames files) →
    transformIndex files (done ++ rest) i acc = if done = [] then acc else i + done.length
  | [], rest, i, acc, h, h' => by simpa using transformIndex_none files rest i acc h'
  | t :: done, rest, i, acc, h, h' => by
    rw [List.cons_append, transformIndex, transformIndex_done files done rest _ _ (fun u hu => h u (by simp [hu])) h',
      findChkpt_some files _ (h t (by simp))]
    simp only [reduceCtorEq, if_false, if_true, List.length_cons]
    split
    · rename_i hd; subst hd; simp
    · omega

theorem restoreTransformations_eq (plan : Plan Val Mem) (chk : Nat → Option Val) : ∀ (ts : List (Transformation Val Mem))
    (pz par : Nat → Option Val), (∀ t ∈ ts, chk t.parametrization ≠ none) →
    ∃ par', restoreTransformations plan chk ts pz par =
        some (fun q => if q ∈ ts.map (·.parametrization) then chk q else pz q, par') ∧
      ∀ p, par' p ≠ none ↔ par p ≠ none ∨ p ∈ ts.flatMap fun t => t.sets.map (·.1)
  | [], pz, par, h => ⟨par, by simp [restoreTransformations], by simp⟩
  | t :: ts, pz, par, h => by
    obtain ⟨v, hv⟩ := Option.ne_none_iff_exists'.mp (h t (by simp))
    obtain ⟨par', h1, h2⟩ := restoreTransformations_eq plan chk ts (put pz t.parametrization v) (know plan.initPar (t.sets.map (·.1)) par)
      fun u hu => h u (by simp [hu])
    refine ⟨par', ?_, ?_⟩
    · rw [restoreTransformations, hv]
      simp only []
      rw [h1]
      congr 2
      funext q
      by_cases hq : q ∈ ts.map (·.parametrization)
      · simp [hq]
      · by_cases hqt : q = t.parametrization
        · subst hqt
          simp [put, hv, hq]
        · simp [put, hqt, hq]
    · intro p
      rw [h2, know_ne_none]
      simp only [List.flatMap_cons, List.mem_append]
      tauto

theorem restoreParameters_eq (chk : Nat → Option Val) : ∀ (ps : List Nat) (par : Nat → Option Val),
    (∀ p ∈ ps, chk p ≠ none → par p ≠ none) →
    restoreParameters chk ps par = some fun p => if p ∈ ps ∧ chk p ≠ none then chk p else par p
  | [], par, h => by simp [restoreParameters]
  | q :: ps, par, h => by
    rw [restoreParameters]
    cases hq : chk q with
    | none =>
      simp only []
      rw [restoreParameters_eq chk ps par fun p hp => h p (by simp [hp])]
      congr 1
      funext p
      by_cases hpq : p = q
      · subst hpq; simp [hq]
      · simp [hpq]
    | some v =>
      have hne := h q (by simp) (by rw [hq]; simp)
      obtain ⟨w, hw⟩ := Option.ne_none_iff_exists'.mp hne
      simp only [hw]
      rw [restoreParameters_eq chk ps (put par q v) fun p hp hc => (put_ne_none par q v p).mpr (Or.inl (h p (by simp [hp]) hc))]
      congr 1
      funext p
      by_cases hpq : p = q
      · subst hpq; simp [hq, put]
      · simp [hpq, put]

/-- The newest log. -/
theorem latestStep_numbered {names : List Nat} : ∀ {files : List (File Val)} {c c' : Nat}, Numbered names c files c' →
    (logs files).foldl (fun a l => max a l.1) c = c' ∧ c ≤ c'
  | [], c, c', h => by simp only [Numbered] at h; simp [logs, h]
  | .log s tr ev v par :: fs, c, c', h => by
    obtain ⟨rfl, _, h⟩ := h
    have := latestStep_numbered h
    refine ⟨?_, by omega⟩
    show (logs fs).foldl (fun a l => max a l.1) (max c (c + 1)) = c'
    rw [Nat.max_eq_right (by omega)]
    exact this.1
  | .chkpt _ _ _ :: fs, c, c', h => by
    simp only [Numbered] at h
    exact latestStep_numbered (files := fs) h

theorem logs_append (a b : List (File Val)) : logs (a ++ b) = logs a ++ logs b := by simp [logs]

theorem logs_mem_numbered {names : List Nat} : ∀ {files : List (File Val)} {c c' : Nat}, Numbered names c files c' →
    (∀ l ∈ logs files, l.2.1 ∈ names ∧ l.1 ≤ c') ∧ (c < c' → ∃ l ∈ logs files, l.1 = c')
  | [], c, c', h => by
    simp only [Numbered] at h
    refine ⟨by simp [logs], by omega⟩
  | .log s tr ev v par :: fs, c, c', h => by
    obtain ⟨rfl, hn, h⟩ := h
    obtain ⟨h1, h2⟩ := logs_mem_numbered h
    have hle := (latestStep_numbered h).2
    have hlogs : logs (.log (c + 1) tr ev v par :: fs) = (c + 1, tr, ev, v) :: logs fs := rfl
    rw [hlogs]
    refine ⟨?_, ?_⟩
    · intro l hl
      rcases List.mem_cons.mp hl with rfl | hl
      · exact ⟨hn, hle⟩
      · exact h1 l hl
    · intro _
      by_cases hc : c + 1 < c'
      · obtain ⟨l, hl, he⟩ := h2 hc
        exact ⟨l, List.mem_cons_of_mem _ hl, he⟩
      · exact ⟨_, List.mem_cons_self, by simp only; omega⟩
  | .chkpt _ _ _ :: fs, c, c', h => by
    simp only [Numbered] at h
    exact logs_mem_numbered (files := fs) h

theorem latestLog_numbered {names : List Nat} {files : List (File Val)} {c : Nat} (h : Numbered names 0 files c) :
    (c = 0 ∧ latestLog files = none) ∨ ∃ tr ev v, tr ∈ names ∧ latestLog files = some (c, tr, ev, v) := by
  have h1 : latestStep files = c := (latestStep_numbered h).1
  obtain ⟨h2, h3⟩ := logs_mem_numbered h
  unfold latestLog
  rw [h1]
  by_cases hc : c = 0
  · exact Or.inl ⟨hc, by simp [hc]⟩
  · right
    rw [if_neg hc]
    obtain ⟨l, hl, he⟩ := h3 (by omega)
    have hne : (logs files).filter (fun l => l.1 = c) ≠ [] := by
      intro hnil
      have : l ∈ (logs files).filter (fun l => l.1 = c) := by simp [hl, he]
      rw [hnil] at this
      simp at this
    have hmem := List.getLast_mem hne
    rw [List.getLast?_eq_some_getLast hne]
    generalize ((logs files).filter (fun l => l.1 = c)).getLast hne = x at hmem
    obtain ⟨a, tr, ev, v⟩ := x
    simp only [List.mem_filter, decide_eq_true_eq] at hmem
    exact ⟨tr, ev, v, (h2 _ hmem.1).1, by rw [hmem.2]⟩

theorem latestLog_last {names : List Nat} {files : List (File Val)} {c : Nat} (h : Numbered names 0 files c) (tr : Nat) (ev : Event)
    (v : Val) (par : Nat → Option Val) : latestLog (files ++ [.log (c + 1) tr ev v par]) = some (c + 1, tr, ev, v) := by
  have h1 : (logs files).foldl (fun a l => max a l.1) 0 = c := (latestStep_numbered h).1
  have h2 : latestStep (files ++ [.log (c + 1) tr ev v par]) = c + 1 := by
    unfold latestStep
    rw [logs_append, List.foldl_append, h1]
    show max c (c + 1) = c + 1
    omega
  unfold latestLog
  rw [h2, if_neg (by omega), logs_append, List.filter_append, List.getLast?_append]
  have : logs [File.log (c + 1) tr ev v par] = [(c + 1, tr, ev, v)] := rfl
  rw [this]
  simp

end Verif.Work
