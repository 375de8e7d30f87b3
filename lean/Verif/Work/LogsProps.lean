import Mathlib.Data.List.Nodup
import Mathlib.Data.List.Pairwise
import Mathlib.Tactic.Tauto
import Mathlib.Tactic.ByContra
import Verif.Work.Logs

/-!
C40: monitor data is grouped by transformation in the order of the log, whatever the order in which the folder lists the files, and
iteration numbers are cumulative across transformations.
-/
namespace Verif.Work

variable {Val : Type}

/-! ### Specification -/

/-- The values of a monitor at an event of a transformation, in the order of the log. -/
def valuesOf (df : List (LogRow Val)) (tr event name : Nat) : List Val :=
  df.filterMap fun r => if r.transformation = tr ∧ r.event = event then r.monitor name else none

/-- The iterations logged with these values. -/
def iterationsOf (df : List (LogRow Val)) (tr event name : Nat) : List Nat :=
  df.filterMap fun r => if r.transformation = tr ∧ r.event = event ∧ r.monitor name ≠ none then r.iteration else none

/-- Iterations of consecutive transformations, each counted on from the last iteration before it. -/
def cumulative : Nat → List (List Nat) → List Nat
  | _, [] => []
  | off, l :: ls => l.map (· + off) ++ cumulative (off + l.getLastD 0) ls

/-! ### The data frame -/

/-- **C40.** Rows with different counters have one sorted order: whatever sorting pandas uses, and in whatever order the files were
listed, the frame is the same. -/
theorem frame_unique (logs logs' df : List (LogRow Val)) (hd : (logs.map LogRow.counter).Nodup) (hp : logs'.Perm logs)
    (hf : df.Perm logs') (hs : df.Pairwise fun a b => a.counter ≤ b.counter) : df = createLogDataFrame logs := by
  have hperm := List.mergeSort_perm logs fun a b => decide (a.counter ≤ b.counter)
  have hsort : (createLogDataFrame logs).Pairwise fun a b => a.counter ≤ b.counter := by
    have := List.pairwise_mergeSort (le := fun a b : LogRow Val => decide (a.counter ≤ b.counter))
      (by intro a b c; simp only [decide_eq_true_eq]; omega) (by intro a b; simp only [Bool.or_eq_true, decide_eq_true_eq]; omega) logs
    simpa [createLogDataFrame] using this
  refine List.Perm.eq_of_pairwise ?_ hs hsort ((hf.trans hp).trans hperm.symm)
  intro a b ha hb hab hba
  have ha' : a ∈ logs := (hf.trans hp).subset ha
  have hb' : b ∈ logs := hperm.subset hb
  exact List.inj_on_of_nodup_map hd ha' hb' (Nat.le_antisymm hab hba)

/-- **C40.** Files written with ascending counters are in the frame in the order in which they were written, and nothing else is:
files without monitor data, such as checkpoints, are ignored. -/
theorem frame_written (folder : List (Option (LogRow Val))) (written : List (LogRow Val))
    (hw : written.Pairwise fun a b => a.counter < b.counter) (hf : folder.Perm (written.map some ++ List.replicate n none)) :
    createLogDataFrame (loadAllLogs folder) = written := by
  have hload : (loadAllLogs folder).Perm written := by
    have := hf.filterMap id
    unfold loadAllLogs
    refine this.trans ?_
    rw [List.filterMap_append]
    have h1 : (written.map some).filterMap id = written := by simp
    have h2 : (List.replicate n (none : Option (LogRow Val))).filterMap id = [] := by simp
    rw [h1, h2, List.append_nil]
  have hnd : (written.map LogRow.counter).Nodup := by
    unfold List.Nodup
    rw [List.pairwise_map]
    exact hw.imp fun h => Nat.ne_of_lt h
  symm
  refine frame_unique (loadAllLogs folder) (loadAllLogs folder) written ?_ (List.Perm.refl _) hload.symm (hw.imp Nat.le_of_lt)
  exact (hload.map LogRow.counter).nodup_iff.mpr hnd

/-! ### Monitor data -/

theorem unique_mem (l : List Nat) (x : Nat) : x ∈ unique l ↔ x ∈ l := by
  induction l with
  | nil => simp [unique]
  | cons a l ih =>
    simp only [unique, List.mem_cons, List.mem_filter, decide_eq_true_eq, ih]
    tauto

theorem unique_order (l : List Nat) : (unique l).Pairwise fun a b => l.idxOf a < l.idxOf b := by
  induction l with
  | nil => simp [unique]
  | cons a l ih =>
    rw [unique, List.pairwise_cons]
    constructor
    · intro b hb
      simp only [List.mem_filter, decide_eq_true_eq] at hb
      rw [List.idxOf_cons_self, List.idxOf_cons_ne _ (Ne.symm hb.2)]
      omega
    · have h1 := ih.filter (p := fun x => decide (x ≠ a))
      refine h1.imp_of_mem ?_
      intro b c hb hc hlt
      simp only [List.mem_filter, decide_eq_true_eq] at hb hc
      rw [List.idxOf_cons_ne _ (Ne.symm hb.2), List.idxOf_cons_ne _ (Ne.symm hc.2)]
      omega

theorem rows_values (df : List (LogRow Val)) (tr event name : Nat) :
    ((df.filter fun r => r.event = event).filter fun r => r.transformation = tr).filterMap (fun r => r.monitor name) =
      valuesOf df tr event name := by
  unfold valuesOf
  rw [List.filter_filter, List.filterMap_filter]
  congr 1
  funext r
  by_cases h1 : r.transformation = tr <;> by_cases h2 : r.event = event <;> simp [h1, h2]

theorem rows_iterations (df : List (LogRow Val)) (tr event name : Nat) :
    ((((df.filter fun r => r.event = event).filter fun r => r.transformation = tr).filter
      fun r => (r.monitor name).isSome && r.iteration.isSome).filterMap fun r => r.iteration) = iterationsOf df tr event name := by
  unfold iterationsOf
  rw [List.filter_filter, List.filter_filter, List.filterMap_filter]
  congr 1
  funext r
  by_cases h1 : r.transformation = tr <;> by_cases h2 : r.event = event <;> cases h3 : r.monitor name <;> cases h4 : r.iteration <;>
    simp [h1, h2]

theorem firstData_spec (df : List (LogRow Val)) (tr event : Nat) : ∀ (names : List Nat),
    (firstData ((df.filter fun r => r.event = event).filter fun r => r.transformation = tr) names = none ↔
      ∀ n ∈ names, valuesOf df tr event n = []) ∧
    ∀ d, firstData ((df.filter fun r => r.event = event).filter fun r => r.transformation = tr) names = some d →
      ∃ pre n post, names = pre ++ n :: post ∧ (∀ m ∈ pre, valuesOf df tr event m = []) ∧ valuesOf df tr event n ≠ [] ∧
        d = (valuesOf df tr event n, iterationsOf df tr event n)
  | [] => by simp [firstData]
  | name :: names => by
    obtain ⟨h1, h2⟩ := firstData_spec df tr event names
    rw [firstData]
    simp only [rows_values, rows_iterations]
    by_cases hv : valuesOf df tr event name = []
    · simp only [hv, ne_eq, not_true_eq_false, if_false]
      refine ⟨by rw [h1]; simp [hv], ?_⟩
      intro d hd
      obtain ⟨pre, n, post, e1, e2, e3, e4⟩ := h2 d hd
      refine ⟨name :: pre, n, post, by rw [e1]; rfl, ?_, e3, e4⟩
      intro m hm
      rcases List.mem_cons.mp hm with rfl | hm
      · exact hv
      · exact e2 m hm
    · simp only [ne_eq, hv, not_false_eq_true, if_true]
      refine ⟨by simp [hv], ?_⟩
      intro d hd
      cases hd
      exact ⟨[], name, names, rfl, by simp, hv, rfl⟩

/-- **C40.** The transformations in the result are exactly those with a value of one of the monitors at the event, each once, in the
order in which they first occur in the log. -/
theorem monitor_data_keys (df : List (LogRow Val)) (names : List Nat) (event : Nat) :
    (∀ tr, tr ∈ (getMonitorData df names event).map (·.1) ↔ ∃ n ∈ names, valuesOf df tr event n ≠ []) ∧
    ((getMonitorData df names event).map (·.1)).Pairwise
      fun a b => (df.map LogRow.transformation).idxOf a < (df.map LogRow.transformation).idxOf b := by
  have hmap : ∀ (l : List Nat) (f : Nat → Option (List Val × List Nat)),
      (l.filterMap fun tr => (f tr).map fun d => (tr, d)).map (·.1) = l.filter fun tr => (f tr).isSome := by
    intro l f
    induction l with
    | nil => rfl
    | cons a l ih =>
      cases h : f a with
      | none => simp [h, ih]
      | some d => simp [h, ih]
  unfold getMonitorData
  rw [hmap]
  refine ⟨?_, (unique_order _).filter _⟩
  intro tr
  obtain ⟨h1, h2⟩ := firstData_spec df tr event names
  rw [List.mem_filter, unique_mem]
  constructor
  · rintro ⟨_, hs⟩
    by_contra hc
    have : ∀ n ∈ names, valuesOf df tr event n = [] := by
      intro n hn
      by_contra hne
      exact hc ⟨n, hn, hne⟩
    rw [h1.mpr this] at hs
    simp at hs
  · rintro ⟨n, hn, hne⟩
    refine ⟨?_, ?_⟩
    · by_contra hc
      apply hne
      unfold valuesOf
      rw [List.filterMap_eq_nil_iff]
      intro r hr
      have : r.transformation ≠ tr := fun he => hc (he ▸ List.mem_map_of_mem hr)
      simp [this]
    · rw [Option.isSome_iff_ne_none]
      intro hc
      exact hne (h1.mp hc n hn)

/-- **C40.** The data of a transformation is the list of all values of one monitor, in the order of the log, with the iterations logged
with them. The monitor is the first of the given ones that has any. -/
theorem monitor_data_values (df : List (LogRow Val)) (names : List Nat) (event tr : Nat) (data : List Val) (iters : List Nat)
    (h : (tr, data, iters) ∈ getMonitorData df names event) :
    ∃ pre n post, names = pre ++ n :: post ∧ (∀ m ∈ pre, valuesOf df tr event m = []) ∧ data ≠ [] ∧
      data = valuesOf df tr event n ∧ iters = iterationsOf df tr event n := by
  unfold getMonitorData at h
  simp only [List.mem_filterMap, Option.map_eq_some_iff] at h
  obtain ⟨tr', _, d, hd, he⟩ := h
  cases he
  obtain ⟨pre, n, post, e1, e2, e3, e4⟩ := (firstData_spec df tr event names).2 _ hd
  cases e4
  exact ⟨pre, n, post, e1, e2, e3, rfl, rfl⟩

/-! ### Joined data -/

theorem join_go (rest : List (Nat × List Val × List Nat)) : ∀ (data : List Val) (changes iters : List Nat) (last : Nat), data ≠ [] →
    iters.getLast? = some last → joinLoop rest data changes iters = some (data ++ (rest.map (·.2.1)).flatten,
      changes ++ (List.range rest.length).map (fun k => data.length + ((rest.map (·.2.1)).take k).flatten.length),
      iters ++ cumulative last (rest.map (·.2.2))) := by
  induction rest with
  | nil => intro data changes iters last _ _; simp [joinLoop, cumulative]
  | cons x rest ih =>
    obtain ⟨tr, d, i⟩ := x
    intro data changes iters last hd hl
    have hpos : data.length > 0 := List.length_pos_iff.mpr hd
    have hl' : (iters ++ i.map (· + last)).getLast? = some (last + i.getLastD 0) := by
      rw [List.getLast?_append, List.getLast?_map, hl, List.getLastD_eq_getLast?]
      cases i.getLast? with
      | none => simp
      | some z => simp [Nat.add_comm]
    rw [joinLoop, if_pos hpos, hl]
    simp only []
    rw [ih (data ++ d) _ _ _ (by simp [hd]) hl']
    simp only [List.map_cons, List.flatten_cons, List.append_assoc, cumulative, List.length_cons, List.range_succ_eq_map,
      List.map_map, List.take_zero, List.flatten_nil, List.length_nil, Nat.add_zero, List.cons_append, List.nil_append,
      List.length_append, Option.some.injEq, Prod.mk.injEq, List.append_cancel_left_eq, List.cons.injEq, true_and, and_true]
    apply List.map_congr_left
    intro k _
    simp only [Function.comp, List.take_succ_cons, List.flatten_cons, List.length_append]
    omega

/-- **C40.** If the first transformation with data has iterations, the joined data is the data of all transformations one after the
other, the changes are the positions at which the data of each transformation but the first begins, and iterations count on from the
last one of the transformation before. -/
theorem joined_monitors (df : List (LogRow Val)) (names : List Nat) (event tr : Nat) (d : List Val) (i : List Nat)
    (rest : List (Nat × List Val × List Nat)) (hm : getMonitorData df names event = (tr, d, i) :: rest) (hi : i ≠ []) :
    getJoinedScalarMonitors df names event = some (((getMonitorData df names event).map (·.2.1)).flatten,
      (List.range rest.length).map (fun k => (((getMonitorData df names event).map (·.2.1)).take (k + 1)).flatten.length),
      cumulative 0 ((getMonitorData df names event).map (·.2.2))) := by
  have hd : d ≠ [] := by
    have := monitor_data_values df names event tr d i (by rw [hm]; simp)
    obtain ⟨_, _, _, _, _, h, _⟩ := this
    exact h
  unfold getJoinedScalarMonitors
  rw [hm, joinLoop]
  simp only [List.length_nil, gt_iff_lt, Nat.lt_irrefl, if_false, List.nil_append]
  rw [join_go rest d [] i (i.getLastD 0) hd (by
    rw [List.getLastD_eq_getLast?, List.getLast?_eq_some_getLast hi]; rfl)]
  simp only [List.map_cons, List.flatten_cons, List.take_succ_cons, List.length_append, List.nil_append, cumulative, Nat.zero_add,
    Nat.add_zero, List.map_id']

/-- No transformation has data: nothing is returned. -/
theorem joined_empty (df : List (LogRow Val)) (names : List Nat) (event : Nat)
    (h : ∀ tr, ∀ n ∈ names, valuesOf df tr event n = []) : getJoinedScalarMonitors df names event = some ([], [], []) := by
  have hk := (monitor_data_keys df names event).1
  have : getMonitorData df names event = [] := by
    by_contra hne
    obtain ⟨x, l, hx⟩ := List.exists_cons_of_ne_nil hne
    obtain ⟨n, hn, hv⟩ := (hk x.1).mp (by rw [hx]; simp)
    exact hv (h _ n hn)
  unfold getJoinedScalarMonitors
  rw [this]
  rfl

/-- **C40.** Joining fails exactly if two or more transformations have data, and the first of them has no iterations. -/
theorem joined_fails_iff (df : List (LogRow Val)) (names : List Nat) (event : Nat) :
    getJoinedScalarMonitors df names event = none ↔ ∃ x y rest, getMonitorData df names event = x :: y :: rest ∧ x.2.2 = [] := by
  cases hm : getMonitorData df names event with
  | nil => simp [getJoinedScalarMonitors, hm, joinLoop]
  | cons x rest =>
    obtain ⟨tr, d, i⟩ := x
    by_cases hi : i = []
    · subst hi
      have hd : d ≠ [] := by
        obtain ⟨_, _, _, _, _, h, _⟩ := monitor_data_values df names event tr d [] (by rw [hm]; simp)
        exact h
      cases rest with
      | nil => simp [getJoinedScalarMonitors, hm, joinLoop]
      | cons y rest =>
        obtain ⟨tr', d', i'⟩ := y
        have hpos : 0 < d.length := List.length_pos_iff.mpr hd
        simp [getJoinedScalarMonitors, hm, joinLoop, hpos]
    · rw [joined_monitors df names event tr d i rest hm hi]
      simp [hi]

theorem cumulative_mono : ∀ (ls : List (List Nat)) (off : Nat), (∀ l ∈ ls, l.Pairwise (· < ·) ∧ ∀ x ∈ l, 0 < x) →
    (cumulative off ls).Pairwise (· < ·) ∧ ∀ x ∈ cumulative off ls, off < x
  | [], off, _ => by simp [cumulative]
  | l :: ls, off, h => by
    obtain ⟨h1, h2⟩ := h l (by simp)
    obtain ⟨g1, g2⟩ := cumulative_mono ls (off + l.getLastD 0) fun l' hl' => h l' (by simp [hl'])
    have hle : ∀ x ∈ l, x ≤ l.getLastD 0 := by
      intro x hx
      have hne : l ≠ [] := List.ne_nil_of_mem hx
      rw [List.getLastD_eq_getLast?, List.getLast?_eq_some_getLast hne]
      show x ≤ l.getLast hne
      obtain ⟨init, last, rfl⟩ := List.eq_nil_or_concat l |>.resolve_left hne
      simp only [List.concat_eq_append, List.getLast_append_singleton]
      rw [List.concat_eq_append, List.pairwise_append] at h1
      rw [List.concat_eq_append, List.mem_append, List.mem_singleton] at hx
      rcases hx with hx | hx
      · exact Nat.le_of_lt (h1.2.2 x hx last (by simp))
      · omega
    rw [cumulative]
    constructor
    · rw [List.pairwise_append]
      refine ⟨?_, g1, ?_⟩
      · rw [List.pairwise_map]
        exact h1.imp fun h => by omega
      · intro a ha b hb
        obtain ⟨x, hx, rfl⟩ := List.mem_map.mp ha
        have := g2 b hb
        have := hle x hx
        omega
    · intro x hx
      rcases List.mem_append.mp hx with hx | hx
      · obtain ⟨y, hy, rfl⟩ := List.mem_map.mp hx
        have := h2 y hy
        omega
      · have := g2 x hx
        omega

/-- **C40.** If iterations are positive and ascending within each transformation, the joined iterations are ascending. -/
theorem joined_iterations_ascending (df : List (LogRow Val)) (names : List Nat) (event : Nat) (data : List Val) (changes iters : List Nat)
    (h : getJoinedScalarMonitors df names event = some (data, changes, iters))
    (ha : ∀ tr n, (iterationsOf df tr event n).Pairwise (· < ·) ∧ ∀ x ∈ iterationsOf df tr event n, 0 < x) :
    iters.Pairwise (· < ·) := by
  have hall : ∀ x ∈ getMonitorData df names event, x.2.2.Pairwise (· < ·) ∧ ∀ y ∈ x.2.2, 0 < y := by
    rintro ⟨tr, d, i⟩ hx
    obtain ⟨_, n, _, _, _, _, _, rfl⟩ := monitor_data_values df names event tr d i hx
    exact ha tr n
  cases hm : getMonitorData df names event with
  | nil =>
    simp only [getJoinedScalarMonitors, hm, joinLoop, Option.some.injEq, Prod.mk.injEq] at h
    rw [← h.2.2]; simp
  | cons x rest =>
    obtain ⟨tr, d, i⟩ := x
    by_cases hi : i = []
    · subst hi
      cases rest with
      | nil =>
        simp only [getJoinedScalarMonitors, hm, joinLoop, List.length_nil, gt_iff_lt, Nat.lt_irrefl, if_false, List.nil_append,
          Option.some.injEq, Prod.mk.injEq] at h
        rw [← h.2.2]; simp
      | cons y rest =>
        have := (joined_fails_iff df names event).mpr ⟨_, y, rest, hm, rfl⟩
        rw [h] at this
        simp at this
    · rw [joined_monitors df names event tr d i rest hm hi] at h
      simp only [Option.some.injEq, Prod.mk.injEq] at h
      rw [← h.2.2]
      refine (cumulative_mono _ 0 ?_).1
      intro l hl
      obtain ⟨x, hx, rfl⟩ := List.mem_map.mp hl
      exact hall x hx

/-! ### Single data -/

/-- With an iteration in every row, values and iterations of a monitor correspond. -/
theorem values_iterations (df : List (LogRow Val)) (tr event name : Nat) (hit : ∀ r ∈ df, r.event = event → r.iteration ≠ none) (k : Nat)
    (i : Nat) (h : (iterationsOf df tr event name)[k]? = some i) :
    ∃ r ∈ df, r.transformation = tr ∧ r.event = event ∧ r.iteration = some i ∧
      r.monitor name ≠ none ∧ (valuesOf df tr event name)[k]? = r.monitor name := by
  induction df generalizing k with
  | nil => simp [iterationsOf] at h
  | cons r df ih =>
    have hit' : ∀ r' ∈ df, r'.event = event → r'.iteration ≠ none := fun r' hr' => hit r' (by simp [hr'])
    by_cases hc : r.transformation = tr ∧ r.event = event ∧ r.monitor name ≠ none
    · obtain ⟨j, hj⟩ := Option.ne_none_iff_exists'.mp (hit r (by simp) hc.2.1)
      obtain ⟨v, hv⟩ := Option.ne_none_iff_exists'.mp hc.2.2
      have e1 : iterationsOf (r :: df) tr event name = j :: iterationsOf df tr event name := by
        simp [iterationsOf, hc, hj]
      have e2 : valuesOf (r :: df) tr event name = v :: valuesOf df tr event name := by
        simp [valuesOf, hc.1, hc.2.1, hv]
      rw [e1] at h
      cases k with
      | zero =>
        simp only [List.getElem?_cons_zero, Option.some.injEq] at h
        exact ⟨r, by simp, hc.1, hc.2.1, by rw [hj, h], hc.2.2, by rw [e2, hv]; rfl⟩
      | succ k =>
        obtain ⟨r', hr', h1, h2, h3, h4, h5⟩ := ih hit' k (by simpa using h)
        exact ⟨r', by simp [hr'], h1, h2, h3, h4, by rw [e2]; simpa using h5⟩
    · have e1 : iterationsOf (r :: df) tr event name = iterationsOf df tr event name := by
        simp [iterationsOf, hc]
      have e2 : valuesOf (r :: df) tr event name = valuesOf df tr event name := by
        unfold valuesOf
        rw [List.filterMap_cons]
        by_cases hte : r.transformation = tr ∧ r.event = event
        · have : r.monitor name = none := by
            by_contra hne
            exact hc ⟨hte.1, hte.2, hne⟩
          simp [hte, this]
        · simp [hte]
      rw [e1] at h
      obtain ⟨r', hr', h1, h2, h3, h4, h5⟩ := ih hit' k h
      exact ⟨r', by simp [hr'], h1, h2, h3, h4, by rw [e2]; exact h5⟩

theorem lookup_spec (df : List (LogRow Val)) (names : List Nat) (event tr : Nat) :
    (lookup (getMonitorData df names event) tr = none ↔ ∀ n ∈ names, valuesOf df tr event n = []) ∧
    ∀ d, lookup (getMonitorData df names event) tr = some d → (tr, d) ∈ getMonitorData df names event := by
  have hk := (monitor_data_keys df names event).1 tr
  unfold lookup
  constructor
  · rw [Option.map_eq_none_iff, List.find?_eq_none]
    constructor
    · intro h n hn
      by_contra hne
      obtain ⟨x, hx, he⟩ := List.mem_map.mp (hk.mpr ⟨n, hn, hne⟩)
      exact h x hx (by simpa using he)
    · intro h x hx he
      simp only [decide_eq_true_eq] at he
      obtain ⟨n, hn, hne⟩ := hk.mp (he ▸ List.mem_map_of_mem hx)
      exact hne (h n hn)
  · intro d h
    rw [Option.map_eq_some_iff] at h
    obtain ⟨x, hx, rfl⟩ := h
    have := List.find?_some hx
    simp only [decide_eq_true_eq] at this
    rw [← this]
    exact List.mem_of_find?_eq_some hx

/-- **C40.** Asking for an iteration that was logged, of a transformation and an event, gives the value of the first monitor with data
there, in a row of that iteration. -/
theorem single_iteration (df : List (LogRow Val)) (pre : List Nat) (name : Nat) (post : List Nat) (tr event i : Nat)
    (hit : ∀ r ∈ df, r.event = event → r.iteration ≠ none) (hpre : ∀ m ∈ pre, valuesOf df tr event m = [])
    (hi : i ∈ iterationsOf df tr event name) :
    ∃ r ∈ df, r.transformation = tr ∧ r.event = event ∧ r.iteration = some i ∧ r.monitor name ≠ none ∧
      getSingleMonitorData df (pre ++ name :: post) (some tr) (some i) (some event) = r.monitor name := by
  have hidx := List.getElem?_idxOf hi
  obtain ⟨r, hr, h1, h2, h3, h4, h5⟩ := values_iterations df tr event name hit _ i hidx
  refine ⟨r, hr, h1, h2, h3, h4, ?_⟩
  have hne : valuesOf df tr event name ≠ [] := by
    intro hc
    rw [hc] at h5
    simp only [List.getElem?_nil] at h5
    exact h4 h5.symm
  cases hl : lookup (getMonitorData df (pre ++ name :: post) event) tr with
  | none =>
    have := (lookup_spec df (pre ++ name :: post) event tr).1.mp hl name (by simp)
    exact absurd this hne
  | some d =>
    obtain ⟨data, iters⟩ := d
    obtain ⟨pre', n, post', e1, e2, e3, rfl, rfl⟩ := monitor_data_values df _ event tr data iters ((lookup_spec df _ event tr).2 _ hl)
    have hn : n = name := by
      rcases List.append_eq_append_iff.mp e1 with ⟨c, hc1, hc2⟩ | ⟨c, hc1, hc2⟩
      · cases c with
        | nil => simp only [List.nil_append, List.cons.injEq] at hc2; exact hc2.1.symm
        | cons z c =>
          simp only [List.cons_append, List.cons.injEq] at hc2
          exact absurd (e2 name (by rw [hc1, hc2.1]; simp)) hne
      · cases c with
        | nil => simp only [List.nil_append, List.cons.injEq] at hc2; exact hc2.1
        | cons z c =>
          simp only [List.cons_append, List.cons.injEq] at hc2
          exact absurd (hpre n (by rw [hc1, hc2.1]; simp)) e3
    subst hn
    obtain ⟨v, hv⟩ := Option.ne_none_iff_exists'.mp h4
    rw [hv] at h5 ⊢
    simp [getSingleMonitorData, singleLoop, singleEvents, hl, hi, h5]

/-- **C40.** Without an iteration, the last value of the transformation and event is returned. -/
theorem single_last (df : List (LogRow Val)) (names : List Nat) (tr event : Nat) (data : List Val) (iters : List Nat)
    (h : (tr, data, iters) ∈ getMonitorData df names event) :
    getSingleMonitorData df names (some tr) none (some event) = data.getLast? := by
  cases hl : lookup (getMonitorData df names event) tr with
  | none =>
    obtain ⟨_, n, _, rfl, _, hne, rfl, _⟩ := monitor_data_values df names event tr data iters h
    exact absurd ((lookup_spec df _ event tr).1.mp hl n (by simp)) hne
  | some d =>
    have hmem := (lookup_spec df names event tr).2 _ hl
    have hnd : ((getMonitorData df names event).map (·.1)).Nodup := by
      refine (monitor_data_keys df names event).2.imp ?_
      intro a b hab he
      rw [he] at hab
      exact absurd hab (Nat.lt_irrefl _)
    have := List.inj_on_of_nodup_map hnd hmem h rfl
    cases this
    obtain ⟨_, _, _, _, _, hne, _, _⟩ := monitor_data_values df names event tr data iters h
    simp only [getSingleMonitorData, singleLoop, singleEvents, List.reverse_cons, List.reverse_nil, List.nil_append, hl]
    rw [List.getLast?_eq_some_getLast hne]

theorem singleEvents_spec (df : List (LogRow Val)) (names : List Nat) (tr : Nat) : ∀ evs : List Nat,
    (singleEvents df names tr none evs = none ↔ ∀ ev ∈ evs, ∀ n ∈ names, valuesOf df tr ev n = []) ∧
    ∀ v, singleEvents df names tr none evs = some v → ∃ pre ev post, evs = pre ++ ev :: post ∧
      (∀ e ∈ pre, ∀ n ∈ names, valuesOf df tr e n = []) ∧
      ∃ data iters, (tr, data, iters) ∈ getMonitorData df names ev ∧ data.getLast? = some v
  | [] => by simp [singleEvents]
  | ev :: evs => by
    obtain ⟨h1, h2⟩ := singleEvents_spec df names tr evs
    obtain ⟨l1, l2⟩ := lookup_spec df names ev tr
    rw [singleEvents]
    cases hl : lookup (getMonitorData df names ev) tr with
    | none =>
      have hno := l1.mp hl
      simp only []
      refine ⟨by rw [h1]; simp only [List.mem_cons, forall_eq_or_imp]; exact ⟨fun h => ⟨hno, h⟩, fun h => h.2⟩, ?_⟩
      intro v hv
      obtain ⟨pre, e, post, rfl, hp, hd⟩ := h2 v hv
      refine ⟨ev :: pre, e, post, rfl, ?_, hd⟩
      intro e' he'
      rcases List.mem_cons.mp he' with rfl | he'
      · exact hno
      · exact hp e' he'
    | some d =>
      obtain ⟨data, iters⟩ := d
      have hmem := l2 _ hl
      obtain ⟨_, n, _, hnames, _, hne, hval, _⟩ := monitor_data_values df names ev tr data iters hmem
      simp only []
      rw [List.getLast?_eq_some_getLast hne]
      constructor
      · simp only [reduceCtorEq, false_iff]
        intro h
        have := h ev (by simp) n (by rw [hnames]; simp)
        rw [← hval] at this
        exact hne this
      · intro v hv
        exact ⟨[], ev, evs, rfl, by simp, data, iters, hmem, by rw [List.getLast?_eq_some_getLast hne]; exact hv⟩

/-- **C40.** With nothing but the monitors given, the result is the last value of the last transformation that has data at any event, and
of its last event that has data; nothing is returned only if there is no data at all. -/
theorem single_latest (df : List (LogRow Val)) (names : List Nat) :
    (getSingleMonitorData df names none none none = none ↔ ∀ tr ev, ∀ n ∈ names, valuesOf df tr ev n = []) ∧
    ∀ v, getSingleMonitorData df names none none none = some v → ∃ tr ev data iters, (tr, data, iters) ∈ getMonitorData df names ev ∧
      data.getLast? = some v ∧
      (∀ tr', (df.map LogRow.transformation).idxOf tr < (df.map LogRow.transformation).idxOf tr' → ∀ ev', ∀ n ∈ names,
        valuesOf df tr' ev' n = []) ∧
      ∀ ev', (df.map LogRow.event).idxOf ev < (df.map LogRow.event).idxOf ev' → ∀ n ∈ names, valuesOf df tr ev' n = [] := by
  have habs : ∀ tr ev n, tr ∉ df.map LogRow.transformation ∨ ev ∉ df.map LogRow.event → valuesOf df tr ev n = [] := by
    intro tr ev n h
    unfold valuesOf
    rw [List.filterMap_eq_nil_iff]
    intro r hr
    have : ¬ (r.transformation = tr ∧ r.event = ev) := by
      rintro ⟨rfl, rfl⟩
      rcases h with h | h
      · exact h (List.mem_map_of_mem hr)
      · exact h (List.mem_map_of_mem hr)
    simp [this]
  have hloop : ∀ evs trs : List Nat,
      (singleLoop df names none evs trs = none ↔ ∀ tr ∈ trs, ∀ ev ∈ evs, ∀ n ∈ names, valuesOf df tr ev n = []) ∧
      ∀ v, singleLoop df names none evs trs = some v → ∃ pre tr post, trs = pre ++ tr :: post ∧
        (∀ t ∈ pre, ∀ ev ∈ evs, ∀ n ∈ names, valuesOf df t ev n = []) ∧ singleEvents df names tr none evs = some v := by
    intro evs trs
    induction trs with
    | nil => simp [singleLoop]
    | cons t trs ih =>
      obtain ⟨h1, h2⟩ := ih
      have he := (singleEvents_spec df names t evs).1
      rw [singleLoop]
      cases hs : singleEvents df names t none evs with
      | none =>
        have hno := he.mp hs
        simp only []
        refine ⟨by rw [h1]; simp only [List.mem_cons, forall_eq_or_imp]; exact ⟨fun h => ⟨hno, h⟩, fun h => h.2⟩, ?_⟩
        intro v hv
        obtain ⟨pre, u, post, rfl, hp, hd⟩ := h2 v hv
        refine ⟨t :: pre, u, post, rfl, ?_, hd⟩
        intro t' ht'
        rcases List.mem_cons.mp ht' with rfl | ht'
        · exact hno
        · exact hp t' ht'
      | some w =>
        simp only []
        constructor
        · simp only [reduceCtorEq, false_iff]
          intro h
          rw [he.mpr (h t (by simp))] at hs
          simp at hs
        · intro v hv
          exact ⟨[], t, trs, rfl, by simp, by rw [hs]; exact hv⟩
  have hlater : ∀ (l pre post : List Nat) (a b : Nat), (unique l).reverse = pre ++ a :: post → b ∈ l → l.idxOf a < l.idxOf b → b ∈ pre := by
    intro l pre post a b hr hb hlt
    have hu : unique l = post.reverse ++ a :: pre.reverse := by
      have := congrArg List.reverse hr
      simpa using this
    have ho := unique_order l
    rw [hu, List.pairwise_append] at ho
    have hm : b ∈ unique l := (unique_mem l b).mpr hb
    rw [hu, List.mem_append, List.mem_cons] at hm
    rcases hm with hm | rfl | hm
    · have := ho.2.2 b hm a (by simp)
      omega
    · omega
    · exact List.mem_reverse.mp hm
  obtain ⟨h1, h2⟩ := hloop (unique (df.map LogRow.event)).reverse (unique (df.map LogRow.transformation)).reverse
  constructor
  · unfold getSingleMonitorData
    simp only []
    rw [h1]
    constructor
    · intro h tr ev n hn
      by_cases ht : tr ∈ df.map LogRow.transformation
      · by_cases he : ev ∈ df.map LogRow.event
        · exact h tr (by rw [List.mem_reverse, unique_mem]; exact ht) ev (by rw [List.mem_reverse, unique_mem]; exact he) n hn
        · exact habs tr ev n (Or.inr he)
      · exact habs tr ev n (Or.inl ht)
    · intro h tr _ ev _ n hn
      exact h tr ev n hn
  · intro v hv
    obtain ⟨pre, tr, post, hp, hno, hs⟩ := h2 v hv
    obtain ⟨pre', ev, post', hp', hno', data, iters, hd, hv'⟩ := (singleEvents_spec df names tr _).2 v hs
    refine ⟨tr, ev, data, iters, hd, hv', ?_, ?_⟩
    · intro tr' hlt ev' n hn
      by_cases ht : tr' ∈ df.map LogRow.transformation
      · by_cases he : ev' ∈ df.map LogRow.event
        · exact hno tr' (hlater _ _ _ _ _ hp ht hlt) ev' (by rw [List.mem_reverse, unique_mem]; exact he) n hn
        · exact habs tr' ev' n (Or.inr he)
      · exact habs tr' ev' n (Or.inl ht)
    · intro ev' hlt n hn
      by_cases he : ev' ∈ df.map LogRow.event
      · exact hno' ev' (hlater _ _ _ _ _ hp' he hlt) n hn
      · exact habs tr ev' n (Or.inr he)

/-! ### Examples -/

/-- Two transformations, with events 0 (start) and 1 (optimizing); the second one uses another monitor. -/
def sampleRows : List (LogRow Nat) :=
  [⟨1, 7, 0, none, fun m => if m = 0 then some 10 else none⟩,
   ⟨2, 7, 1, some 1, fun m => if m = 0 then some 11 else none⟩,
   ⟨3, 7, 1, some 2, fun m => if m = 0 then some 12 else none⟩,
   ⟨4, 3, 0, none, fun m => if m = 1 then some 20 else none⟩,
   ⟨5, 3, 1, some 1, fun m => if m = 1 then some 21 else none⟩]

example : getMonitorData sampleRows [0, 1] 1 = [(7, [11, 12], [1, 2]), (3, [21], [1])] := by decide

example : getJoinedScalarMonitors sampleRows [0, 1] 1 = some ([11, 12, 21], [2], [1, 2, 3]) := by decide

example : getSingleMonitorData sampleRows [0, 1] (some 7) (some 1) (some 1) = some 11 ∧
    getSingleMonitorData sampleRows [0, 1] none none none = some 21 := by decide

example : (∀ r ∈ sampleRows, r.event = 1 → r.iteration ≠ none) ∧ 2 ∈ iterationsOf sampleRows 7 1 0 := by decide

example : sampleRows.Pairwise fun a b => a.counter < b.counter := by decide

/-! ### Violations -/

/-- **C40, violated (F25).** Data of an event without iterations (as "start") cannot be joined over two transformations: `iterations[-1]`
raises. -/
theorem joined_start_false : ¬ ∀ (df : List (LogRow Nat)) (names : List Nat) (event : Nat),
    (df.Pairwise fun a b => a.counter < b.counter) → getJoinedScalarMonitors df names event ≠ none := by
  intro h
  exact h sampleRows [0, 1] 0 (by decide) (by decide)

/-- **C40, violated.** Asking for an iteration that was not logged gives the data of another one, not an empty list. -/
theorem single_missing_iteration_false : ¬ ∀ (df : List (LogRow Nat)) (names : List Nat) (tr i event : Nat),
    (∀ n ∈ names, i ∉ iterationsOf df tr event n) → getSingleMonitorData df names (some tr) (some i) (some event) = none := by
  intro h
  have := h sampleRows [0] 7 9 1 (by decide)
  revert this
  decide

/-- **C40, violated.** If two of the joined monitors have data in one transformation, the data of the second is left out. -/
theorem joined_all_monitors_false : ¬ ∀ (df : List (LogRow Nat)) (names : List Nat) (event tr n : Nat) (data : List Nat) (iters : List Nat),
    (tr, data, iters) ∈ getMonitorData df names event → n ∈ names → ∀ v ∈ valuesOf df tr event n, v ∈ data := by
  intro h
  have := h [⟨1, 7, 1, some 1, fun m => if m = 0 then some 1 else none⟩, ⟨2, 7, 1, some 2, fun m => if m = 1 then some 2 else none⟩] [0, 1] 1 7 1
    [1] [1] (by decide) (by decide) 2 (by decide)
  revert this
  decide

end Verif.Work
