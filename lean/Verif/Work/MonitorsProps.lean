import Mathlib.Data.List.Nodup
import Mathlib.Tactic.Tauto
import Mathlib.Tactic.ByContra
import Verif.Work.Monitors

/-! C41: `convert_element_list` joins descriptions by id. -/
namespace Verif.Work

/-- Two descriptions that must agree, and do not. -/
def Conflict (a b : Desc) : Prop :=
  a.joinerId = b.joinerId ∧ ¬ (a.type = b.type ∧ a.scalar = b.scalar ∧ a.vector = b.vector)

/-- What the dictionary holds after the descriptions `ms`. -/
structure Holds (ms : List Desc) (dict : List (Option Nat × Joined)) : Prop where
  order : (dict.map (·.1)).Pairwise fun a b => (ms.map Desc.joinerId).idxOf a < (ms.map Desc.joinerId).idxOf b
  keys : ∀ k, k ∈ dict.map (·.1) ↔ k ∈ ms.map Desc.joinerId
  names : ∀ k j, (k, j) ∈ dict → j.monitors = (ms.filter fun m => m.joinerId = k).map Desc.monitor
  fields : ∀ k j, (k, j) ∈ dict → ∀ m ∈ ms, m.joinerId = k → m.type = j.type ∧ m.scalar = j.scalar ∧ m.vector = j.vector
  id : ∀ k j, (k, j) ∈ dict → j.joinerId = k.getD (j.monitors.headD 0)

theorem Holds.nodup {ms : List Desc} {dict : List (Option Nat × Joined)} (h : Holds ms dict) : (dict.map (·.1)).Nodup :=
  h.order.imp fun {a b} hab he => by rw [he] at hab; exact absurd hab (Nat.lt_irrefl _)

theorem addName_keys (id : Option Nat) (n : Nat) (d : List (Option Nat × Joined)) : (addName id n d).map (·.1) = d.map (·.1) := by
  induction d with
  | nil => rfl
  | cons x d ih =>
    obtain ⟨k, j⟩ := x
    rw [addName]
    split <;> simp [ih]

theorem addName_mem (id : Option Nat) (n : Nat) (d : List (Option Nat × Joined)) (hd : (d.map (·.1)).Nodup) (k : Option Nat) (j : Joined)
    (h : (k, j) ∈ addName id n d) :
    ∃ j0, (k, j0) ∈ d ∧ j = if k = id then { j0 with monitors := j0.monitors ++ [n] } else j0 := by
  induction d with
  | nil => simp [addName] at h
  | cons x d ih =>
    obtain ⟨k0, j0⟩ := x
    rw [List.map_cons, List.nodup_cons] at hd
    rw [addName] at h
    split at h
    · rename_i hk
      rcases List.mem_cons.mp h with h | h
      · cases h
        exact ⟨j0, by simp, by simp [hk]⟩
      · refine ⟨j, by simp [h], ?_⟩
        have : k ≠ id := by
          rintro rfl
          exact hd.1 (by rw [hk]; exact List.mem_map_of_mem (f := (·.1)) h)
        simp [this]
    · rename_i hk
      rcases List.mem_cons.mp h with h | h
      · cases h
        exact ⟨j, by simp, by simp [hk]⟩
      · obtain ⟨j1, h1, h2⟩ := ih hd.2 h
        exact ⟨j1, by simp [h1], h2⟩

theorem convert_step (pre : List Desc) (dict : List (Option Nat × Joined)) (hh : Holds pre dict) (m : Desc) :
    (∀ x, dict.find? (fun x => x.1 = m.joinerId) = some x →
      (m.type = x.2.type ∧ m.scalar = x.2.scalar ∧ m.vector = x.2.vector → Holds (pre ++ [m]) (addName m.joinerId m.monitor dict)) ∧
      (¬ (m.type = x.2.type ∧ m.scalar = x.2.scalar ∧ m.vector = x.2.vector) → ∃ a ∈ pre, Conflict a m)) ∧
    (dict.find? (fun x => x.1 = m.joinerId) = none → Holds (pre ++ [m]) (dict ++ [(m.joinerId, newJoined m)])) := by
  have hord : ∀ {a b : Option Nat}, a ∈ dict.map (·.1) → b ∈ dict.map (·.1) →
      (pre.map Desc.joinerId).idxOf a < (pre.map Desc.joinerId).idxOf b →
      ((pre ++ [m]).map Desc.joinerId).idxOf a < ((pre ++ [m]).map Desc.joinerId).idxOf b := by
    intro a b ha hb hlt
    rw [List.map_append, List.idxOf_append_of_mem ((hh.keys a).mp ha), List.idxOf_append_of_mem ((hh.keys b).mp hb)]
    exact hlt
  constructor
  · rintro ⟨k, j⟩ hx
    have hk : k = m.joinerId := by
      have := List.find?_some hx
      simpa using this
    have hmem := List.mem_of_find?_eq_some hx
    constructor
    · rintro ⟨h1, h2, h3⟩
      refine ⟨?_, ?_, ?_, ?_, ?_⟩
      · rw [addName_keys]
        exact hh.order.imp_of_mem fun ha hb => hord ha hb
      · intro q
        rw [addName_keys, hh.keys, List.map_append, List.mem_append]
        constructor
        · exact Or.inl
        · rintro (h | h)
          · exact h
          · simp only [List.map_cons, List.map_nil, List.mem_singleton] at h
            rw [h, ← hk]
            exact (hh.keys k).mp (List.mem_map_of_mem (f := (·.1)) hmem)
      · intro q j' hj'
        obtain ⟨j0, hj0, rfl⟩ := addName_mem _ _ _ hh.nodup _ _ hj'
        rw [List.filter_append, List.map_append]
        by_cases hq : q = m.joinerId
        · simp only [if_pos hq]
          rw [hh.names q j0 hj0]
          simp [hq]
        · simp only [if_neg hq]
          rw [hh.names q j0 hj0]
          simp [Ne.symm hq]
      · intro q j' hj' a ha haq
        obtain ⟨j0, hj0, rfl⟩ := addName_mem _ _ _ hh.nodup _ _ hj'
        have hf : (if q = m.joinerId then { j0 with monitors := j0.monitors ++ [m.monitor] } else j0).type = j0.type ∧
            (if q = m.joinerId then { j0 with monitors := j0.monitors ++ [m.monitor] } else j0).scalar = j0.scalar ∧
            (if q = m.joinerId then { j0 with monitors := j0.monitors ++ [m.monitor] } else j0).vector = j0.vector := by
          split <;> exact ⟨rfl, rfl, rfl⟩
        rw [hf.1, hf.2.1, hf.2.2]
        rcases List.mem_append.mp ha with ha | ha
        · exact hh.fields q j0 hj0 a ha haq
        · simp only [List.mem_singleton] at ha
          subst ha
          have : (q, j0) = (k, j) := List.inj_on_of_nodup_map hh.nodup hj0 hmem (by simp [hk, haq])
          cases this
          exact ⟨h1, h2, h3⟩
      · intro q j' hj'
        obtain ⟨j0, hj0, rfl⟩ := addName_mem _ _ _ hh.nodup _ _ hj'
        have hid := hh.id q j0 hj0
        have hne : j0.monitors ≠ [] := by
          rw [hh.names q j0 hj0]
          have := (hh.keys q).mp (List.mem_map_of_mem (f := (·.1)) hj0)
          obtain ⟨a, ha, haq⟩ := List.mem_map.mp this
          intro hc
          have hm : a ∈ pre.filter fun m => m.joinerId = q := by simp [ha, haq]
          have hc' : pre.filter (fun m => m.joinerId = q) = [] := by simpa using hc
          rw [hc'] at hm
          simp at hm
        split
        · show j0.joinerId = _
          rw [hid]
          obtain ⟨y, l, hy⟩ := List.exists_cons_of_ne_nil hne
          simp [hy]
        · exact hid
    · intro hno
      have := (hh.keys k).mp (List.mem_map_of_mem (f := (·.1)) hmem)
      obtain ⟨a, ha, hak⟩ := List.mem_map.mp this
      refine ⟨a, ha, by rw [hak, hk], ?_⟩
      rintro ⟨e1, e2, e3⟩
      obtain ⟨f1, f2, f3⟩ := hh.fields k j hmem a ha hak
      exact hno ⟨by rw [← e1, f1], by rw [← e2, f2], by rw [← e3, f3]⟩
  · intro hnone
    rw [List.find?_eq_none] at hnone
    have hnew : m.joinerId ∉ dict.map (·.1) := by
      intro hc
      obtain ⟨x, hx, he⟩ := List.mem_map.mp hc
      exact hnone x hx (by simpa using he)
    have hnew' : m.joinerId ∉ pre.map Desc.joinerId := fun hc => hnew ((hh.keys _).mpr hc)
    refine ⟨?_, ?_, ?_, ?_, ?_⟩
    · rw [List.map_append (l₁ := dict), List.pairwise_append]
      refine ⟨hh.order.imp_of_mem fun ha hb => hord ha hb, by simp, ?_⟩
      intro a ha b hb
      simp only [List.map_cons, List.map_nil, List.mem_singleton] at hb
      subst hb
      have ha' := (hh.keys a).mp ha
      rw [List.map_append, List.idxOf_append_of_mem ha', List.idxOf_append_of_notMem hnew']
      have := List.idxOf_lt_length_of_mem ha'
      omega
    · intro q
      rw [List.map_append, List.map_append, List.mem_append, List.mem_append, hh.keys]
      simp
    · intro q j hj
      rw [List.filter_append, List.map_append]
      rcases List.mem_append.mp hj with hj | hj
      · rw [hh.names q j hj]
        have : q ≠ m.joinerId := by rintro rfl; exact hnew (List.mem_map_of_mem (f := (·.1)) hj)
        simp [Ne.symm this]
      · simp only [List.mem_singleton, Prod.mk.injEq] at hj
        obtain ⟨rfl, rfl⟩ := hj
        have : pre.filter (fun a => a.joinerId = m.joinerId) = [] := by
          rw [List.filter_eq_nil_iff]
          intro a ha hc
          exact hnew' (List.mem_map.mpr ⟨a, ha, by simpa using hc⟩)
        simp [this, newJoined]
    · intro q j hj a ha haq
      rcases List.mem_append.mp hj with hj | hj
      · rcases List.mem_append.mp ha with ha | ha
        · exact hh.fields q j hj a ha haq
        · simp only [List.mem_singleton] at ha
          subst ha
          subst haq
          rename_i hj'
          exact absurd (List.mem_map_of_mem (f := (·.1)) hj') hnew
      · simp only [List.mem_singleton, Prod.mk.injEq] at hj
        obtain ⟨rfl, rfl⟩ := hj
        rcases List.mem_append.mp ha with ha | ha
        · exact absurd (List.mem_map.mpr ⟨a, ha, haq⟩) hnew'
        · simp only [List.mem_singleton] at ha
          subst ha
          exact ⟨rfl, rfl, rfl⟩
    · intro q j hj
      rcases List.mem_append.mp hj with hj | hj
      · exact hh.id q j hj
      · simp only [List.mem_singleton, Prod.mk.injEq] at hj
        obtain ⟨rfl, rfl⟩ := hj
        simp [newJoined]

theorem convertLoop_spec : ∀ (ms pre : List Desc) (dict : List (Option Nat × Joined)), Holds pre dict →
    (∃ r, convertLoop dict ms = some r ∧ Holds (pre ++ ms) r) ∨
    (convertLoop dict ms = none ∧ ∃ a ∈ pre ++ ms, ∃ b ∈ ms, Conflict a b)
  | [], pre, dict, h => Or.inl ⟨dict, rfl, by simpa using h⟩
  | m :: ms, pre, dict, h => by
    obtain ⟨h1, h2⟩ := convert_step pre dict h m
    have hcons : pre ++ [m] ++ ms = pre ++ m :: ms := by simp
    have hgo : ∀ d, Holds (pre ++ [m]) d → (∃ r, convertLoop d ms = some r ∧ Holds (pre ++ m :: ms) r) ∨
        (convertLoop d ms = none ∧ ∃ a ∈ pre ++ m :: ms, ∃ b ∈ m :: ms, Conflict a b) := by
      intro d hd
      rcases convertLoop_spec ms (pre ++ [m]) d hd with ⟨r, hr, hh⟩ | ⟨hn, a, ha, b, hb, hc⟩
      · exact Or.inl ⟨r, hr, by rw [← hcons]; exact hh⟩
      · exact Or.inr ⟨hn, a, by rw [← hcons]; exact ha, b, by simp [hb], hc⟩
    rw [convertLoop]
    cases hf : dict.find? (fun x => x.1 = m.joinerId) with
    | none => exact hgo _ (h2 hf)
    | some x =>
      obtain ⟨k, j⟩ := x
      obtain ⟨g1, g2⟩ := h1 (k, j) hf
      simp only at g1 g2
      simp only []
      by_cases hok : m.type = j.type ∧ m.scalar = j.scalar ∧ m.vector = j.vector
      · rw [if_neg (by simp [hok.1]), if_neg (by simp [hok.2.1]), if_neg (by simp [hok.2.2])]
        exact hgo _ (g1 hok)
      · right
        obtain ⟨a, ha, hc⟩ := g2 hok
        refine ⟨?_, a, by simp [ha], m, by simp, hc⟩
        by_cases e1 : m.type = j.type
        · by_cases e2 : m.scalar = j.scalar
          · have e3 : ¬ m.vector = j.vector := fun e3 => hok ⟨e1, e2, e3⟩
            simp [e1, e2, e3]
          · simp [e1, e2]
        · simp [e1]

/-- **C41.** For every list of descriptions, `convert_element_list` fails exactly if two with the same id differ in type or operation.
Otherwise it returns one description per id, in the order in which the ids first occur; its monitor names are those of all descriptions
with that id in their order, and its type and operations are theirs. Descriptions without an id count as having the same one, and the
result for them has the name of the first as id. -/
theorem convert_joins (ms : List Desc) :
    (convertElementList ms = none ↔ ∃ a ∈ ms, ∃ b ∈ ms, Conflict a b) ∧
    ∀ r, convertElementList ms = some r → ∃ ids : List (Option Nat), ids.length = r.length ∧
      (∀ k, k ∈ ids ↔ k ∈ ms.map Desc.joinerId) ∧
      (ids.Pairwise fun a b => (ms.map Desc.joinerId).idxOf a < (ms.map Desc.joinerId).idxOf b) ∧
      ∀ (n : Nat) (k : Option Nat) (j : Joined), ids[n]? = some k → r[n]? = some j →
        j.monitors = (ms.filter fun m => m.joinerId = k).map Desc.monitor ∧
        (∀ m ∈ ms, m.joinerId = k → m.type = j.type ∧ m.scalar = j.scalar ∧ m.vector = j.vector) ∧
        j.joinerId = k.getD (j.monitors.headD 0) := by
  have h0 : Holds [] [] := ⟨by simp, by simp, by simp, by simp, by simp⟩
  have hspec := convertLoop_spec ms [] [] h0
  rw [List.nil_append] at hspec
  unfold convertElementList
  constructor
  · constructor
    · intro hn
      rw [Option.map_eq_none_iff] at hn
      rcases hspec with ⟨r, hr, _⟩ | ⟨_, a, ha, b, hb, hc⟩
      · rw [hn] at hr; simp at hr
      · exact ⟨a, ha, b, hb, hc⟩
    · rintro ⟨a, ha, b, hb, hc1, hc2⟩
      rcases hspec with ⟨r, hr, hh⟩ | ⟨hn, _⟩
      · obtain ⟨x, hx, he⟩ := List.mem_map.mp ((hh.keys a.joinerId).mpr (List.mem_map_of_mem ha))
        obtain ⟨k, j⟩ := x
        simp only at he
        subst he
        obtain ⟨f1, f2, f3⟩ := hh.fields _ _ hx a ha rfl
        obtain ⟨g1, g2, g3⟩ := hh.fields _ _ hx b hb hc1.symm
        exact absurd ⟨f1.trans g1.symm, f2.trans g2.symm, f3.trans g3.symm⟩ hc2
      · rw [hn]; rfl
  · intro r hr
    rcases hspec with ⟨d, hd, hh⟩ | ⟨hn, _⟩
    · rw [hd] at hr
      simp only [Option.map_some, Option.some.injEq] at hr
      subst hr
      refine ⟨d.map (·.1), by simp, hh.keys, hh.order, ?_⟩
      intro n k j hk hj
      rw [List.getElem?_map, Option.map_eq_some_iff] at hk hj
      obtain ⟨x, hx, rfl⟩ := hk
      obtain ⟨y, hy, rfl⟩ := hj
      rw [hx] at hy
      cases hy
      have hmem : x ∈ d := List.mem_of_getElem? hx
      exact ⟨hh.names _ _ hmem, hh.fields _ _ hmem, hh.id _ _ hmem⟩
    · rw [hn] at hr; simp at hr

/-- Two descriptions of id 5, with one of id 6 in between. -/
example : convertElementList [⟨some 5, 1, 0, 0, 0⟩, ⟨some 6, 2, 1, 0, 0⟩, ⟨some 5, 3, 0, 0, 0⟩] =
    some [⟨5, [1, 3], 0, 0, 0⟩, ⟨6, [2], 1, 0, 0⟩] := by decide

example : convertElementList [⟨some 5, 1, 0, 0, 0⟩, ⟨some 5, 3, 0, 0, 1⟩] = none := by decide

/-- **C41, violated without ids.** Monitors described without a `joiner_id` are joined into one description under the name of the
first, or make the call fail if they are of different types; and its id may be that of another description. -/
theorem convert_without_ids_false : ¬ ∀ (ms : List Desc), (ms.map Desc.monitor).Nodup →
    ∃ r, convertElementList ms = some r ∧ (r.map Joined.joinerId).Nodup ∧
      ∀ m ∈ ms, m.joinerId = none → ∃ j ∈ r, j.joinerId = m.monitor ∧ j.monitors = [m.monitor] := by
  intro h
  obtain ⟨r, hr, _, hj⟩ := h [⟨none, 1, 0, 0, 0⟩, ⟨none, 2, 0, 0, 0⟩] (by decide)
  have : r = [⟨1, [1, 2], 0, 0, 0⟩] := by
    have h2 : convertElementList [⟨none, 1, 0, 0, 0⟩, ⟨none, 2, 0, 0, 0⟩] = some [⟨1, [1, 2], 0, 0, 0⟩] := by decide
    rw [h2] at hr
    cases hr
    rfl
  subst this
  obtain ⟨j, hj1, hj2, _⟩ := hj ⟨none, 2, 0, 0, 0⟩ (by simp) rfl
  simp only [List.mem_singleton] at hj1
  subst hj1
  simp at hj2

/-- **C41, violated without ids.** Two descriptions of the result may have the same id. -/
theorem convert_ids_unique_false : ¬ ∀ (ms : List Desc) (r : List Joined), convertElementList ms = some r →
    (r.map Joined.joinerId).Nodup := by
  intro h
  have := h [⟨none, 1, 0, 0, 0⟩, ⟨some 1, 2, 0, 0, 0⟩] [⟨1, [1], 0, 0, 0⟩, ⟨1, [2], 0, 0, 0⟩] (by decide)
  simp at this

theorem getJoined_some : ∀ (r : List Joined) (id : Nat) (j : Joined), getJoined r id = some j → j ∈ r ∧ j.joinerId = id
  | [], _, _, h => by simp [getJoined] at h
  | a :: r, id, j, h => by
    rw [getJoined] at h
    split at h
    · cases h
      exact ⟨by simp, by assumption⟩
    · have := getJoined_some r id j h
      exact ⟨by simp [this.1], this.2⟩

theorem getJoined_none : ∀ (r : List Joined) (id : Nat), getJoined r id = none → ∀ j ∈ r, j.joinerId ≠ id
  | [], _, _ => by simp
  | a :: r, id, h => by
    rw [getJoined] at h
    split at h
    · cases h
    · intro j hj
      rcases List.mem_cons.1 hj with rfl | hj
      · assumption
      · exact getJoined_none r id h j hj

/-- **C41.** If all descriptions have ids, `get_joined_monitor_description` finds for every id the description that joins exactly the
monitors with this id, in their order, with their type and operations; it finds nothing exactly if no monitor has the id. -/
theorem get_joined_partial (ms : List Desc) (hids : ∀ m ∈ ms, m.joinerId ≠ none) (r : List Joined) (hr : convertElementList ms = some r)
    (id : Nat) :
    (getJoined r id = none ↔ ∀ m ∈ ms, m.joinerId ≠ some id) ∧
    ∀ j, getJoined r id = some j → j.joinerId = id ∧ j.monitors = (ms.filter fun m => m.joinerId = some id).map Desc.monitor ∧
      ∀ m ∈ ms, m.joinerId = some id → m.type = j.type ∧ m.scalar = j.scalar ∧ m.vector = j.vector := by
  obtain ⟨ids, hlen, hmem, -, hall⟩ := (convert_joins ms).2 r hr
  have hkey : ∀ k ∈ ids, ∃ i, k = some i := by
    intro k hk
    obtain ⟨m, hm, rfl⟩ := List.mem_map.1 ((hmem k).1 hk)
    exact Option.ne_none_iff_exists'.1 (hids m hm)
  have hat : ∀ j ∈ r, ∃ n : Nat, ids[n]? = some (some j.joinerId) ∧ r[n]? = some j := by
    intro j hj
    obtain ⟨n, hn⟩ := List.mem_iff_getElem?.1 hj
    have hn' : n < ids.length := by
      rw [hlen]
      exact (List.getElem?_eq_some_iff.1 hn).1
    obtain ⟨i, hi⟩ := hkey _ (List.getElem_mem hn')
    have h1 : ids[n]? = some (some i) := by rw [List.getElem?_eq_getElem hn', hi]
    have h2 := (hall n _ j h1 hn).2.2
    rw [Option.getD_some] at h2
    exact ⟨n, by rw [h1, h2], hn⟩
  constructor
  · constructor
    · intro hn m hm hid
      obtain ⟨n, h1⟩ := List.mem_iff_getElem?.1 ((hmem (some id)).2 (List.mem_map.2 ⟨m, hm, hid⟩))
      have hn' : n < r.length := by
        rw [← hlen]
        exact (List.getElem?_eq_some_iff.1 h1).1
      have h2 := (hall n _ r[n] h1 (List.getElem?_eq_getElem hn')).2.2
      exact getJoined_none r id hn _ (List.getElem_mem hn') h2
    · intro h
      cases hg : getJoined r id with
      | none => rfl
      | some j =>
        obtain ⟨hj, hid⟩ := getJoined_some r id j hg
        obtain ⟨n, h1, -⟩ := hat j hj
        obtain ⟨m, hm, he⟩ := List.mem_map.1 ((hmem _).1 (List.mem_of_getElem? h1))
        exact absurd (by rw [he, hid]) (h m hm)
  · intro j hg
    obtain ⟨hj, hid⟩ := getJoined_some r id j hg
    obtain ⟨n, h1, h2⟩ := hat j hj
    obtain ⟨e1, e2, -⟩ := hall n _ j h1 h2
    subst hid
    exact ⟨rfl, e1, e2⟩

example : getJoined [⟨5, [1, 3], 0, 0, 0⟩, ⟨6, [2], 1, 0, 0⟩] 6 = some ⟨6, [2], 1, 0, 0⟩ := by decide

/-- **C41, violated without ids.** With a monitor that has no id, another description may be found than the one of the id. -/
theorem get_joined_false : ∃ ms r j, convertElementList ms = some r ∧ getJoined r 5 = some j ∧ (∃ m ∈ ms, m.joinerId = some 5) ∧
    ∀ m ∈ ms, m.joinerId = some 5 → m.monitor ∉ j.monitors :=
  ⟨[⟨none, 5, 0, 0, 0⟩, ⟨some 5, 1, 0, 0, 0⟩], [⟨5, [5], 0, 0, 0⟩, ⟨5, [1], 0, 0, 0⟩], ⟨5, [5], 0, 0, 0⟩, by decide, by decide, by decide,
    by decide⟩

/-- **C41.** `get_monitor_objects` gives the monitors of the type asked for, in their order. -/
theorem get_monitors (ms : List Desc) (t : Nat) :
    (∀ x, x ∈ getMonitors ms (some t) ↔ ∃ m ∈ ms, m.type = t ∧ m.monitor = x) ∧ (getMonitors ms (some t)).Sublist (getMonitors ms none) ∧
    (getMonitors ms none).length = ms.length := by
  refine ⟨fun x => ?_, ?_, by simp [getMonitors]⟩
  · simp only [getMonitors, List.mem_map, List.mem_filter, decide_eq_true_eq]
    exact ⟨fun ⟨m, ⟨h1, h2⟩, h3⟩ => ⟨m, h1, h2, h3⟩, fun ⟨m, h1, h2, h3⟩ => ⟨m, ⟨h1, h2⟩, h3⟩⟩
  · exact List.Sublist.map _ List.filter_sublist

example : getMonitors [⟨some 5, 1, 0, 0, 0⟩, ⟨some 6, 2, 1, 0, 0⟩, ⟨some 5, 3, 0, 0, 0⟩] (some 0) = [1, 3] := by decide

end Verif.Work
