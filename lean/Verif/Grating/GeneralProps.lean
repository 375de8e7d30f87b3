import Verif.Grating.GeneralLoops
import Mathlib.Data.Rat.Floor
import Mathlib.Tactic.NormNum
/-
C69: the discretisation to a multi-level grating respects the feature sizes of every level and is the best on its lattice.
-/
set_option linter.unusedSectionVars false
set_option linter.unusedVariables false
namespace Verif.Grating.General

section Generic
variable {K : Type} [Field K] [LinearOrder K] [IsStrictOrderedRing K]

theorem Reach.props {p : Dp K} (hp : Valid p) {S : List (Nat × Nat)} {k a b : Nat} (h : Reach p S k a b) :
    (∀ e, S.head? = some e → e.2 ≠ p.start ∧ e.1 ≤ p.dMax.getD p.start 0) ∧
    (S.IsChain fun e f => f.2 ≠ e.2 ∧ e.1 + p.dMin.getD e.2 0 ≤ f.1 ∧ f.1 ≤ e.1 + p.dMax.getD e.2 0) ∧
    (∀ e ∈ S, e.2 < p.num) ∧ S.getLast? = some (k, b) := by
  induction h with
  | first k b h1 h2 h3 =>
    refine ⟨?_, by simp, by simpa using h3, rfl⟩
    intro e he
    simp only [List.head?_cons, Option.some.injEq] at he
    subst he
    exact ⟨h2, h1⟩
  | next S i c a k b h h1 h2 h3 h4 ih =>
    obtain ⟨i1, i2, i3, i4⟩ := ih
    refine ⟨?_, ?_, ?_, by simp⟩
    · intro e he
      apply i1
      cases S with
      | nil => simp at i4
      | cons x S => simpa using he
    · rw [List.isChain_append]
      refine ⟨i2, by simp, ?_⟩
      intro e he f hf
      rw [i4] at he
      simp only [Option.mem_def, Option.some.injEq, List.head?_cons] at he hf
      subst he hf
      exact ⟨h3, h1, h2⟩
    · intro e he
      rcases List.mem_append.1 he with h | h
      · exact i3 e h
      · simp only [List.mem_singleton] at h
        subst h
        exact h4

theorem reach_of (p : Dp K) (S : List (Nat × Nat)) : S ≠ [] →
    (∀ e, S.head? = some e → e.2 ≠ p.start ∧ e.1 ≤ p.dMax.getD p.start 0) →
    (S.IsChain fun e f => f.2 ≠ e.2 ∧ e.1 + p.dMin.getD e.2 0 ≤ f.1 ∧ f.1 ≤ e.1 + p.dMax.getD e.2 0) →
    (∀ e ∈ S, e.2 < p.num) → ∃ k a b, Reach p S k a b ∧ S.getLast? = some (k, b) := by
  induction S using List.reverseRecOn with
  | nil => intro h; exact absurd rfl h
  | append_singleton T e ih =>
    intro _ h1 h2 h3
    obtain ⟨k, b⟩ := e
    by_cases hT : T = []
    · subst hT
      have := h1 (k, b) rfl
      exact ⟨k, p.start, b, Reach.first k b this.2 this.1 (h3 (k, b) (by simp)), rfl⟩
    · rw [List.isChain_append] at h2
      obtain ⟨c1, c2, c3⟩ := h2
      obtain ⟨i, c, a, r1, r2⟩ := ih hT (fun e he => h1 e (by
        cases T with
        | nil => exact absurd rfl hT
        | cons x T => simpa using he)) c1 (fun e he => h3 e (by simp [he]))
      have := c3 (i, a) r2 (k, b) (by simp)
      exact ⟨k, a, b, Reach.next T i c a k b r1 this.2.1 this.2.2 this.1 (h3 (k, b) (by simp)), by simp⟩

theorem allowed_iff (p : Dp K) (hp : Valid p) (S : List (Nat × Nat)) :
    Allowed p.num p.maxK p.start p.stop (fun a => p.dMin.getD a 0) (fun a => p.dMax.getD a 0) S ↔
      ∃ k a, Reach p S k a p.stop ∧ k ≤ p.maxK ∧ p.maxK ≤ k + p.dMax.getD p.stop 0 := by
  constructor
  · intro h
    obtain ⟨k, a, b, h1, h2⟩ := reach_of p S h.ne h.first h.chain h.level
    obtain ⟨rfl, h3, h4⟩ := h.last _ h2
    exact ⟨k, a, h1, h3, h4⟩
  · rintro ⟨k, a, h1, h2, h3⟩
    obtain ⟨p1, p2, p3, p4⟩ := h1.props hp
    refine ⟨?_, p1, p2, ?_, p3⟩
    · rintro rfl
      simp at p4
    · intro e he
      rw [p4, Option.some.injEq] at he
      subst he
      exact ⟨rfl, h2, h3⟩

theorem dropExtra_chain : ∀ (es : List (K × Nat)) (l : Nat), (∀ e, es.head? = some e → e.2 ≠ l) →
    es.IsChain (fun e f => f.2 ≠ e.2) → dropExtra l es = es := by
  intro es
  induction es with
  | nil => intro l _ _; rfl
  | cons e es ih =>
    intro l h1 h2
    rw [List.isChain_cons] at h2
    unfold dropExtra
    rw [if_neg (fun h => h1 e rfl h.symm), ih e.2 (fun f hf => h2.1 f hf) h2.2]

theorem filterLevels_chain (es : List (K × Nat)) (h : es.IsChain (fun e f => f.2 ≠ e.2)) : filterLevels es = es := by
  cases es with
  | nil => rfl
  | cons e es =>
    rw [List.isChain_cons] at h
    unfold filterLevels
    simp only []
    rw [dropExtra_chain es e.2 (fun f hf => h.1 f hf) h.2]

theorem zip_map_pair {α β γ : Type} (f : α → β) (g : α → γ) (l : List α) : (l.map f).zip (l.map g) = l.map fun a => (f a, g a) := by
  induction l with
  | nil => rfl
  | cons a l ih => simp [ih]

theorem run_some (p : Dp K) (hp : Valid p) : p.run = some (filterLevels
    (((backtrack p.table (p.maxK + 1) p.best.2.1 p.best.2.2 p.stop).map
      fun ka => (ka.1 : K) / (p.divisions : K)).reverse.zip
      (((backtrack p.table (p.maxK + 1) p.best.2.1 p.best.2.2 p.stop).map Prod.snd).reverse.tail ++ [p.stop]))) := by
  unfold Dp.run
  rw [if_neg]
  rintro ⟨_, h⟩
  rw [List.any_eq_true] at h
  obtain ⟨a, ha, h0⟩ := h
  have := hp.min a (List.mem_range.1 ha)
  have := hp.q
  have h0' : p.dMin.getD a 0 = 0 := by simpa using h0
  omega

theorem run_of_traces (p : Dp K) (hp : Valid p) (S : List (Nat × Nat)) (k a : Nat) (h : Reach p S k a p.stop)
    (ht : Traces p (backtrack p.table (p.maxK + 1) p.best.2.1 p.best.2.2 p.stop) S) :
    p.run = some (S.map fun e => ((e.1 : K) / (p.divisions : K), e.2)) := by
  rw [run_some p hp]
  obtain ⟨t1, t2⟩ := ht
  have e1 : ((backtrack p.table (p.maxK + 1) p.best.2.1 p.best.2.2 p.stop).map
      fun ka => (ka.1 : K) / (p.divisions : K)).reverse = S.map fun e => (e.1 : K) / (p.divisions : K) := by
    have := congrArg (List.map fun n : Nat => (n : K) / (p.divisions : K)) t1
    rw [List.map_reverse, List.map_map, List.map_map] at this
    exact this
  obtain ⟨T, hT⟩ := h.snd_last
  have e2 : ((backtrack p.table (p.maxK + 1) p.best.2.1 p.best.2.2 p.stop).map Prod.snd).reverse.tail ++ [p.stop] =
      S.map Prod.snd := by
    rw [t2, hT]
    simp
  rw [e1, e2, zip_map_pair, filterLevels_chain]
  rw [List.isChain_map]
  exact (h.props hp).2.1.imp fun _ _ h => h.1

/-- The discretisation in grid units. -/
theorem run_spec (p : Dp K) (hp : Valid p) (hx : p.x ≠ []) :
    let A := Allowed p.num p.maxK p.start p.stop (fun a => p.dMin.getD a 0) (fun a => p.dMax.getD a 0)
    let E := levelError p.x p.depths p.start p.divisions
    (∃ S, A S ∧ E S < big ∧ p.run = some (S.map fun e => ((e.1 : K) / (p.divisions : K), e.2)) ∧ ∀ S', A S' → E S ≤ E S') ∨
    ((∀ S, A S → big ≤ E S) ∧ p.run = some [(0, p.stop)]) := by
  intro A E
  have hpos : 0 < p.maxK := by
    unfold Dp.maxK
    have := hp.q
    have h2 : 0 < p.x.length := List.length_pos_iff.2 hx
    exact Nat.mul_pos (by omega) h2
  obtain ⟨b1, b2⟩ := best_spec p hp hpos
  rcases b2 with b2 | ⟨b2, S, s1, s2, s3, s4, s5⟩
  · right
    constructor
    · intro S hS
      obtain ⟨k, a, r1, r2, r3⟩ := (allowed_iff p hp S).1 hS
      by_contra hc
      have := b1 S k a r1 r2 r3 (not_le.1 hc)
      rw [b2] at this
      exact hc this
    · rw [run_some p hp, b2]
      simp only []
      rw [backtrack_succ]
      have hz : (read p.table 0 0 p.stop).2 = none := by
        rw [read_table p hp 0 0 p.stop (by omega) (by have := hp.start; omega) hp.stop]
        unfold Dp.entry
        split
        · rfl
        · have : p.lasts 0 0 = [] := by
            rw [List.eq_nil_iff_forall_not_mem]
            rintro ⟨i, c⟩ h
            rw [mem_lasts] at h
            have h1 := hp.min 0 (by have := hp.start; omega)
            have h2 := hp.q
            omega
          rw [this]
          rfl
      rw [hz]
      simp [filterLevels, dropExtra]
  · left
    refine ⟨S, (allowed_iff p hp S).2 ⟨_, _, s1, s2, s3⟩, by change levelError _ _ _ _ _ < big; rw [s4]; exact b2,
      run_of_traces p hp S _ _ s1 (s5 _ (by omega)), ?_⟩
    intro S' hS'
    obtain ⟨k, a, r1, r2, r3⟩ := (allowed_iff p hp S').1 hS'
    change levelError _ _ _ _ _ ≤ levelError _ _ _ _ _
    rw [s4]
    by_cases hc : levelError p.x p.depths p.start p.divisions S' < big
    · exact b1 S' k a r1 r2 r3 hc
    · exact b2.le.trans (not_lt.1 hc)

/-- The maximum feature of level `a`; it is `2**30` pixels if none is given. -/
def maxOf (n : Nat) (maxFeatures : Option (List K)) (a : Nat) : K := (maxFeatures.getD (List.replicate n (2 ^ 30))).getD a 0

variable [FloorSemiring K]

theorem getD_map0 (l : List K) (f : K → Nat) (hf : f 0 = 0) (a : Nat) : (l.map f).getD a 0 = f (l.getD a 0) := by
  have := List.getD_map (d := (0 : K)) (l := l) (n := a) f
  rw [hf] at this
  exact this

/-- **C69**. With minimum features of at least a pixel, if some grating on the lattice of `1 / divisions` of a pixel is allowed (and
is less than `2**30` away from the continuous one), the discretisation returns an allowed grating, and none that is allowed is closer
to the continuous grating. -/
theorem general_optimal (x depths minF : List K) (maxF : Option (List K)) (start stop q : Nat) (hq : 1 ≤ q) (hx : x ≠ [])
    (hstart : start < depths.length) (hstop : stop < depths.length)
    (hmin : ∀ a, a < depths.length → 1 ≤ minF.getD a 0)
    (hex : ∃ S, Allowed depths.length (q * x.length) start stop (fun a => ⌈minF.getD a 0 * q⌉₊)
      (fun a => ⌊maxOf depths.length maxF a * q⌋₊) S ∧ levelError x depths start q S < 2 ^ 30) :
    ∃ S, edgeLocs x depths minF maxF start stop q = some (S.map fun e => ((e.1 : K) / (q : K), e.2)) ∧
      Allowed depths.length (q * x.length) start stop (fun a => ⌈minF.getD a 0 * q⌉₊)
        (fun a => ⌊maxOf depths.length maxF a * q⌋₊) S ∧
      ∀ S', Allowed depths.length (q * x.length) start stop (fun a => ⌈minF.getD a 0 * q⌉₊)
        (fun a => ⌊maxOf depths.length maxF a * q⌋₊) S' → levelError x depths start q S ≤ levelError x depths start q S' := by
  have hlo : ∀ a, (minF.map fun f => ⌈f * (q : K)⌉₊).getD a 0 = ⌈minF.getD a 0 * q⌉₊ := fun a => getD_map0 _ _ (by simp) a
  have hhi : ∀ a, ((maxF.getD (List.replicate depths.length big)).map fun f => ⌊f * (q : K)⌋₊).getD a 0 =
      ⌊maxOf depths.length maxF a * q⌋₊ := fun a => getD_map0 _ _ (by simp) a
  have hv : Valid (K := K) ⟨x, depths, minF.map fun f => ⌈f * (q : K)⌉₊,
      (maxF.getD (List.replicate depths.length big)).map fun f => ⌊f * (q : K)⌋₊, start, stop, q⟩ := by
    refine ⟨hq, hstart, hstop, ?_⟩
    intro a ha
    change q ≤ (minF.map fun f => ⌈f * (q : K)⌉₊).getD a 0
    rw [hlo a]
    have h1 := hmin a ha
    have h2 : (q : K) ≤ minF.getD a 0 * q := by
      have : (0 : K) ≤ q := by positivity
      nlinarith
    have h3 := Nat.le_ceil (minF.getD a 0 * (q : K))
    exact_mod_cast h2.trans h3
  have := run_spec _ hv hx
  simp only [hlo, hhi] at this
  rcases this with ⟨S, s1, s2, s3, s4⟩ | ⟨h1, _⟩
  · exact ⟨S, s3, s1, s4⟩
  · obtain ⟨S, s1, s2⟩ := hex
    exact absurd s2 (not_lt.2 (h1 S s1))

/-- **C69**. If no grating is allowed, the result is one edge at 0 to the last level, whatever the features are. -/
theorem general_none (x depths minF : List K) (maxF : Option (List K)) (start stop q : Nat) (hq : 1 ≤ q) (hx : x ≠ [])
    (hstart : start < depths.length) (hstop : stop < depths.length)
    (hmin : ∀ a, a < depths.length → 1 ≤ minF.getD a 0)
    (hex : ¬ ∃ S, Allowed depths.length (q * x.length) start stop (fun a => ⌈minF.getD a 0 * q⌉₊)
      (fun a => ⌊maxOf depths.length maxF a * q⌋₊) S ∧ levelError x depths start q S < 2 ^ 30) :
    edgeLocs x depths minF maxF start stop q = some [(0, stop)] := by
  have hlo : ∀ a, (minF.map fun f => ⌈f * (q : K)⌉₊).getD a 0 = ⌈minF.getD a 0 * q⌉₊ := fun a => getD_map0 _ _ (by simp) a
  have hhi : ∀ a, ((maxF.getD (List.replicate depths.length big)).map fun f => ⌊f * (q : K)⌋₊).getD a 0 =
      ⌊maxOf depths.length maxF a * q⌋₊ := fun a => getD_map0 _ _ (by simp) a
  have hv : Valid (K := K) ⟨x, depths, minF.map fun f => ⌈f * (q : K)⌉₊,
      (maxF.getD (List.replicate depths.length big)).map fun f => ⌊f * (q : K)⌋₊, start, stop, q⟩ := by
    refine ⟨hq, hstart, hstop, ?_⟩
    intro a ha
    change q ≤ (minF.map fun f => ⌈f * (q : K)⌉₊).getD a 0
    rw [hlo a]
    have h1 := hmin a ha
    have h2 : (q : K) ≤ minF.getD a 0 * q := by
      have : (0 : K) ≤ q := by positivity
      nlinarith
    have h3 := Nat.le_ceil (minF.getD a 0 * (q : K))
    exact_mod_cast h2.trans h3
  have := run_spec _ hv hx
  simp only [hlo, hhi] at this
  rcases this with ⟨S, s1, s2, s3, s4⟩ | ⟨_, h2⟩
  · exact absurd ⟨S, s1, s2⟩ hex
  · exact h2

/-- What the features mean for the edges that are returned, in pixels. -/
structure RespectsFeatures (n : Nat) (len : K) (start stop : Nat) (lo hi : Nat → K) (r : List (K × Nat)) : Prop where
  ne : r ≠ []
  onGrating : ∀ e ∈ r, 0 ≤ e.1 ∧ e.1 ≤ len ∧ e.2 < n
  first : ∀ e, r.head? = some e → e.2 ≠ start ∧ e.1 ≤ hi start
  segments : r.IsChain fun e f => f.2 ≠ e.2 ∧ lo e.2 ≤ f.1 - e.1 ∧ f.1 - e.1 ≤ hi e.2
  last : ∀ e, r.getLast? = some e → e.2 = stop ∧ len - e.1 ≤ hi stop

/-- **C69**. The edges that are returned are on the grating, the first level differs from the start level, the last one is the stop
level, the level changes at every edge, and every segment between two edges is at least the minimum and at most the maximum feature
of its level; the first and the last segment are at most the maximum. -/
theorem general_features (x depths minF : List K) (maxF : Option (List K)) (start stop q : Nat) (hq : 1 ≤ q) (hx : x ≠ [])
    (hstart : start < depths.length) (hstop : stop < depths.length)
    (hmin : ∀ a, a < depths.length → 1 ≤ minF.getD a 0) (hmax : ∀ a, 0 ≤ maxOf depths.length maxF a)
    (hex : ∃ S, Allowed depths.length (q * x.length) start stop (fun a => ⌈minF.getD a 0 * q⌉₊)
      (fun a => ⌊maxOf depths.length maxF a * q⌋₊) S ∧ levelError x depths start q S < 2 ^ 30) :
    ∃ r, edgeLocs x depths minF maxF start stop q = some r ∧ RespectsFeatures depths.length (x.length : K) start stop
      (fun a => minF.getD a 0) (maxOf depths.length maxF) r := by
  obtain ⟨S, s1, s2, -⟩ := general_optimal x depths minF maxF start stop q hq hx hstart hstop hmin hex
  refine ⟨_, s1, ?_⟩
  have hq' : (0 : K) < q := by exact_mod_cast hq
  have hfl : ∀ a, ((⌊maxOf depths.length maxF a * q⌋₊ : Nat) : K) ≤ maxOf depths.length maxF a * q :=
    fun a => Nat.floor_le (mul_nonneg (hmax a) hq'.le)
  have hgap : ∀ e ∈ S, ∀ f, S.getLast? = some f → e.1 ≤ f.1 := by
    have key : ∀ T : List (Nat × Nat), T.IsChain (fun e f => e.1 ≤ f.1) → ∀ e ∈ T, ∀ f, T.getLast? = some f → e.1 ≤ f.1 := by
      intro T
      induction T with
      | nil => intro _ e he; simp at he
      | cons t T ih =>
        intro h e he f hf
        rw [List.isChain_cons] at h
        cases T with
        | nil =>
          simp only [List.mem_singleton] at he
          simp only [List.getLast?_singleton, Option.some.injEq] at hf
          rw [he, ← hf]
        | cons u T =>
          rw [List.getLast?_cons_cons] at hf
          rcases List.mem_cons.1 he with rfl | he'
          · exact (h.1 u rfl).trans (ih h.2 u (by simp) f hf)
          · exact ih h.2 e he' f hf
    exact key S (s2.chain.imp fun e f h => by omega)
  refine ⟨by simpa using s2.ne, ?_, ?_, ?_, ?_⟩
  · intro e he
    obtain ⟨e', h1, rfl⟩ := List.mem_map.1 he
    refine ⟨by positivity, ?_, s2.level e' h1⟩
    obtain ⟨f, hf⟩ : ∃ f, S.getLast? = some f := ⟨S.getLast s2.ne, List.getLast?_eq_some_getLast s2.ne⟩
    have h2 : e'.1 ≤ q * x.length := (hgap e' h1 f hf).trans (s2.last f hf).2.1
    have h3 : (e'.1 : K) ≤ q * x.length := by exact_mod_cast h2
    simp only
    rw [div_le_iff₀ hq']
    linarith
  · intro e he
    rw [List.head?_map] at he
    obtain ⟨e', h1, rfl⟩ := Option.map_eq_some_iff.1 he
    obtain ⟨h2, h3⟩ := s2.first e' h1
    refine ⟨h2, ?_⟩
    simp only
    rw [div_le_iff₀ hq']
    exact le_trans (by exact_mod_cast h3) (hfl start)
  · rw [List.isChain_map]
    refine s2.chain.imp ?_
    rintro e f ⟨h1, h2, h3⟩
    simp only at h2 h3 ⊢
    refine ⟨h1, ?_, ?_⟩
    · rw [← sub_div, le_div_iff₀ hq']
      have h4 := Nat.le_ceil (minF.getD e.2 0 * (q : K))
      have h5 : ((e.1 + ⌈minF.getD e.2 0 * (q : K)⌉₊ : Nat) : K) ≤ f.1 := by exact_mod_cast h2
      push_cast at h5
      linarith
    · rw [← sub_div, div_le_iff₀ hq']
      have h4 := hfl e.2
      have h5 : (f.1 : K) ≤ ((e.1 + ⌊maxOf depths.length maxF e.2 * (q : K)⌋₊ : Nat) : K) := by exact_mod_cast h3
      push_cast at h5
      linarith
  · intro e he
    rw [List.getLast?_map] at he
    obtain ⟨e', h1, rfl⟩ := Option.map_eq_some_iff.1 he
    obtain ⟨h2, h3, h4⟩ := s2.last e' h1
    refine ⟨h2, ?_⟩
    have h5 := hfl stop
    have h6 : ((q * x.length : Nat) : K) ≤ ((e'.1 + ⌊maxOf depths.length maxF stop * (q : K)⌋₊ : Nat) : K) := by exact_mod_cast h4
    push_cast at h6
    simp only
    rw [sub_le_iff_le_add, ← sub_le_iff_le_add', le_div_iff₀ hq']
    linarith

theorem error_le (x depths : List K) (hx : ∀ a ∈ x, 0 ≤ a ∧ a ≤ 1) (hd : ∀ a ∈ depths, 0 ≤ a ∧ a ≤ 1) (start q : Nat) (hq : 1 ≤ q)
    (S : List (Nat × Nat)) : levelError x depths start q S ≤ x.length := by
  have hq' : (0 : K) < q := by exact_mod_cast hq
  have unit : ∀ (l : List K), (∀ a ∈ l, 0 ≤ a ∧ a ≤ 1) → ∀ j, 0 ≤ l.getD j 0 ∧ l.getD j 0 ≤ 1 := fun l hl j => getD_unit l hl j
  unfold levelError
  calc _ ≤ ∑ j ∈ Finset.range x.length, (1 : K) := by
        apply Finset.sum_le_sum
        intro j _
        have h1 := unit x hx j
        have h2 : 0 ≤ pixelHeight depths start q S j ∧ pixelHeight depths start q S j ≤ 1 := by
          unfold pixelHeight
          constructor
          · exact div_nonneg (Finset.sum_nonneg fun r _ => (unit depths hd _).1) hq'.le
          · rw [div_le_one hq']
            calc _ ≤ ∑ r ∈ Finset.range q, (1 : K) := Finset.sum_le_sum fun r _ => (unit depths hd _).2
              _ = q := by simp
        exact sq_le_one' _ (by linarith) (by linarith)
    _ = x.length := by simp

/-- **C69**. Without maximum features, with depths and continuous values between 0 and 1 (and fewer than `2**30` pixels), different
start and stop levels always give a grating that respects the features. -/
theorem general_found (x depths minF : List K) (start stop q : Nat) (hq : 1 ≤ q) (hx : x ≠ [])
    (hstart : start < depths.length) (hstop : stop < depths.length) (hne : start ≠ stop)
    (hmin : ∀ a, a < depths.length → 1 ≤ minF.getD a 0) (hx1 : ∀ a ∈ x, 0 ≤ a ∧ a ≤ 1) (hd1 : ∀ a ∈ depths, 0 ≤ a ∧ a ≤ 1)
    (hlen : x.length < 2 ^ 30) :
    ∃ r, edgeLocs x depths minF none start stop q = some r ∧ RespectsFeatures depths.length (x.length : K) start stop
      (fun a => minF.getD a 0) (maxOf depths.length none) r := by
  have hm : ∀ a, a < depths.length → maxOf (K := K) depths.length none a = 2 ^ 30 := by
    intro a ha
    simp [maxOf, ha]
  apply general_features x depths minF none start stop q hq hx hstart hstop hmin
  · intro a
    by_cases ha : a < depths.length
    · rw [hm a ha]; positivity
    · simp [maxOf, ha]
  · refine ⟨[(0, stop)], ⟨by simp, ?_, by simp, ?_, by simpa using hstop⟩, ?_⟩
    · intro e he
      simp only [List.head?_cons, Option.some.injEq] at he
      subst he
      exact ⟨fun h => hne h.symm, Nat.zero_le _⟩
    · intro e he
      simp only [List.getLast?_singleton, Option.some.injEq] at he
      subst he
      refine ⟨rfl, Nat.zero_le _, ?_⟩
      rw [hm stop hstop, zero_add, Nat.le_floor_iff (by positivity)]
      push_cast
      have h1 : (x.length : K) ≤ 2 ^ 30 := by exact_mod_cast hlen.le
      have h2 : (0 : K) ≤ q := by positivity
      nlinarith
    · refine lt_of_le_of_lt (error_le x depths hx1 hd1 start q hq _) ?_
      exact_mod_cast hlen

/-- **C69**. The discretisation raises exactly if there are two levels or more and the minimum feature of one of them is 0. -/
theorem general_raises (x depths minF : List K) (maxF : Option (List K)) (start stop q : Nat) (hq : 1 ≤ q)
    (hmin : ∀ a, 0 ≤ minF.getD a 0) : edgeLocs x depths minF maxF start stop q = none ↔
      2 ≤ depths.length ∧ ∃ a < depths.length, minF.getD a 0 = 0 := by
  have hq' : (0 : K) < q := by exact_mod_cast hq
  have hlo : ∀ a, (minF.map fun f => ⌈f * (q : K)⌉₊).getD a 0 = ⌈minF.getD a 0 * q⌉₊ := fun a => getD_map0 _ _ (by simp) a
  unfold edgeLocs Dp.run
  simp only [Dp.num, hlo]
  constructor
  · intro h
    split at h
    · rename_i hc
      refine ⟨hc.1, ?_⟩
      obtain ⟨a, h1, h2⟩ := List.any_eq_true.1 hc.2
      refine ⟨a, List.mem_range.1 h1, le_antisymm ?_ (hmin a)⟩
      have h3 : ⌈minF.getD a 0 * (q : K)⌉₊ = 0 := of_decide_eq_true h2
      rw [Nat.ceil_eq_zero] at h3
      nlinarith
    · cases h
  · rintro ⟨h1, a, h2, h3⟩
    rw [if_pos]
    refine ⟨h1, List.any_eq_true.2 ⟨a, List.mem_range.2 h2, ?_⟩⟩
    rw [h3]
    simp

end Generic

/-- A case that meets the hypotheses of `general_optimal` and `general_features`: three levels with different features. -/
example : (∀ a, a < 3 → (1 : ℚ) ≤ ([1, 3 / 2, 2] : List ℚ).getD a 0) ∧
    Allowed 3 (5 * 4) 0 2 (fun a => ⌈([1, 3 / 2, 2] : List ℚ).getD a 0 * (5 : Nat)⌉₊)
      (fun a => ⌊maxOf 3 (some [3, 3, (3 : ℚ)]) a * (5 : Nat)⌋₊) [(3, 1), (11, 2)] ∧
    levelError [1 / 2, 1, 0, 1] [0, 1 / 2, 1] 0 5 [(3, 1), (11, 2)] < (2 ^ 30 : ℚ) := by
  refine ⟨?_, ⟨by simp, ?_, ?_, ?_, by simp⟩, ?_⟩
  · intro a ha
    match a, ha with
    | 0, _ => norm_num
    | 1, _ => norm_num
    | 2, _ => norm_num
  · decide +kernel
  · decide +kernel
  · decide +kernel
  · refine lt_of_le_of_lt (error_le _ _ (by decide +kernel) (by decide +kernel) 0 5 (by norm_num) _) (by norm_num)

/-- **C69** (violated). The flat grating is never considered: if the continuous grating is flat at the level where it has to start
and to stop, the discretisation still etches a segment. -/
theorem general_flat_false : ¬ ∀ (x depths minF : List ℚ) (start q : Nat), 1 ≤ q → x ≠ [] → start < depths.length →
    (∀ a, a < depths.length → 1 ≤ minF.getD a 0) → (∀ a ∈ x, a = depths.getD start 0) →
    ∃ r, edgeLocs x depths minF none start start q = some r ∧ ∀ e ∈ r, e.2 = start := by
  intro H
  obtain ⟨r, h1, h2⟩ := H [0, 0] [0, 1] [1, 1] 0 1 le_rfl (by simp) (by simp) (by
    intro a ha
    match a, ha with
    | 0, _ => norm_num
    | 1, _ => norm_num) (by simp)
  have e1 : edgeLocs ([0, 0] : List ℚ) [0, 1] [1, 1] none 0 0 1 = some [(0, 1), (1, 0)] := by decide +kernel
  rw [e1, Option.some.injEq] at h1
  subst h1
  have := h2 (0, 1) (by simp)
  simp at this

/-- **C69** (violated). If the maximum features rule out every grating, a grating that breaks them is returned without an error. -/
theorem general_max_false : ¬ ∀ (x depths minF maxF : List ℚ) (start stop q : Nat) (r : List (ℚ × Nat)), 1 ≤ q → x ≠ [] →
    start < depths.length → stop < depths.length → (∀ a, a < depths.length → 1 ≤ minF.getD a 0) →
    edgeLocs x depths minF (some maxF) start stop q = some r →
    ∀ e, r.getLast? = some e → (x.length : ℚ) - e.1 ≤ maxF.getD stop 0 := by
  intro H
  have e2 : edgeLocs ([0, 0, 0] : List ℚ) [0, 1] [3, 3] (some [1, 1]) 0 0 1 = some [(0, 0)] := by decide +kernel
  have := H [0, 0, 0] [0, 1] [3, 3] [1, 1] 0 0 1 _ le_rfl (by simp) (by simp) (by simp) (by
    intro a ha
    match a, ha with
    | 0, _ => norm_num
    | 1, _ => norm_num) e2 (0, 0) rfl
  norm_num at this

end Verif.Grating.General
