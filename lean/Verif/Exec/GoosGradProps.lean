import Verif.Exec.GoosGrad
import Verif.Exec.GradProps
/-
Property theorems about the goos gradient (C05).
-/
namespace Verif.Exec
variable {V : Type} [DecidableEq V]
variable {E : Type} [NormedAddCommGroup E] [NormedSpace ℝ E]

/-- The plan gives the variable `pv[i]` the value `p i`. -/
def assign (pv : List V) (p : Fin pv.length → E) (w : V) : Option E :=
  if h : w ∈ pv then some (p ⟨pv.idxOf w, List.idxOf_lt_length_iff.2 h⟩) else none

/-- `gr` reports the derivatives of the node function: `gr xs g` is the list of `g` composed with
the partial derivatives at `xs`. -/
def IsLocalGrad (k : Nat) (f : List E → E)
    (gr : List E → (E →L[ℝ] ℝ) → List (E →L[ℝ] ℝ)) : Prop :=
  ∀ xs : Fin k → E, ∃ D : Fin k → (E →L[ℝ] E),
    HasFDerivAt (fun ys : Fin k → E => f (List.ofFn ys))
      (∑ i, (D i).comp (ContinuousLinearMap.proj i)) xs ∧
    ∀ g, gr (List.ofFn xs) g = List.ofFn (fun i => g.comp (D i))

/-- The gradient for a given graph, with respect to any list of nodes. -/
theorem goos_eval_grad_of_graph (N : Net V) (hN : Acyclic N) (f : V → List E → E)
    (hg : HGrad V E (E →L[ℝ] ℝ)) (ord : List V → List V) (hord : ∀ l, (ord l).Perm l)
    (pv vars : List V) (hpv : pv.Nodup) (hvar : ∀ v ∈ pv, N.heavy v = false ∧ N.inputs v = [])
    (hgrad : ∀ v, v ∉ pv → ∃ gr, IsLocalGrad (N.inputs v).length (f v) gr ∧ Owned (N.inputs v).length (hg v) gr)
    (out : V)
    (hhh : ∀ v, Reach N [out] v → N.heavy v = true → ∀ u ∈ N.inputs v, N.heavy u = false)
    (seed kn : E →L[ℝ] ℝ) (p : Fin pv.length → E)
    (φ : (Fin pv.length → E) → E) (hφ : ∀ q, Evals N f (assign pv q) out (φ q))
    {n : Nat} {g : List (V × List V)} (hgr : createGraph N n [out] = some g) :
    ∃ ρ : V → (E →L[ℝ] ℝ),
      evalGradGoos N f hg ord n (assign pv p) seed kn vars out = .ok (vars.map ρ) ∧
      HasFDerivAt (fun q => seed (φ q)) (∑ i, (ρ (pv.get i)).comp (ContinuousLinearMap.proj i)) p := by
  classical
  have hgrad' : ∀ v, ∃ gr : List E → (E →L[ℝ] ℝ) → List (E →L[ℝ] ℝ),
      v ∉ pv → IsLocalGrad (N.inputs v).length (f v) gr ∧ Owned (N.inputs v).length (hg v) gr := by
    intro v
    by_cases h : v ∈ pv
    · exact ⟨fun _ _ => [], fun h' => absurd h h'⟩
    · obtain ⟨gr, hgr⟩ := hgrad v h
      exact ⟨gr, fun _ => hgr⟩
  choose gr hgrs using hgrad'
  have hex : ∀ v q, ∃ a, Evals N f (assign pv q) v a := fun v q => evals_exists hN _ _ v
  choose Φ hΦ using hex
  have hrec : ∀ v q, v ∉ pv → Φ v q = f v (List.ofFn (fun i => Φ ((N.inputs v).get i) q)) := by
    intro v q hv
    apply (hΦ v q).unique
    exact Evals.node (N := N) (f := f) (ov := assign pv q) (v := v)
      (as := List.ofFn (fun i => Φ ((N.inputs v).get i) q)) (by simp [assign, hv]) (by simp) (by
        intro z hz
        rw [List.mem_iff_getElem] at hz
        obtain ⟨i, hi, rfl⟩ := hz
        simp only [List.getElem_zip, List.getElem_ofFn]
        exact hΦ _ q)
  have hvarv : ∀ (i : Fin pv.length) q, Φ (pv.get i) q = q i := by
    intro i q
    apply (hΦ _ q).unique
    apply Evals.override
    have hm : pv.get i ∈ pv := List.get_mem _ _
    simp only [assign, hm, dif_pos]
    congr 2
    apply Fin.ext
    simp only [List.get_eq_getElem]
    exact hpv.idxOf_getElem i.1 i.2
  have hder : ∀ v, ∃ T : (Fin pv.length → E) →L[ℝ] E, HasFDerivAt (Φ v) T p := by
    intro v
    obtain ⟨rank, hr⟩ := hN
    induction hk : rank v using Nat.strongRecOn generalizing v with
    | ind k ih =>
      by_cases hv : v ∈ pv
      · obtain ⟨i, hi⟩ := List.mem_iff_get.1 hv
        refine ⟨ContinuousLinearMap.proj i, ?_⟩
        have : Φ v = fun q => q i := by rw [← hi]; exact funext (hvarv i)
        rw [this]
        exact (ContinuousLinearMap.proj (R := ℝ) (φ := fun _ : Fin pv.length => E) i).hasFDerivAt
      · have hin : ∀ i, ∃ T : (Fin pv.length → E) →L[ℝ] E,
            HasFDerivAt (Φ ((N.inputs v).get i)) T p := fun i =>
          ih _ (hk ▸ hr v _ (List.get_mem _ _)) _ rfl
        choose T hT using hin
        obtain ⟨D, hD, _⟩ := (hgrs v hv).1 (fun i => Φ ((N.inputs v).get i) p)
        have hpi : HasFDerivAt (fun q => fun i => Φ ((N.inputs v).get i) q)
            (ContinuousLinearMap.pi T) p := hasFDerivAt_pi.2 hT
        have hc := hD.comp p hpi
        refine ⟨(∑ i, (D i).comp (ContinuousLinearMap.proj i)).comp (ContinuousLinearMap.pi T), ?_⟩
        have : Φ v = (fun ys : Fin (N.inputs v).length → E => f v (List.ofFn ys)) ∘
            (fun q => fun i => Φ ((N.inputs v).get i) q) := funext (fun q => hrec v q hv)
        rw [this]
        exact hc
  choose T hT using hder
  have hov : ∀ v, (assign pv p v).isSome ↔ v ∈ pv := by
    intro v
    by_cases h : v ∈ pv <;> simp [assign, h]
  obtain ⟨ρ, hρ, hpair⟩ := evalGradGoos_pairing hN f hg gr ord hord (assign pv p) seed kn pv vars hpv
    hov out hvar hhh (fun v hv => (hgrs v hv).2)
    (by
      intro v hv as x hl
      obtain ⟨D, _, hD⟩ := (hgrs v hv).1 (fun i => as.get (i.cast hl.symm))
      have : as = List.ofFn (fun i : Fin (N.inputs v).length => as.get (i.cast hl.symm)) := by
        apply List.ext_getElem
        · simp [hl]
        · intro i h1 h2; simp
      rw [this, hD]
      simp) hgr
  refine ⟨ρ, hρ, ?_⟩
  have hφΦ : φ = Φ out := funext (fun q => (hφ q).unique (hΦ out q))
  have hTv : ∀ i : Fin pv.length, T (pv.get i) = ContinuousLinearMap.proj i := by
    intro i
    apply (hT _).unique
    have : Φ (pv.get i) = fun q => q i := funext (hvarv i)
    rw [this]
    exact (ContinuousLinearMap.proj (R := ℝ) (φ := fun _ : Fin pv.length => E) i).hasFDerivAt
  have hr' : (∑ i, (ρ (pv.get i)).comp (ContinuousLinearMap.proj i)) = seed.comp (T out) := by
    ext dp
    have := hpair (E := E) (R := ℝ) (fun g t => g t) (fun v => T v dp)
      (fun v => Φ v p) (by simp) (by simp) (fun v _ => hΦ v p)
      (by
        intro v _ hv x
        obtain ⟨D, hD, hD'⟩ := (hgrs v hv).1 (fun i => Φ ((N.inputs v).get i) p)
        have hpi : HasFDerivAt (fun q => fun i => Φ ((N.inputs v).get i) q)
            (ContinuousLinearMap.pi (fun i => T ((N.inputs v).get i))) p :=
          hasFDerivAt_pi.2 (fun i => hT _)
        have hc := hD.comp p hpi
        have hTv : T v = (∑ i, (D i).comp (ContinuousLinearMap.proj i)).comp
            (ContinuousLinearMap.pi (fun i => T ((N.inputs v).get i))) := by
          apply (hT v).unique
          have : Φ v = (fun ys : Fin (N.inputs v).length → E => f v (List.ofFn ys)) ∘
              (fun q => fun i => Φ ((N.inputs v).get i) q) := funext (fun q => hrec v q hv)
          rw [this]
          exact hc
        have hmap : (N.inputs v).map (fun u => Φ u p) =
            List.ofFn (fun i => Φ ((N.inputs v).get i) p) := by
          apply List.ext_getElem
          · simp
          · intro i h1 h2; simp
        rw [hmap, hD', zip_ofFn_sum (N.inputs v) (fun i => x.comp (D i))
          (fun u (y : E →L[ℝ] ℝ) => y (T u dp)), hTv]
        simp)
    have e : pv.map (fun v => (ρ v) (T v dp)) = List.ofFn (fun i : Fin pv.length =>
        (ρ (pv.get i)) (T (pv.get i) dp)) := by
      apply List.ext_getElem
      · simp
      · intro i h1 h2; simp
    rw [e, List.sum_ofFn] at this
    rw [sum_apply, ContinuousLinearMap.comp_apply, ← this]
    apply Finset.sum_congr rfl
    intro i _
    rw [hTv i]
    rfl
  rw [hr', hφΦ]
  exact seed.hasFDerivAt.comp p (hT out)

/-- **C05**, restricted to node gradients that never give the same array to two inputs and to
graphs where no heavy node feeds a heavy node. For every such graph, every schedule, and every
value of the variables, `eval_grad` returns for every plan variable the partial derivative of the
output with respect to it. The general statement fails, see `goos_sum_grad_doubles`. -/
theorem goos_eval_grad_is_derivative_partial (N : Net V) (hN : Acyclic N) (f : V → List E → E)
    (hg : HGrad V E (E →L[ℝ] ℝ)) (ord : List V → List V) (hord : ∀ l, (ord l).Perm l)
    (pv : List V) (hpv : pv.Nodup) (hvar : ∀ v ∈ pv, N.heavy v = false ∧ N.inputs v = [])
    (hgrad : ∀ v, v ∉ pv → ∃ gr, IsLocalGrad (N.inputs v).length (f v) gr ∧ Owned (N.inputs v).length (hg v) gr)
    (out : V)
    (hhh : ∀ v, Reach N [out] v → N.heavy v = true → ∀ u ∈ N.inputs v, N.heavy u = false)
    (seed kn : E →L[ℝ] ℝ) (p : Fin pv.length → E)
    (φ : (Fin pv.length → E) → E) (hφ : ∀ q, Evals N f (assign pv q) out (φ q)) :
    ∃ n₀, ∀ n, n₀ ≤ n → ∃ r : Fin pv.length → (E →L[ℝ] ℝ),
      evalGradGoos N f hg ord n (assign pv p) seed kn pv out = .ok (List.ofFn r) ∧
      HasFDerivAt (fun q => seed (φ q)) (∑ i, (r i).comp (ContinuousLinearMap.proj i)) p := by
  obtain ⟨n₀, h₀⟩ := createGraph_terminates hN [out]
  refine ⟨n₀, fun n hn => ?_⟩
  obtain ⟨g, hgr⟩ := h₀ n hn
  obtain ⟨ρ, h1, h2⟩ := goos_eval_grad_of_graph N hN f hg ord hord pv pv hpv hvar hgrad out hhh seed kn p φ hφ hgr
  refine ⟨fun i => ρ (pv.get i), ?_, h2⟩
  rw [h1]
  congr 1
  apply List.ext_getElem
  · simp
  · intro i h1 h2; simp

/-! ### Which node gradients satisfy the hypothesis -/

/-- `Sum` of at most two inputs with dominant index `0` is harmless: the first input gets a copy,
the second takes over the array of the sum node. -/
theorem sumGrad_owned_of_le_two {α γ : Type} (dom : List α → Nat) (hdom : ∀ as, dom as = 0)
    (k : Nat) (hk : k ≤ 2) :
    Owned k (sumGrad dom) (fun as (g : γ) => List.replicate as.length g) := by
  intro as r h has hr
  have hne : r ≠ h.next := by omega
  simp only [sumGrad, hdom, has]
  have hcase : k = 0 ∨ k = 1 ∨ k = 2 := by omega
  rcases hcase with rfl | rfl | rfl
  · simp [sumGradLoop]
  · refine ⟨by simp [sumGradLoop, Heap.alloc], ?_, by simp [sumGradLoop], ?_, ?_⟩
    · intro r' hr'
      have : r' ≠ h.next := by omega
      simp [sumGradLoop, Heap.alloc, this]
    · intro x hx
      simp [sumGradLoop, Heap.alloc] at hx ⊢
      omega
    · simp [sumGradLoop, Heap.alloc]
  · refine ⟨by simp [sumGradLoop, Heap.alloc], ?_, ?_, ?_, ?_⟩
    · intro r' hr'
      have : r' ≠ h.next := by omega
      simp [sumGradLoop, Heap.alloc, this]
    · simp [sumGradLoop, Heap.alloc, Ne.symm hne]
    · intro x hx
      simp [sumGradLoop, Heap.alloc] at hx ⊢
      omega
    · simp [sumGradLoop, Heap.alloc, hne, List.replicate]

/-! ### The violation: `Sum` with more inputs -/

theorem sumGradLoop_tail {γ : Type} (r k i : Nat) (h : Heap γ) (hi : 0 < i) :
    sumGradLoop 0 r k i h = (List.replicate k r, h) := by
  induction k generalizing i with
  | zero => rfl
  | succ k ih =>
    have : ¬ (0 = i) := by omega
    simp [sumGradLoop, this, ih (i + 1) (by omega), List.replicate_succ]

/-- Adding one array to itself `k` more times through the aliases doubles it each time. -/
theorem updateGrads_alias (y r : Nat) (k : Nat) (s : GState Nat Int) (hy : s.gv y = some r) :
    (updateGrads (List.replicate k (y, r)) s).gv = s.gv ∧
    (updateGrads (List.replicate k (y, r)) s).heap.get r = 2 ^ k * s.heap.get r ∧
    ∀ r', r' ≠ r → (updateGrads (List.replicate k (y, r)) s).heap.get r' = s.heap.get r' := by
  induction k generalizing s with
  | zero => simp [updateGrads]
  | succ k ih =>
    simp only [List.replicate_succ, updateGrads, hy]
    have := ih ⟨s.gv, s.heap.set r (s.heap.get r + s.heap.get r)⟩ hy
    refine ⟨this.1, ?_, ?_⟩
    · rw [this.2.1]
      simp only [Heap.set, if_true]
      ring
    · intro r' hr'
      rw [this.2.2 r' hr']
      simp [Heap.set, hr']

/-- Variables do not change the accumulators. -/
theorem goosBackward_leaves {α γ : Type} [Add γ] (g : List (V × List V)) (known : V → Option Nat)
    (hg : HGrad V α γ) (vals : V → Option α) (n : Nat) (l : List V) (s : GState V γ)
    (hadj : ∀ v ∈ l, adj g v = []) (hgv : ∀ v ∈ l, (s.gv v).isSome)
    (hk : ∀ v ∈ l, (known v).isSome) (hn : l.length ≤ n) :
    goosBackward g (fun _ => false) known hg vals n l s = .ok s := by
  induction l generalizing n with
  | nil => cases n <;> rfl
  | cons v l ih =>
    cases n with
    | zero => simp at hn
    | succ n =>
      obtain ⟨r, hr⟩ := Option.isSome_iff_exists.1 (hgv v (by simp))
      obtain ⟨k, hk'⟩ := Option.isSome_iff_exists.1 (hk v (by simp))
      simp only [goosBackward, hadj v (by simp), lookupAll, hr, evalGradNode, hk', List.zip_nil_left,
        updateGrads, Bool.false_eq_true, if_false]
      exact ih n (fun w hw => hadj w (List.mem_cons_of_mem _ hw))
        (fun w hw => hgv w (List.mem_cons_of_mem _ hw))
        (fun w hw => hk w (List.mem_cons_of_mem _ hw)) (by simpa using hn)

/-- The graph of `goos.Sum([x, y, y, ..., y])` with `k + 1` occurrences of `y`
(`x + y + ... + y` is flattened to this by `Sum.__add__`, `goos/math.py` 269-280): node 2 is the
sum, 1 is `y`, 0 is `x`. -/
def sumNet (k : Nat) : Net Nat :=
  { inputs := fun v => if v = 2 then 0 :: List.replicate (k + 1) 1 else [], heavy := fun _ => false }

/-- Its value. -/
def sumFun : Nat → List Int → Int := fun v xs => if v = 2 then xs.sum else 0

/-- The mathematical derivative of `x + (k+1) y` with respect to `y` is `k + 1`; the value
returned for `y` is `2 ^ k`. From four summands on (`k = 2`: `4` instead of `3`) the
gradient is wrong. -/
theorem goos_sum_grad_doubles (k : Nat) (x y kn : Int) :
    ∃ n₀, ∀ n, n₀ ≤ n → evalGradGoos (sumNet k) sumFun (fun v => if v = 2 then sumGrad (fun _ => 0)
        else freshGrad (fun _ _ => [])) id n
      (fun v => if v = 0 then some x else if v = 1 then some y else none) 1 kn [0, 1] 2
      = .ok [1, 2 ^ k] := by
  have hN : Acyclic (sumNet k) := by
    refine ⟨fun v => v, fun v u hu => ?_⟩
    show u < v
    simp only [sumNet] at hu
    split at hu
    · rw [List.mem_cons, List.mem_replicate] at hu; omega
    · simp at hu
  obtain ⟨n₀, h₀⟩ := createGraph_terminates hN [2]
  refine ⟨n₀, fun n hn => ?_⟩
  obtain ⟨g, hgr⟩ := h₀ n hn
  have hok := createGraph_ok hgr
  let ov : Nat → Option Int := fun v => if v = 0 then some x else if v = 1 then some y else none
  obtain ⟨ts, s, h1, h2, h3, h4, h5, h6⟩ := forward_final hN sumFun ov id (fun l => List.Perm.refl l)
    [2] (fun v _ h => by simp [sumNet] at h) (fun v _ h => by simp [sumNet] at h) hok
  have hlater := laterInputs_of_topo hok h2 h3 h4
  have hr2 : Reach (sumNet k) [2] 2 := Reach.out (by simp)
  have hr0 : Reach (sumNet k) [2] 0 := Reach.step hr2 (by simp [sumNet])
  have hr1 : Reach (sumNet k) [2] 1 := Reach.step hr2 (by simp [sumNet])
  have hreach : ∀ v, Reach (sumNet k) [2] v → v = 0 ∨ v = 1 ∨ v = 2 := by
    intro v hv
    induction hv with
    | out h => simp at h; omega
    | @step p u _ hu ih =>
      simp only [sumNet] at hu
      split at hu
      · rw [List.mem_cons, List.mem_replicate] at hu; omega
      · simp at hu
  have hadj : ∀ v ∈ ts, adj g v = (sumNet k).inputs v :=
    fun v hv => adj_of_mem hok.entries ((hok.keys v).2 ((h3 v).1 hv))
  obtain ⟨l₁, l₂, hl⟩ := List.append_of_mem ((h3 2).2 hr2)
  have hin0 := hlater l₁ 2 l₂ hl 0 (by simp [sumNet])
  have hin1 := hlater l₁ 2 l₂ hl 1 (by simp [sumNet])
  have hnd := h2
  rw [hl, List.nodup_append, List.nodup_cons] at hnd
  have hl1 : l₁ = [] := by
    cases l₁ with
    | nil => rfl
    | cons w l₁ =>
      exfalso
      have hw := hreach w ((h3 w).1 (by rw [hl]; simp))
      have hne := hnd.2.2 w (by simp)
      rcases hw with rfl | rfl | rfl
      · exact hne 0 (List.mem_cons_of_mem _ hin0) rfl
      · exact hne 1 (List.mem_cons_of_mem _ hin1) rfl
      · exact hne 2 (by simp) rfl
  subst hl1
  rw [List.nil_append] at hl
  have hl2 : ∀ v ∈ l₂, v = 0 ∨ v = 1 := by
    intro v hv
    rcases hreach v ((h3 v).1 (by rw [hl]; simp [hv])) with h | h | h
    · exact Or.inl h
    · exact Or.inr h
    · exact absurd (h ▸ hv) hnd.2.1.1
  have hvals : ∀ v ∈ ts, s.vals v = some ((s.vals v).getD 0) := by
    intro v hv
    obtain ⟨a, ha, _⟩ := h6 v ((h3 v).1 hv)
    simp [ha]
  have hadj2 : adj g 2 = 0 :: List.replicate (k + 1) 1 := by
    rw [hadj 2 (by rw [hl]; simp)]; simp [sumNet]
  have hlook := lookupAll_eq s.vals (fun v => (s.vals v).getD 0) (adj g 2) (by
    intro u hu
    apply hvals
    rw [hadj2, List.mem_cons, List.mem_replicate] at hu
    rw [hl]
    rcases hu with rfl | hu
    · exact List.mem_cons_of_mem _ hin0
    · rw [hu.2]; exact List.mem_cons_of_mem _ hin1)
  have hovd : (fun v => if v = 0 then some x else if v = 1 then some y else none) = ov := rfl
  rw [hovd]
  have hback : ∃ st, goosBackward g (sumNet k).heavy (fun v => (ov v).map (fun _ => 1))
      (fun v => if v = 2 then sumGrad (fun _ => 0) else freshGrad (fun _ _ => [])) s.vals
      ts.length ts ⟨upd (fun _ => none) 2 (some 0), ⟨fun r => if r = 0 then 1 else kn, 2⟩⟩ = .ok st ∧
      st.gv 0 = some 2 ∧ st.gv 1 = some 0 ∧ st.heap.get 2 = 1 ∧ st.heap.get 0 = 2 ^ k := by
    rw [hl, List.length_cons, goosBackward]
    have hzip : (0 :: List.replicate (k + 1) 1).zip
        (2 :: List.replicate (k + 1) 0) = (0, 2) :: (1, 0) :: List.replicate k (1, 0) := by
      simp [List.replicate_succ]
    have hsg : evalGradNode (fun v => (ov v).map (fun _ => 1))
        (fun v => if v = 2 then sumGrad (fun _ => 0) else freshGrad (fun _ _ => [])) 2
        ((adj g 2).map (fun v => (s.vals v).getD 0)) 0 ⟨fun r => if r = 0 then 1 else kn, 2⟩ =
        (2 :: List.replicate (k + 1) 0,
          ⟨fun r => if r = 2 then 1 else if r = 0 then 1 else kn, 3⟩) := by
      have hlen : ((adj g 2).map (fun v => (s.vals v).getD 0)).length = k + 2 := by
        rw [hadj2]; simp
      simp only [evalGradNode, ov]
      simp only [show ¬ (2 = 0) by omega, show ¬ (2 = 1) by omega, if_false, if_true,
        Option.map_none]
      rw [sumGrad, hlen, sumGradLoop, if_pos rfl]
      simp only [sumGradLoop_tail 0 (k + 1) (0 + 1) _ (by omega), Heap.alloc, if_true]
    have hgv2 : (upd (fun _ => none) 2 (some 0) : Nat → Option Nat) 2 = some 0 := by simp [upd]
    have hh : (sumNet k).heavy 2 = false := rfl
    simp only [hh, Bool.false_eq_true, if_false, hlook, hgv2, hsg]
    rw [hadj2, hzip]
    have hgv0 : (upd (fun _ => none) 2 (some 0) : Nat → Option Nat) 0 = none := by simp [upd]
    have hgv1 : (upd (upd (fun _ => none) 2 (some 0)) 0 (some 2) : Nat → Option Nat) 1 = none := by
      simp [upd]
    simp only [updateGrads, hgv0, hgv1]
    obtain ⟨a1, a2, a3⟩ := updateGrads_alias 1 0 k
      ⟨upd (upd (upd (fun _ => none) 2 (some 0)) 0 (some 2)) 1 (some 0),
        ⟨fun r => if r = 2 then 1 else if r = 0 then 1 else kn, 3⟩⟩ (by simp [upd])
    generalize updateGrads (List.replicate k (1, 0))
      (⟨upd (upd (upd (fun _ => none) 2 (some 0)) 0 (some 2)) 1 (some 0),
        ⟨fun r => if r = 2 then 1 else if r = 0 then 1 else kn, 3⟩⟩ : GState Nat Int) = st
      at a1 a2 a3 ⊢
    refine ⟨st, ?_, ?_, ?_, ?_, ?_⟩
    · apply goosBackward_leaves
      · intro v hv
        rw [hadj v (by rw [hl]; simp [hv])]
        rcases hl2 v hv with rfl | rfl <;> simp [sumNet]
      · intro v hv
        rw [a1]
        rcases hl2 v hv with rfl | rfl <;> simp [upd]
      · intro v hv
        rcases hl2 v hv with rfl | rfl <;> simp [ov]
      · exact Nat.le_refl _
    · rw [a1]; simp [upd]
    · rw [a1]; simp [upd]
    · rw [a3 2 (by omega)]; simp
    · rw [a2]; simp
  obtain ⟨st, hst, g0, g1, v0, v1⟩ := hback
  simp only [evalGradGoos, hgr, h1, h5, hst]
  simp [g0, g1, v0, v1]

/-- The derivative of `x + (k+1) y` with respect to `y`, as the value of the graph. -/
theorem sumNet_value (k : Nat) (x y : Int) : Evals (sumNet k) sumFun
    (fun v => if v = 0 then some x else if v = 1 then some y else none) 2 (x + (k + 1) * y) := by
  have h0 : Evals (sumNet k) sumFun
    (fun v => if v = 0 then some x else if v = 1 then some y else none) 0 x :=
    Evals.override (by simp)
  have h1 : Evals (sumNet k) sumFun
    (fun v => if v = 0 then some x else if v = 1 then some y else none) 1 y :=
    Evals.override (by simp)
  have := Evals.node (N := sumNet k) (f := sumFun)
    (ov := fun v => if v = 0 then some x else if v = 1 then some y else none) (v := 2)
    (as := x :: List.replicate (k + 1) y) (by simp) (by simp [sumNet]) (by
      intro z hz
      have e : (sumNet k).inputs 2 = 0 :: List.replicate (k + 1) 1 := by simp [sumNet]
      rw [e, List.zip_cons_cons, List.mem_cons] at hz
      rcases hz with rfl | hz
      · exact h0
      · obtain ⟨z1, z2⟩ := z
        have := List.of_mem_zip hz
        rw [List.mem_replicate, List.mem_replicate] at this
        simp only [this.1.2, this.2.2]
        exact h1)
  have e : sumFun 2 (x :: List.replicate (k + 1) y) = x + (k + 1) * y := by
    simp [sumFun]
  rw [e] at this
  exact this

/-- Full **C05** is false: for `x + y + y + y` the value is `x + 3 y` but the gradient returned for
`y` is `4`. -/
theorem C05_full_false (x y kn : Int) :
    (∀ x y : Int, Evals (sumNet 2) sumFun
      (fun v => if v = 0 then some x else if v = 1 then some y else none) 2 (x + 3 * y)) ∧
    ∃ n₀, ∀ n, n₀ ≤ n → evalGradGoos (sumNet 2) sumFun (fun v => if v = 2 then sumGrad (fun _ => 0)
        else freshGrad (fun _ _ => [])) id n
      (fun v => if v = 0 then some x else if v = 1 then some y else none) 1 kn [0, 1] 2
      = .ok [1, 4] := by
  refine ⟨fun x y => ?_, ?_⟩
  · have := sumNet_value 2 x y
    norm_num at this
    exact this
  · simpa using goos_sum_grad_doubles 2 x y kn

/-! ### A concrete instance of the positive theorem: `x + y` -/

/-- Node 2 is `Sum([x, y])`, nodes 0 and 1 are the variables. -/
example : ∃ (N : Net Nat) (f : Nat → List ℝ → ℝ) (hg : HGrad Nat ℝ (ℝ →L[ℝ] ℝ)),
    N.inputs 2 = [0, 1] ∧ Acyclic N ∧ (∀ v ∈ [0, 1], N.heavy v = false ∧ N.inputs v = []) ∧
    (∀ v, v ∉ [0, 1] → ∃ gr, IsLocalGrad (N.inputs v).length (f v) gr ∧
      Owned (N.inputs v).length (hg v) gr) ∧
    (∀ q : Fin 2 → ℝ, Evals N f (assign [0, 1] q) 2 (q 0 + q 1)) := by
  refine ⟨⟨fun v => if v = 2 then [0, 1] else [], fun _ => false⟩, fun _ xs => xs.sum,
    fun _ => sumGrad (fun _ => 0), by simp, ⟨fun v => v, ?_⟩, by simp, ?_, ?_⟩
  · intro v u hu
    show u < v
    simp only at hu
    split at hu
    · simp at hu; omega
    · simp at hu
  · intro v _
    have hk : (if v = 2 then [0, 1] else [] : List Nat).length ≤ 2 := by split <;> simp
    refine ⟨fun as g => List.replicate as.length g, ?_, sumGrad_owned_of_le_two _ (fun _ => rfl) _ hk⟩
    generalize (if v = 2 then [0, 1] else [] : List Nat).length = k
    intro xs
    refine ⟨fun _ => ContinuousLinearMap.id ℝ ℝ, ?_, ?_⟩
    · have e : (fun ys : Fin k → ℝ => (List.ofFn ys).sum) = fun ys => ∑ i, ys i := by
        funext ys; simp [List.sum_ofFn]
      rw [e]
      have h := HasFDerivAt.fun_sum (u := Finset.univ) (x := xs)
        (A := fun (i : Fin k) (ys : Fin k → ℝ) => ys i)
        (A' := fun i => ContinuousLinearMap.proj (R := ℝ) (φ := fun _ : Fin k => ℝ) i)
        (fun i _ => (ContinuousLinearMap.proj (R := ℝ) (φ := fun _ : Fin k => ℝ) i).hasFDerivAt)
      refine h.congr_fderiv ?_
      ext y
      simp
    · intro g
      apply List.ext_getElem
      · simp
      · intro i h1 h2
        simp
  · intro q
    have h0 : Evals (⟨fun v => if v = 2 then [0, 1] else [], fun _ => false⟩ : Net Nat)
        (fun _ (xs : List ℝ) => xs.sum) (assign [0, 1] q) 0 (q 0) := Evals.override (by simp [assign])
    have h1 : Evals (⟨fun v => if v = 2 then [0, 1] else [], fun _ => false⟩ : Net Nat)
        (fun _ (xs : List ℝ) => xs.sum) (assign [0, 1] q) 1 (q 1) :=
      Evals.override (by simp [assign])
    have := Evals.node (N := (⟨fun v => if v = 2 then [0, 1] else [], fun _ => false⟩ : Net Nat))
      (f := fun _ (xs : List ℝ) => xs.sum) (ov := assign [0, 1] q) (v := 2)
      (as := [q 0, q 1]) (by simp [assign]) (by simp) (by
        intro z hz
        simp only [if_true, List.zip_cons_cons, List.zip_nil_left, List.mem_cons,
          List.not_mem_nil, or_false] at hz
        rcases hz with rfl | rfl
        · exact h0
        · exact h1)
    simpa using this

end Verif.Exec
