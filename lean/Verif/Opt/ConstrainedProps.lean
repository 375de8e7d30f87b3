import Verif.Opt.Constrained
import Mathlib.Analysis.Calculus.Deriv.Pow
import Mathlib.Analysis.Calculus.Deriv.Add
import Mathlib.Analysis.Calculus.Deriv.Mul
/-
C35 (slack reformulation), C49 (penalty method), C60 (augmented Lagrangian method).
-/
set_option linter.unusedSectionVars false
namespace Verif.Opt
variable {P : Type}

/-! ### Specification -/

/-- A point satisfies the constraints of a problem: equalities are zero, inequalities are not positive. -/
def Feasible (q : Problem P) (p : P) : Prop :=
  (∀ f ∈ q.eqs, f.value p = some 0) ∧ ∀ f ∈ q.ineqs, ∃ v, f.value p = some v ∧ v ≤ 0

/-- Along a path `γ` in parameter space whose vector moves with velocity `d` at time `t`, the function has a value, and
its reported gradient `g` gives the derivative of the value: `g · d`. -/
def GradientAlong (f : OFun P) (γ : ℝ → P) (d : List ℝ) (t : ℝ) : Prop :=
  (∀ u, ∃ v, f.value (γ u) = some v) ∧ ∃ g, f.grad (γ t) = some g ∧ g.length = d.length ∧
    HasDerivAt (fun u => (f.value (γ u)).getD 0) (List.zipWith (· * ·) g d).sum t

/-! ### C35 -/

theorem slack_value (m : Methods P) (f : OFun P) (n i : Nat) (p : P) (s : List ℝ) :
    ((remover n f).add (slackVar m n i)).value ⟨p, s, n⟩ = (f.value p).bind fun a => s[i]?.map fun b => a + b := rfl

/-- **C35**. A point satisfies the original constraints exactly when some non-negative slack variables complete it to a
point satisfying the equalities of the slack problem, which has no inequalities. -/
theorem slack_equivalent (m : Methods P) (q : Problem P) (p : P) :
    (Feasible q p ↔ ∃ s : List ℝ, s.length = q.ineqs.length ∧ (∀ x ∈ s, 0 ≤ x) ∧
      ∀ f ∈ (slackProblem m q).eqs, f.value ⟨p, s, q.ineqs.length⟩ = some 0) ∧ (slackProblem m q).ineqs = [] := by
  refine ⟨⟨fun ⟨h1, h2⟩ => ?_, fun ⟨s, hl, hs, h⟩ => ⟨fun f hf => ?_, fun f hf => ?_⟩⟩, rfl⟩
  · refine ⟨q.ineqs.map fun f => -(f.value p).getD 0, by simp, ?_, ?_⟩
    · intro x hx
      obtain ⟨f, hf, rfl⟩ := List.mem_map.1 hx
      obtain ⟨v, hv, hle⟩ := h2 f hf
      rw [hv]
      show 0 ≤ -v
      linarith
    · intro g hg
      rcases List.mem_append.1 hg with hg | hg
      · obtain ⟨f, hf, rfl⟩ := List.mem_map.1 hg
        exact h1 f hf
      · obtain ⟨⟨f, i⟩, hfi, rfl⟩ := List.mem_map.1 hg
        have hi : q.ineqs[i]? = some f := List.mem_zipIdx_iff_getElem?.1 hfi
        obtain ⟨v, hv, hle⟩ := h2 f (List.mem_of_getElem? hi)
        rw [slack_value, List.getElem?_map, hi, hv]
        simp [hv]
  · exact h (remover _ f) (List.mem_append_left _ (List.mem_map_of_mem hf))
  · obtain ⟨i, hi⟩ := List.mem_iff_getElem?.1 hf
    have h1 := h ((remover q.ineqs.length f).add (slackVar m q.ineqs.length i))
      (List.mem_append_right _ (List.mem_map.2 ⟨(f, i), List.mem_zipIdx_iff_getElem?.2 hi, rfl⟩))
    rw [slack_value] at h1
    cases hv : f.value p with
    | none => rw [hv] at h1; cases h1
    | some v =>
      refine ⟨v, rfl, ?_⟩
      cases hsi : s[i]? with
      | none => rw [hv, hsi] at h1; cases h1
      | some x =>
        rw [hv, hsi] at h1
        have hx := hs x (List.mem_of_getElem? hsi)
        have : v + x = 0 := Option.some.inj h1
        linarith

/-- **C35**. The objective of the slack problem has the value of the original objective whatever the slack variables,
and its gradient is the original one followed by zeros; so are the gradients of the original equalities. -/
theorem slack_original_block (m : Methods P) (q : Problem P) (p : P) (s : List ℝ) :
    (slackProblem m q).obj.value ⟨p, s, q.ineqs.length⟩ = q.obj.value p ∧
    (slackProblem m q).obj.grad ⟨p, s, q.ineqs.length⟩ =
      (q.obj.grad p).map (· ++ List.replicate q.ineqs.length 0) ∧
    ∀ i, i < q.eqs.length → ∃ f g, q.eqs[i]? = some f ∧ (slackProblem m q).eqs[i]? = some g ∧
      g.value ⟨p, s, q.ineqs.length⟩ = f.value p ∧
      g.grad ⟨p, s, q.ineqs.length⟩ = (f.grad p).map (· ++ List.replicate q.ineqs.length 0) := by
  refine ⟨rfl, rfl, fun i hi => ⟨q.eqs[i], remover q.ineqs.length q.eqs[i], List.getElem?_eq_getElem hi, ?_, rfl, rfl⟩⟩
  show (q.eqs.map (remover q.ineqs.length) ++ _)[i]? = _
  rw [List.getElem?_append_left (by simpa using hi)]
  simp [hi]

/-- **C35**. The slack problem starts at the original point with all slack variables zero. -/
theorem slack_start (m : Methods P) (q : Problem P) (p : P) :
    (buildParam q p).param = p ∧
    (slackMethods m).encode (buildParam q p) = (m.encode p).map (· ++ List.replicate q.ineqs.length 0) := ⟨rfl, rfl⟩

/-! #### Gradients -/

theorem zipWith_zero (n : Nat) (d : List ℝ) : (List.zipWith (· * ·) (List.replicate n (0 : ℝ)) d).sum = 0 := by
  induction d generalizing n with
  | nil => simp
  | cons x d ih =>
    cases n with
    | zero => simp
    | succ n => simp [List.replicate_succ, ih]

theorem zipWith_unit (i : Nat) (n : Nat) (d : List ℝ) (hi : i < n) :
    (List.zipWith (· * ·) ((List.replicate n (0 : ℝ)).set i 1) d).sum = d.getD i 0 := by
  induction d generalizing n i with
  | nil => simp
  | cons x d ih =>
    cases n with
    | zero => omega
    | succ n =>
      cases i with
      | zero => simp [List.replicate_succ, zipWith_zero]
      | succ i =>
        simp only [List.replicate_succ, List.set_cons_succ, List.zipWith_cons_cons, List.sum_cons, zero_mul, zero_add,
          List.getD_cons_succ]
        exact ih i n (by omega)

theorem zipWith_add (a b d : List ℝ) (h : a.length = b.length) :
    (List.zipWith (· * ·) (List.zipWith (· + ·) a b) d).sum =
      (List.zipWith (· * ·) a d).sum + (List.zipWith (· * ·) b d).sum := by
  induction a generalizing b d with
  | nil =>
    have : b = [] := List.length_eq_zero_iff.1 h.symm
    simp [this]
  | cons x a ih =>
    cases b with
    | nil => cases h
    | cons y b =>
      cases d with
      | nil => simp
      | cons z d =>
        simp only [List.zipWith_cons_cons, List.sum_cons]
        rw [ih b d (by simpa using h)]
        ring

theorem zipWith_scale (c : ℝ) (a d : List ℝ) :
    (List.zipWith (· * ·) (a.map fun y => c * y) d).sum = c * (List.zipWith (· * ·) a d).sum := by
  induction a generalizing d with
  | nil => simp
  | cons x a ih =>
    cases d with
    | nil => simp
    | cons z d =>
      simp only [List.map_cons, List.zipWith_cons_cons, List.sum_cons, ih]
      ring

variable {γ : ℝ → P} {d : List ℝ} {t : ℝ}

theorem GradientAlong.add {f g : OFun P} (hf : GradientAlong f γ d t) (hg : GradientAlong g γ d t) :
    GradientAlong (f.add g) γ d t := by
  obtain ⟨vf, gf, h1, h2, h3⟩ := hf
  obtain ⟨vg, gg, k1, k2, k3⟩ := hg
  refine ⟨fun u => ?_, List.zipWith (· + ·) gf gg, ?_, ?_, ?_⟩
  · obtain ⟨a, ha⟩ := vf u
    obtain ⟨b, hb⟩ := vg u
    exact ⟨a + b, by simp [OFun.add, ha, hb]⟩
  · simp [OFun.add, h1, k1, vadd, h2, k2]
  · simp [h2, k2]
  · rw [zipWith_add _ _ _ (by rw [h2, k2])]
    refine (h3.fun_add k3).congr_of_eventuallyEq (Filter.Eventually.of_forall fun u => ?_)
    obtain ⟨a, ha⟩ := vf u
    obtain ⟨b, hb⟩ := vg u
    simp [OFun.add, ha, hb]

theorem GradientAlong.addAll {f : OFun P} {l : List (OFun P)} (hf : GradientAlong f γ d t)
    (hl : ∀ g ∈ l, GradientAlong g γ d t) : GradientAlong (addAll f l) γ d t := by
  induction l generalizing f with
  | nil => exact hf
  | cons g l ih => exact ih (hf.add (hl g (by simp))) fun h hh => hl h (by simp [hh])

theorem GradientAlong.powTerm {c : OFun P} (w : ℝ) (k : Nat) (hc : GradientAlong c γ d t) :
    GradientAlong (powTerm w k c) γ d t := by
  obtain ⟨vc, g, h1, h2, h3⟩ := hc
  obtain ⟨v, hv⟩ := vc t
  refine ⟨fun u => ?_, g.map fun y => w * (k * v ^ (k - 1)) * y, ?_, by simpa using h2, ?_⟩
  · obtain ⟨a, ha⟩ := vc u
    exact ⟨w * a ^ k, by simp [Opt.powTerm, ha]⟩
  · simp [Opt.powTerm, hv, h1]
  · rw [zipWith_scale]
    have h4 := (h3.fun_pow k).const_mul w
    rw [hv] at h4
    simp only [Option.getD_some] at h4
    refine (h4.congr_deriv (by ring)).congr_of_eventuallyEq (Filter.Eventually.of_forall fun u => ?_)
    obtain ⟨a, ha⟩ := vc u
    simp [Opt.powTerm, ha]

/-- **C35**. With slack variables moving along with the point, the gradients of all functions of the slack problem -
objective, equalities and transformed inequalities - are the derivatives of their values. -/
theorem slack_gradients (m : Methods P) (q : Problem P) (γ : ℝ → P) (σ : ℝ → List ℝ) (d e : List ℝ) (t : ℝ)
    (hm : ∃ v, m.encode (γ t) = some v ∧ v.length = d.length)
    (hσ : ∀ u, (σ u).length = q.ineqs.length) (he : e.length = q.ineqs.length)
    (hσe : ∀ i, i < q.ineqs.length → HasDerivAt (fun u => (σ u).getD i 0) (e.getD i 0) t)
    (hq : GradientAlong q.obj γ d t ∧ (∀ f ∈ q.eqs, GradientAlong f γ d t) ∧ ∀ f ∈ q.ineqs, GradientAlong f γ d t) :
    GradientAlong (slackProblem m q).obj (fun u => ⟨γ u, σ u, q.ineqs.length⟩) (d ++ e) t ∧
    ∀ f ∈ (slackProblem m q).eqs, GradientAlong f (fun u => ⟨γ u, σ u, q.ineqs.length⟩) (d ++ e) t := by
  have rem : ∀ f : OFun P, GradientAlong f γ d t →
      GradientAlong (remover q.ineqs.length f) (fun u => ⟨γ u, σ u, q.ineqs.length⟩) (d ++ e) t := by
    rintro f ⟨h1, g, h2, h3, h4⟩
    refine ⟨h1, g ++ List.replicate q.ineqs.length 0, by simp [remover, h2], by simp [h3, he], ?_⟩
    rw [List.zipWith_append h3, List.sum_append, zipWith_zero, add_zero]
    exact h4
  have sv : ∀ i, i < q.ineqs.length →
      GradientAlong (slackVar m q.ineqs.length i) (fun u => ⟨γ u, σ u, q.ineqs.length⟩) (d ++ e) t := by
    intro i hi
    obtain ⟨v, hv, hvl⟩ := hm
    refine ⟨fun u => ⟨(σ u)[i]'(by rw [hσ]; exact hi), by simp [slackVar, hσ, hi]⟩,
      (List.replicate (v.length + q.ineqs.length) 0).set (v.length + i) 1, ?_, by simp [hvl, he], ?_⟩
    · have hvec : (slackMethods m).toVector (⟨γ t, σ t, q.ineqs.length⟩ : Slack P) = some (v ++ σ t) := by
        show (m.encode (γ t)).map (· ++ σ t) = _
        rw [hv]; rfl
      show ((slackMethods m).toVector (⟨γ t, σ t, q.ineqs.length⟩ : Slack P)).bind _ = _
      rw [hvec]
      simp only [Option.bind_some, setFromEnd, List.length_replicate, List.length_append, hσ]
      rw [if_pos (by omega)]
      congr 2
      omega
    · rw [zipWith_unit _ _ _ (by omega)]
      have h1 : (d ++ e).getD (v.length + i) 0 = e.getD i 0 := by
        rw [List.getD_eq_getElem?_getD, List.getD_eq_getElem?_getD, List.getElem?_append_right (by omega), hvl]
        congr 2
        omega
      rw [h1]
      refine (hσe i hi).congr_of_eventuallyEq (Filter.Eventually.of_forall fun u => ?_)
      simp [slackVar, List.getD_eq_getElem?_getD]
  refine ⟨rem _ hq.1, fun f hf => ?_⟩
  rcases List.mem_append.1 hf with hf | hf
  · obtain ⟨g, hg, rfl⟩ := List.mem_map.1 hf
    exact rem g (hq.2.1 g hg)
  · obtain ⟨⟨g, i⟩, hgi, rfl⟩ := List.mem_map.1 hf
    have hi : q.ineqs[i]? = some g := List.mem_zipIdx_iff_getElem?.1 hgi
    have hlt : i < q.ineqs.length := by
      rcases Nat.lt_or_ge i q.ineqs.length with h | h
      · exact h
      · rw [List.getElem?_eq_none h] at hi; cases hi
    exact (rem g (hq.2.2 g (List.mem_of_getElem? hi))).add (sv i hlt)

/-! ### C49 -/

/-- **C49**. The objective of a cycle with penalty factor `mu` is `f + mu * Σ c_i ** pf`, and its gradient is exact. -/
theorem penalty_objective (q : Problem P) (mu : ℝ) (pf : Nat) :
    (∀ p v, ∀ cv : List ℝ, q.obj.value p = some v → forAll (fun c : OFun P => c.value p) q.eqs = some cv →
      (penaltyObj q mu pf).value p = some (v + mu * (cv.map (· ^ pf)).sum)) ∧
    ∀ γ d t, GradientAlong q.obj γ d t → (∀ c ∈ q.eqs, GradientAlong c γ d t) →
      GradientAlong (penaltyObj q mu pf) γ d t := by
  refine ⟨fun p v cv hv hcv => ?_, fun γ d t h1 h2 => ?_⟩
  · unfold penaltyObj
    generalize q.obj = f at hv
    generalize q.eqs = cs at hcv
    induction cs generalizing f v cv with
    | nil => cases hcv; simpa [addAll] using hv
    | cons c cs ih =>
      simp only [forAll] at hcv
      cases hc : c.value p with
      | none => rw [hc] at hcv; cases hcv
      | some a =>
        rw [hc] at hcv
        obtain ⟨l, hl, rfl⟩ := Option.map_eq_some_iff.1 hcv
        have := ih (v := v + mu * a ^ pf) (cv := l) (f := f.add (powTerm mu pf c))
          (hv := by simp [OFun.add, powTerm, hv, hc]) (hcv := hl)
        simp only [addAll, List.map_cons, List.foldl_cons, List.sum_cons] at this ⊢
        rw [this]
        congr 1
        ring
  · refine GradientAlong.addAll h1 fun g hg => ?_
    obtain ⟨c, hc, rfl⟩ := List.mem_map.1 hg
    exact (h2 c hc).powTerm mu pf

theorem rpow_iter (mu tau : ℝ) (h : 0 ≤ mu) (i : Nat) : (mu ^ tau) ^ tau ^ i = mu ^ tau ^ (i + 1) := by
  rw [← Real.rpow_natCast tau i, ← Real.rpow_natCast tau (i + 1), ← Real.rpow_mul h]
  congr 1
  rw [Real.rpow_natCast, Real.rpow_natCast]
  ring

/-- What a sequence of penalty cycles does. -/
theorem penCycles_spec (inner : Inner P) (c : PenCfg) (q : Problem P) (n a : Nat) (mu : ℝ) (hmu : 0 ≤ mu) (cn : Nat)
    (s : P) :
    let r := penCycles inner c q (List.range' a n) mu cn s
    (∃ j, j ≤ n ∧ (r.2.2.isSome → j = n) ∧ (r.2.2 = none → 0 < j) ∧
      (r.2.1.map fun e => (e.k, e.mu, e.ftol)) =
        (List.range j).map (fun i => (a + i, mu ^ c.tau ^ i, max (1 / 100 ^ (a + i + 1)) c.ftol)) ∧
      r.1 = if j = 0 then cn else a + j - 1) ∧
    ∀ e ∈ r.2.1, e.obj = penaltyObj q e.mu c.pf := by
  induction n generalizing a mu cn s with
  | zero => simp [penCycles]
  | succ n ih =>
    rw [List.range'_succ]
    simp only [penCycles]
    cases hi : inner (penaltyObj q mu c.pf) (max (1 / 100 ^ (a + 1)) c.ftol) s with
    | none =>
      refine ⟨⟨1, by omega, by simp, by simp, ?_, by simp⟩, by simp⟩
      simp
    | some s' =>
      obtain ⟨⟨j, h1, h2, h2', h3, h4⟩, h5⟩ := ih (a + 1) (mu ^ c.tau) (Real.rpow_nonneg hmu _) a s'
      refine ⟨⟨j + 1, by omega, fun h => by rw [h2 h], fun _ => by omega, ?_, ?_⟩, ?_⟩
      · simp only [List.map_cons]
        rw [h3, List.range_succ_eq_map]
        simp only [List.map_cons, List.map_map, pow_zero, Real.rpow_one, add_zero, List.cons.injEq, true_and]
        refine List.map_congr_left fun i _ => ?_
        simp only [Function.comp_apply, rpow_iter mu c.tau hmu i, Nat.succ_eq_add_one]
        rw [show a + 1 + i = a + (i + 1) by omega]
      · rw [if_neg (Nat.succ_ne_zero j)]
        simp only
        rw [h4]
        split <;> omega
      · intro e he
        rcases List.mem_cons.1 he with rfl | he
        · rfl
        · exact h5 e he

/-- **C49**. A first run minimises, in cycle `k = 0, 1, ...` up to the number of cycles or the first failure of the inner
optimizer, the objective of the slack problem plus `mu0 ** (tau ** k)` times the sum of the penalties, to the tolerance
`max(1/100**(k+1), ftol)`. If it returns, all cycles were run. -/
theorem penalty_sequence (m : Methods P) (inner : Inner (Slack P)) (c : PenCfg) (hmu : 0 ≤ c.mu0) (q : Problem P) (p : P) :
    let r := penaltyCall m inner c q 0 p
    (∃ j, j ≤ c.numCycles ∧ (r.2.2.isSome → j = c.numCycles) ∧
      (r.2.1.map fun e => (e.k, e.mu, e.ftol)) =
        (List.range j).map fun k => (k, c.mu0 ^ c.tau ^ k, max (1 / 100 ^ (k + 1)) c.ftol)) ∧
    ∀ e ∈ r.2.1, e.obj = penaltyObj (slackProblem m q) e.mu c.pf := by
  obtain ⟨⟨j, h1, h2, _, h3, _⟩, h4⟩ :=
    penCycles_spec inner c (slackProblem m q) (c.numCycles - 0) 0 c.mu0 hmu 0 (buildParam q p)
  refine ⟨⟨j, by simpa using h1, fun h => ?_, ?_⟩, h4⟩
  · have : (penCycles inner c (slackProblem m q) (List.range' 0 (c.numCycles - 0)) c.mu0 0 (buildParam q p)).2.2.isSome := by
      simpa [penaltyCall] using h
    simpa using h2 this
  · simpa [penaltyCall] using h3

/-- **C49**. The penalty factors increase strictly if `mu0 > 1` and `tau > 1`. -/
theorem penalty_increasing (mu0 tau : ℝ) (h1 : 1 < mu0) (h2 : 1 < tau) : StrictMono fun k : ℕ => mu0 ^ tau ^ k := by
  intro i j hij
  exact Real.rpow_lt_rpow_of_exponent_lt h1 (pow_lt_pow_right₀ h2 hij)

/-- A chain of calls: the first starts at `s`, each at the result of the one before, the last ends at `r`. -/
def PenChain (inner : Inner P) : P → List (PenCall P) → P → Prop
  | s, [], r => s = r
  | s, e :: l, r => e.start = s ∧ ∃ s', inner e.obj e.ftol s = some s' ∧ PenChain inner s' l r

/-- **C49**. The first cycle starts at the given point with zero slack variables, each cycle at the result of the one
before, and the result of the last one is returned. -/
theorem penalty_chain (m : Methods P) (inner : Inner (Slack P)) (c : PenCfg) (q : Problem P) (cn : Nat) (p p' : P)
    (h : (penaltyCall m inner c q cn p).2.2 = some p') :
    ∃ s : Slack P, s.param = p' ∧ PenChain inner (mkSlack p q.ineqs.length) (penaltyCall m inner c q cn p).2.1 s := by
  have key : ∀ (ks : List Nat) (mu : ℝ) (cn : Nat) (s s' : Slack P),
      (penCycles inner c (slackProblem m q) ks mu cn s).2.2 = some s' →
      PenChain inner s (penCycles inner c (slackProblem m q) ks mu cn s).2.1 s' := by
    intro ks
    induction ks with
    | nil => intro mu cn s s' h; exact Option.some.inj h
    | cons k ks ih =>
      intro mu cn s s' h
      simp only [penCycles] at h ⊢
      cases hi : inner (penaltyObj (slackProblem m q) mu c.pf) (max (1 / 100 ^ (k + 1)) c.ftol) s with
      | none => rw [hi] at h; cases h
      | some s'' =>
        rw [hi] at h
        exact ⟨rfl, s'', hi, ih _ _ _ _ h⟩
  obtain ⟨s, hs, rfl⟩ := Option.map_eq_some_iff.1 h
  exact ⟨s, rfl, key _ _ _ _ _ hs⟩

/-- What a resumed run does instead of continuing the sequence: it continues with the cycle that failed, but the penalty
factors start again at `mu0`: cycle `k` uses `mu0 ** (tau ** (k - cn))`. -/
theorem penalty_resume_restarts (m : Methods P) (inner : Inner (Slack P)) (c : PenCfg) (hmu : 0 ≤ c.mu0) (q : Problem P)
    (cn : Nat) (p : P) :
    let r := penaltyCall m inner c q cn p
    ∃ j, j ≤ c.numCycles - cn ∧ (r.2.2.isSome → j = c.numCycles - cn) ∧
      (r.2.1.map fun e => (e.k, e.mu)) = (List.range j).map fun i => (cn + i, c.mu0 ^ c.tau ^ i) := by
  obtain ⟨⟨j, h1, h2, _, h3, _⟩, _⟩ :=
    penCycles_spec inner c (slackProblem m q) (c.numCycles - cn) cn c.mu0 hmu cn (buildParam q p)
  refine ⟨j, h1, fun h => ?_, ?_⟩
  · have : (penCycles inner c (slackProblem m q) (List.range' cn (c.numCycles - cn)) c.mu0 cn
        (buildParam q p)).2.2.isSome := by
      simpa [penaltyCall] using h
    exact h2 this
  · have h4 := congrArg (List.map fun t : Nat × ℝ × ℝ => (t.1, t.2.1)) h3
    simpa [penaltyCall, List.map_map, Function.comp_def] using h4

/-- A problem on a parametrization without state. -/
def trivialProblem : Problem Unit := ⟨⟨fun _ => some 0, fun _ => some []⟩, [], []⟩

def trivialMethods : Methods Unit := ⟨fun _ => some [], fun _ _ => some (), fun _ => some (), fun _ => none⟩

/-- **C49** is false for resumed runs: with `mu0 = 2`, `tau = 3/2` and an inner optimizer that fails in cycle 1, a second
call with a working inner optimizer runs cycle 1 with the factor 2 instead of `2 ** 1.5`. -/
theorem penalty_resume_false : ∃ (c : PenCfg) (bad good : Inner (Slack Unit)) (cn : Nat) (e : PenCall (Slack Unit))
    (rest : List (PenCall (Slack Unit))),
    (penaltyCall trivialMethods bad c trivialProblem 0 ()).2.2 = none ∧
    (penaltyCall trivialMethods bad c trivialProblem 0 ()).1 = cn ∧
    (penaltyCall trivialMethods good c trivialProblem cn ()).2.1 = e :: rest ∧
    e.k = 1 ∧ e.mu ≠ c.mu0 ^ c.tau ^ e.k := by
  refine ⟨⟨2, 3 / 2, 2, 2, 0⟩, fun _ tol s => open Classical in if tol < 1 / 1000 then none else some s,
    fun _ _ s => some s, 1, ⟨1, 2, max (1 / 100 ^ 2) 0, penaltyObj (slackProblem trivialMethods trivialProblem) 2 2,
      buildParam trivialProblem ()⟩, [], ?_, ?_, ?_, rfl, ?_⟩
  · simp [penaltyCall, List.range'_succ, penCycles]
    norm_num
  · simp [penaltyCall, List.range'_succ, penCycles]
    norm_num
  · simp [penaltyCall, penCycles]
  · show (2 : ℝ) ≠ 2 ^ (3 / 2 : ℝ) ^ (1 : ℕ)
    rw [pow_one]
    have : (2 : ℝ) ^ (1 : ℝ) < 2 ^ (3 / 2 : ℝ) := Real.rpow_lt_rpow_of_exponent_lt (by norm_num) (by norm_num)
    rw [Real.rpow_one] at this
    exact this.ne

/-- After a complete run `cycle_num` is the last cycle, so that a second call of the same optimizer runs one more cycle,
with the initial penalty factor, instead of all of them or none. -/
theorem penalty_second_call_false (m : Methods P) (inner : Inner (Slack P)) (c : PenCfg) (hmu : 0 ≤ c.mu0)
    (hn : 0 < c.numCycles) (q : Problem P) (p p' : P) (hp : (penaltyCall m inner c q 0 p).2.2 = some p')
    (hi : ∀ f tol s, ∃ s', inner f tol s = some s') :
    ∃ e, (penaltyCall m inner c q (penaltyCall m inner c q 0 p).1 p').2.1 = [e] ∧
      e.k = c.numCycles - 1 ∧ e.mu = c.mu0 := by
  have hcn : (penaltyCall m inner c q 0 p).1 = c.numCycles - 1 := by
    obtain ⟨⟨j, h1, h2, _, _, h4⟩, _⟩ :=
      penCycles_spec inner c (slackProblem m q) (c.numCycles - 0) 0 c.mu0 hmu 0 (buildParam q p)
    have : (penCycles inner c (slackProblem m q) (List.range' 0 (c.numCycles - 0)) c.mu0 0 (buildParam q p)).2.2.isSome := by
      have : (penaltyCall m inner c q 0 p).2.2.isSome := by rw [hp]; rfl
      simpa [penaltyCall] using this
    have hj := h2 this
    rw [if_neg (by omega)] at h4
    show (penCycles inner c (slackProblem m q) (List.range' 0 (c.numCycles - 0)) c.mu0 0 (buildParam q p)).1 = _
    rw [h4]
    omega
  rw [hcn]
  have hr : List.range' (c.numCycles - 1) (c.numCycles - (c.numCycles - 1)) = [c.numCycles - 1] := by
    rw [show c.numCycles - (c.numCycles - 1) = 1 by omega]
    rfl
  unfold penaltyCall
  simp only [hr, penCycles]
  obtain ⟨s', hs'⟩ := hi (penaltyObj (slackProblem m q) c.mu0 c.pf)
    (max (1 / 100 ^ (c.numCycles - 1 + 1)) c.ftol) (buildParam q p')
  rw [hs']
  exact ⟨_, rfl, rfl, rfl⟩

/-- A run of three cycles meets the hypotheses. -/
example : ∃ p', (penaltyCall trivialMethods (fun _ _ s => some s) ⟨2, 3 / 2, 2, 3, 0⟩ trivialProblem 0 ()).2.2 = some p' :=
  ⟨(), by simp [penaltyCall, List.range'_succ, penCycles]⟩

/-! ### C60 -/

/-- The Lagrangian `f - Σ λ_i c_i`. -/
def plainLagrangian (q : Problem P) (lam : List ℝ) : OFun P :=
  addAll q.obj (List.zipWith (fun l c => powTerm (-l) 1 c) lam q.eqs)

/-- **C60**. The objective of a cycle is `f - Σ λ_i c_i + mu/2 Σ c_i²`, and its gradient is exact. -/
theorem lagrangian_objective (q : Problem P) (lam : List ℝ) (mu : ℝ) (hl : lam.length = q.eqs.length) :
    (∀ p v, ∀ cv : List ℝ, q.obj.value p = some v → forAll (fun c : OFun P => c.value p) q.eqs = some cv →
      (lagrangianObj q lam mu).value p =
        some (v - (List.zipWith (· * ·) lam cv).sum + mu / 2 * (cv.map (· ^ 2)).sum)) ∧
    ∀ γ d t, GradientAlong q.obj γ d t → (∀ c ∈ q.eqs, GradientAlong c γ d t) →
      GradientAlong (lagrangianObj q lam mu) γ d t := by
  refine ⟨fun p v cv hv hcv => ?_, fun γ d t h1 h2 => ?_⟩
  · have step1 : ∀ (cs : List (OFun P)) (lam cv : List ℝ) (f : OFun P) (v : ℝ), lam.length = cs.length →
        f.value p = some v → forAll (fun c : OFun P => c.value p) cs = some cv →
        (addAll f (List.zipWith (fun l c => powTerm (-l) 1 c) lam cs)).value p =
          some (v - (List.zipWith (· * ·) lam cv).sum) := by
      intro cs
      induction cs with
      | nil =>
        intro lam cv f v hl hv hcv
        have : lam = [] := List.length_eq_zero_iff.1 hl
        subst this
        simpa [addAll] using hv
      | cons c cs ih =>
        intro lam cv f v hl hv hcv
        cases lam with
        | nil => cases hl
        | cons l lam =>
          simp only [forAll] at hcv
          cases hc : c.value p with
          | none => rw [hc] at hcv; cases hcv
          | some a =>
            rw [hc] at hcv
            obtain ⟨w, hw, rfl⟩ := Option.map_eq_some_iff.1 hcv
            have := ih lam w (f.add (powTerm (-l) 1 c)) (v + -l * a ^ 1) (by simpa using hl)
              (by simp [OFun.add, powTerm, hv, hc]) hw
            simp only [addAll, List.zipWith_cons_cons, List.foldl_cons, List.sum_cons] at this ⊢
            rw [this]
            congr 1
            ring
    have h1 := step1 q.eqs lam cv q.obj v hl hv hcv
    have h2 := (penalty_objective ⟨addAll q.obj (List.zipWith (fun l c => powTerm (-l) 1 c) lam q.eqs), q.eqs, []⟩
      (0.5 * mu) 2).1 p _ cv h1 hcv
    show (penaltyObj ⟨addAll q.obj (List.zipWith (fun l c => powTerm (-l) 1 c) lam q.eqs), q.eqs, []⟩
      (0.5 * mu) 2).value p = _
    rw [h2]
    congr 1
    ring
  · refine GradientAlong.addAll (GradientAlong.addAll h1 fun g hg => ?_) fun g hg => ?_
    · obtain ⟨i, hi⟩ := List.mem_iff_getElem?.1 hg
      rw [List.getElem?_zipWith] at hi
      cases ha : lam[i]? with
      | none => rw [ha] at hi; simp at hi
      | some l =>
        cases hb : q.eqs[i]? with
        | none => rw [ha, hb] at hi; simp at hi
        | some c =>
          rw [ha, hb] at hi
          simp at hi
          subst hi
          exact (h2 c (List.mem_of_getElem? hb)).powTerm _ _
    · obtain ⟨c, hc, rfl⟩ := List.mem_map.1 hg
      exact (h2 c hc).powTerm _ _

/-- The gradient of a function plus a sum of functions, entry by entry. -/
theorem addAll_grad (p : P) (n : Nat) (f : OFun P) (l : List (OFun P)) (g0 : List ℝ) (hf : f.grad p = some g0)
    (h0 : g0.length = n) (hl : ∀ h ∈ l, ∃ g, h.grad p = some g ∧ g.length = n) :
    (addAll f l).grad p = some ((List.range n).map fun j =>
      g0.getD j 0 + (l.map fun h => ((h.grad p).getD []).getD j 0).sum) := by
  induction l generalizing f g0 with
  | nil =>
    simp only [addAll, List.foldl_nil, hf, Option.some.injEq, List.map_nil, List.sum_nil, add_zero]
    apply List.ext_getElem
    · simp [h0]
    · intro i h1 h2
      simp [h1]
  | cons h l ih =>
    obtain ⟨g, hg, hgl⟩ := hl h (by simp)
    have h1 : (f.add h).grad p = some (List.zipWith (· + ·) g0 g) := by
      simp [OFun.add, hf, hg, vadd, h0, hgl]
    have := ih (f.add h) (List.zipWith (· + ·) g0 g) h1 (by simp [h0, hgl]) fun k hk => hl k (by simp [hk])
    show (addAll (f.add h) l).grad p = _
    rw [this]
    congr 1
    refine List.map_congr_left fun j hj => ?_
    have hj' : j < n := List.mem_range.1 hj
    simp only [List.map_cons, List.sum_cons, hg, Option.getD_some]
    rw [← add_assoc]
    congr 1
    simp [List.getD_eq_getElem?_getD, h0, hgl, hj']

/-- **C60**. The multiplier update is the right one: at every point the gradient of the function minimised in a cycle is
the gradient of the Lagrangian `f - Σ λ'_i c_i` with the updated multipliers `λ' = λ - mu c`; so a point where the former
is stationary is a stationary point of the Lagrangian with the multipliers of the next cycle. -/
theorem multiplier_update (q : Problem P) (lam : List ℝ) (mu : ℝ) (p : P) (cv g0 : List ℝ) (n : Nat)
    (hl : lam.length = q.eqs.length) (hcv : forAll (fun c : OFun P => c.value p) q.eqs = some cv)
    (h0 : q.obj.grad p = some g0) (hn : g0.length = n) (hg : ∀ c ∈ q.eqs, ∃ g, c.grad p = some g ∧ g.length = n) :
    (lagrangianObj q lam mu).grad p =
      (plainLagrangian q (List.zipWith (fun l v => l + -1 * mu * v) lam cv)).grad p := by
  -- one weighted constraint
  have term : ∀ (w : ℝ) (k : Nat) (c : OFun P) (v : ℝ) (g : List ℝ), c.value p = some v → c.grad p = some g →
      g.length = n → ∃ g', (powTerm w k c).grad p = some g' ∧ g'.length = n ∧
        ∀ j, g'.getD j 0 = w * (k * v ^ (k - 1)) * g.getD j 0 := by
    intro w k c v g hv hg hgl
    refine ⟨g.map fun y => w * (k * v ^ (k - 1)) * y, by simp [powTerm, hv, hg], by simpa using hgl, fun j => ?_⟩
    rw [List.getD_eq_getElem?_getD, List.getElem?_map, List.getD_eq_getElem?_getD]
    cases g[j]? <;> simp
  have wsum : ∀ (cs : List (OFun P)) (lam cv : List ℝ), lam.length = cs.length →
      forAll (fun c : OFun P => c.value p) cs = some cv → (∀ c ∈ cs, ∃ g, c.grad p = some g ∧ g.length = n) →
      (∀ h ∈ List.zipWith (fun l c => powTerm (-l) 1 c) lam cs, ∃ g, h.grad p = some g ∧ g.length = n) ∧
      (∀ h ∈ cs.map (powTerm (0.5 * mu) 2), ∃ g, h.grad p = some g ∧ g.length = n) ∧
      cv.length = cs.length ∧
      ∀ j, ((List.zipWith (fun l c => powTerm (-l) 1 c) lam cs).map fun h => ((h.grad p).getD []).getD j 0).sum +
        ((cs.map (powTerm (0.5 * mu) 2)).map fun h => ((h.grad p).getD []).getD j 0).sum =
        ((List.zipWith (fun l c => powTerm (-l) 1 c) (List.zipWith (fun l v => l + -1 * mu * v) lam cv) cs).map
          fun h => ((h.grad p).getD []).getD j 0).sum := by
    intro cs
    induction cs with
    | nil =>
      intro lam cv hl hcv hg
      cases hcv
      have : lam = [] := List.length_eq_zero_iff.1 hl
      subst this
      simp
    | cons c cs ih =>
      intro lam cv hl hcv hg
      cases lam with
      | nil => cases hl
      | cons l lam =>
        simp only [forAll] at hcv
        cases hc : c.value p with
        | none => rw [hc] at hcv; cases hcv
        | some a =>
          rw [hc] at hcv
          obtain ⟨w, hw, rfl⟩ := Option.map_eq_some_iff.1 hcv
          obtain ⟨i1, i2, i3, i4⟩ := ih lam w (by simpa using hl) hw fun k hk => hg k (by simp [hk])
          obtain ⟨g, hgc, hgl⟩ := hg c (by simp)
          obtain ⟨t1, u1, v1, w1⟩ := term (-l) 1 c a g hc hgc hgl
          obtain ⟨t2, u2, v2, w2⟩ := term (0.5 * mu) 2 c a g hc hgc hgl
          obtain ⟨t3, u3, v3, w3⟩ := term (-(l + -1 * mu * a)) 1 c a g hc hgc hgl
          refine ⟨?_, ?_, by simp [i3], fun j => ?_⟩
          · intro h hh
            rcases List.mem_cons.1 hh with rfl | hh
            · exact ⟨t1, u1, v1⟩
            · exact i1 h hh
          · intro h hh
            rcases List.mem_cons.1 hh with rfl | hh
            · exact ⟨t2, u2, v2⟩
            · exact i2 h hh
          · simp only [List.zipWith_cons_cons, List.map_cons, List.sum_cons, u1, u2, u3, Option.getD_some, w1, w2, w3]
            rw [← i4 j]
            simp only [Nat.cast_one, Nat.cast_ofNat, Nat.sub_self, pow_zero, show (2 : Nat) - 1 = 1 from rfl, pow_one]
            ring
  obtain ⟨w1, w2, w3, w4⟩ := wsum q.eqs lam cv hl hcv hg
  have wnew : ∀ h ∈ List.zipWith (fun l c => powTerm (-l) 1 c) (List.zipWith (fun l v => l + -1 * mu * v) lam cv) q.eqs,
      ∃ g, h.grad p = some g ∧ g.length = n := by
    exact (wsum q.eqs _ cv (by simp [hl, w3]) hcv hg).1
  unfold lagrangianObj plainLagrangian
  have e1 := addAll_grad p n q.obj _ g0 h0 hn w1
  rw [addAll_grad p n _ _ _ e1 (by simp) w2, addAll_grad p n q.obj _ g0 h0 hn wnew]
  congr 1
  refine List.map_congr_left fun j hj => ?_
  have hj' : j < n := List.mem_range.1 hj
  rw [← w4 j, ← add_assoc]
  congr 1
  simp [List.getD_eq_getElem?_getD, hj']

/-- **C60**. If the method stops early, the constraints are satisfied to the requested tolerance at the returned point;
otherwise all cycles were run. -/
theorem lagrangian_stop (inner : Inner P) (c : AlCfg) (q : Problem P) (n : Nat) (st : AlState) (s s' : P)
    (cs : List (AlCycle P)) (b : Bool) (h : alCycles inner c q n st s = some (cs, b, s')) :
    (b = true → ∃ cv, forAll (fun f : OFun P => f.value s') q.eqs = some cv ∧
      (cv.map fun x => |x|).sum < c.consTol) ∧
    (b = false → cs.length = n) ∧ cs.length ≤ n := by
  induction n generalizing st s cs with
  | zero =>
    cases h
    simp
  | succ n ih =>
    simp only [alCycles] at h
    obtain ⟨s1, h1, h⟩ := Option.bind_eq_some_iff.1 h
    obtain ⟨cv, h2, h⟩ := Option.bind_eq_some_iff.1 h
    cases hu : alUpdate c st cv with
    | none =>
      rw [hu] at h
      cases h
      refine ⟨fun _ => ⟨cv, h2, ?_⟩, by simp, by simp⟩
      unfold alUpdate at hu
      simp only at hu
      split at hu
      · split at hu
        · rename_i hc; exact hc.2
        · cases hu
      · cases hu
    | some st' =>
      rw [hu] at h
      obtain ⟨r, hr, he⟩ := Option.map_eq_some_iff.1 h
      obtain ⟨r1, r2, r3⟩ := r
      cases he
      obtain ⟨i1, i2, i3⟩ := ih st' s1 r1 hr
      refine ⟨i1, fun hb => by simp [i2 hb], by simpa using i3⟩

/-- **C60**. Between consecutive cycles either the constraint error was below the tolerance, and the multipliers are
updated by `-mu c` while `mu` stays, or it was not, and `mu` grows by the factor 100 while the multipliers stay. -/
theorem lagrangian_transition (c : AlCfg) (st st' : AlState) (cv : List ℝ) (h : alUpdate c st cv = some st') :
    ((cv.map fun x => |x|).sum < st.ct ∧ st'.mu = st.mu ∧
      st'.lam = List.zipWith (fun l v => l - st.mu * v) st.lam cv ∧ st'.lt = st.lt / st.mu) ∨
    (st.ct ≤ (cv.map fun x => |x|).sum ∧ st'.mu = 100 * st.mu ∧ st'.lam = st.lam ∧ st'.lt = 1 / st'.mu) := by
  unfold alUpdate at h
  simp only at h
  split at h
  · rename_i h1
    split at h
    · cases h
    · cases h
      refine Or.inl ⟨h1, rfl, ?_, rfl⟩
      simp only
      congr 1
      funext l v
      ring
  · rename_i h1
    cases h
    exact Or.inr ⟨not_lt.1 h1, by simp only; ring, rfl, rfl⟩

/-- **C60**. The penalty factor never decreases: every cycle uses at least the factor of the cycle before. -/
theorem lagrangian_mu_monotone (inner : Inner P) (c : AlCfg) (q : Problem P) (n : Nat) (st : AlState) (s s' : P)
    (cs : List (AlCycle P)) (b : Bool) (hmu : 0 < st.mu) (h : alCycles inner c q n st s = some (cs, b, s')) :
    List.Pairwise (· ≤ ·) (st.mu :: cs.map fun e => e.st.mu) := by
  have key : (∀ x ∈ cs.map fun e => e.st.mu, st.mu ≤ x) ∧ (cs.map fun e => e.st.mu).Pairwise (· ≤ ·) := by
    induction n generalizing st s cs with
    | zero => cases h; simp
    | succ n ih =>
      simp only [alCycles] at h
      obtain ⟨s1, h1, h⟩ := Option.bind_eq_some_iff.1 h
      obtain ⟨cv, h2, h⟩ := Option.bind_eq_some_iff.1 h
      cases hu : alUpdate c st cv with
      | none => rw [hu] at h; cases h; simp
      | some st' =>
        rw [hu] at h
        obtain ⟨⟨r1, r2, r3⟩, hr, he⟩ := Option.map_eq_some_iff.1 h
        cases he
        have hm : st.mu ≤ st'.mu ∧ 0 < st'.mu := by
          rcases lagrangian_transition c st st' cv hu with h | h
          · rw [h.2.1]; exact ⟨le_refl _, hmu⟩
          · rw [h.2.1]; constructor <;> linarith
        obtain ⟨i1, i2⟩ := ih st' s1 r1 hm.2 hr
        refine ⟨?_, ?_⟩
        · intro x hx
          rcases List.mem_cons.1 hx with rfl | hx
          · exact le_refl _
          · exact hm.1.trans (i1 x hx)
        · exact List.pairwise_cons.2 ⟨fun x hx => hm.1.trans (i1 x hx), i2⟩
  exact List.pairwise_cons.2 key

/-- A problem with one constraint and one inequality, `minimise x` subject to `x - 1 = 0` and `x - 2 <= 0`, at `x = 1`. -/
noncomputable def lineProblem : Problem ℝ :=
  ⟨⟨fun x => some x, fun _ => some [1]⟩, [⟨fun x => some (x - 1), fun _ => some [1]⟩],
    [⟨fun x => some (x - 2), fun _ => some [1]⟩]⟩

noncomputable def lineMethods : Methods ℝ := ⟨fun x => some [x], fun _ v => v.head?, fun x => some x, fun _ => none⟩

example : Feasible lineProblem 1 := by
  constructor
  · intro f hf
    simp [lineProblem] at hf
    subst hf
    simp
  · intro f hf
    simp [lineProblem] at hf
    subst hf
    exact ⟨_, rfl, by norm_num⟩

example : ∃ s : List ℝ, s.length = 1 ∧ (∀ x ∈ s, 0 ≤ x) ∧
    ∀ f ∈ (slackProblem lineMethods lineProblem).eqs, f.value ⟨1, s, 1⟩ = some 0 := by
  refine (slack_equivalent lineMethods lineProblem 1).1.1 ?_
  constructor
  · intro f hf
    simp [lineProblem] at hf
    subst hf
    simp
  · intro f hf
    simp [lineProblem] at hf
    subst hf
    exact ⟨_, rfl, by norm_num⟩

example : GradientAlong lineProblem.obj (fun t => t) [1] 3 :=
  ⟨fun u => ⟨u, rfl⟩, [1], rfl, rfl, by simpa [lineProblem] using hasDerivAt_id' (3 : ℝ)⟩

example : ∃ cv g0, forAll (fun c : OFun ℝ => c.value 5) lineProblem.eqs = some cv ∧
    lineProblem.obj.grad 5 = some g0 ∧ ∀ c ∈ lineProblem.eqs, ∃ g, c.grad 5 = some g ∧ g.length = g0.length :=
  ⟨[5 - 1], [1], rfl, rfl, by intro c hc; simp [lineProblem] at hc; subst hc; exact ⟨[1], rfl, rfl⟩⟩

end Verif.Opt
