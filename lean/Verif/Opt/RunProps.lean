import Verif.Opt.StepProps
import Verif.Opt.ConstrainedProps
/-
Property C64: the runs of the gradient-based optimizers follow the recurrences they are named after. More of C60: the
whole run of the augmented Lagrangian optimizer.
-/
namespace Verif.Opt
variable {P S : Type}

/-- **C64**. Gradient descent on an unbounded `DirectParam`: after `k` iterations the vector is `x k`, where each vector is
the one before minus the learning rate times the gradient there. -/
theorem gd_recurrence (obj : Direct → Option ℝ) (grad : Direct → Option (List ℝ)) (alpha : ℝ) (x g : Nat → List ℝ)
    (hg : ∀ k, grad (mkDirect (x k) none) = some (g k)) (hl : ∀ k, (x k).length = (g k).length)
    (hx : ∀ (k i : Nat) (a b : ℝ), (x k)[i]? = some a → (g k)[i]? = some b → (x (k + 1))[i]? = some (a - alpha * b))
    (hn : ∀ k, (x (k + 1)).length = (x k).length) (m fuel : Nat) (hm : 0 < m) (hf : m ≤ fuel) :
    optimize (gdIterate ⟨directMethods, obj, grad⟩ alpha) fuel (some m) none 0 (mkDirect (x 0) none) =
      .done (mkDirect (x m) none, m, statesUpTo (fun k => mkDirect (x k) none) m) false := by
  have h := optimize_exact_partial (gdIterate ⟨directMethods, obj, grad⟩ alpha) 0 m fuel none
    (fun k => mkDirect (x k) none) (fun _ => false) hm
    (fun k _ => by
      have hv : List.zipWith (fun a b => a - alpha * b) (x k) (g k) = x (k + 1) := by
        apply List.ext_getElem?
        intro i
        rw [List.getElem?_zipWith]
        by_cases hi : i < (x k).length
        · rw [List.getElem?_eq_getElem hi, List.getElem?_eq_getElem (by rw [← hl k]; exact hi)]
          exact (hx k i _ _ (List.getElem?_eq_getElem hi) (List.getElem?_eq_getElem _)).symm
        · rw [List.getElem?_eq_none (by omega), List.getElem?_eq_none (l := x (k + 1)) (by rw [hn]; omega)]
      unfold gdIterate
      simp only [hg k]
      have h1 : (directMethods.encode (mkDirect (x k) none)).bind
          (fun v => vzip (fun a b => a - alpha * b) v (g k)) = some (x (k + 1)) := by
        show vzip _ (x k) (g k) = _
        rw [vzip, if_pos (hl k), hv]
      simp only [h1]
      have h2 : directMethods.decode (mkDirect (x k) none) (x (k + 1)) = some (free (x (k + 1))) := by
        show some (⟨x (k + 1), _, _⟩ : Direct) = _
        unfold free mkDirect
        simp [expandBound, hn k]
      simp only [h2]
      have h3 : directMethods.project (free (x (k + 1))) = some (free (x (k + 1))) := free_project _
      simp only [h3]
      rfl)
    (fun _ _ => rfl) (by simp) hf
  simpa using h

/-- The hypotheses are met: halving, for the gradient `x` and the learning rate 1/2. -/
example : optimize (gdIterate ⟨directMethods, fun _ => none, fun p => some p.vector⟩ (1 / 2)) 4 (some 3) none 0
    (mkDirect [8] none) = .done (mkDirect [1] none, 3, statesUpTo (fun k => mkDirect [8 / 2 ^ k] none) 3) false := by
  have := gd_recurrence (fun _ => none) (fun p => some p.vector) (1 / 2) (fun k => [8 / 2 ^ k]) (fun k => [8 / 2 ^ k])
    (fun _ => rfl) (fun _ => rfl) (by
      intro k i a b ha hb
      cases i with
      | zero =>
        simp at ha hb
        subst ha hb
        simp only [List.getElem?_cons_zero, Option.some.injEq]
        rw [pow_succ]
        field_simp
        norm_num
      | succ i => simp at ha) (fun _ => rfl) 3 4 (by omega) (by omega)
  norm_num at this ⊢
  exact this

/-- **C64**. Nesterov's method on an unbounded `DirectParam`: the velocity `w (k + 1)` is `gamma w k + learning_rate g`, with
the gradient at the look-ahead point `x k - gamma w k`, starting from rest, and `x (k + 1) = x k - w (k + 1)`. -/
theorem nag_recurrence (obj : Direct → Option ℝ) (grad : Direct → Option (List ℝ)) (alpha gamma : ℝ)
    (x w g : Nat → List ℝ) (d : Nat) (hxl : ∀ k, (x k).length = d) (hwl : ∀ k, (w k).length = d)
    (hgl : ∀ k, (g k).length = d) (hw0 : ∀ (i : Nat) (a : ℝ), (w 0)[i]? = some a → a = 0)
    (hg : ∀ k, grad (mkDirect (List.zipWith (fun a b => a - gamma * b) (x k) (w k)) none) = some (g k))
    (hw : ∀ k, w (k + 1) = List.zipWith (fun a b => gamma * a + alpha * b) (w k) (g k))
    (hx : ∀ k, x (k + 1) = List.zipWith (fun a b => a - b) (x k) (w (k + 1))) (m fuel : Nat) (hm : 0 < m) (hf : m ≤ fuel) :
    ∃ s' tr, optimize (nagIterate ⟨directMethods, obj, grad⟩ alpha gamma) fuel (some m) none 0 ⟨mkDirect (x 0) none, none⟩ =
      .done (s', m, tr) false ∧ s'.param = mkDirect (x m) none ∧
      tr.map (fun s => s.param) = statesUpTo (fun k => mkDirect (x k) none) m := by
  have hstep : ∀ k, nagIterate ⟨directMethods, obj, grad⟩ alpha gamma k
      ⟨mkDirect (x k) none, if k = 0 then none else some (w k)⟩ =
      .done ⟨mkDirect (x (k + 1)) none, if k + 1 = 0 then none else some (w (k + 1))⟩ false := by
    intro k
    have hz : (x k).length = (w k).length := by rw [hxl, hwl]
    have h0 : w 0 = List.replicate d 0 := by
      rw [List.eq_replicate_iff]
      refine ⟨hwl 0, fun b hb => ?_⟩
      obtain ⟨i, hi⟩ := List.mem_iff_getElem?.1 hb
      exact hw0 i b hi
    have hzero : ∀ l : List ℝ, List.zipWith (fun a b => a - gamma * b) l (List.replicate l.length 0) = l := by
      intro l
      induction l with
      | nil => rfl
      | cons a l ih => simp only [List.length_cons, List.replicate_succ, List.zipWith_cons_cons, ih, mul_zero, sub_zero]
    have hzero' : ∀ l : List ℝ, List.zipWith (fun a b => gamma * a + alpha * b) (List.replicate l.length 0) l =
        l.map (alpha * ·) := by
      intro l
      induction l with
      | nil => rfl
      | cons a l ih => simp only [List.length_cons, List.replicate_succ, List.zipWith_cons_cons, ih, mul_zero, zero_add,
          List.map_cons]
    unfold nagIterate
    have e1 : directMethods.toVector (mkDirect (x k) none) = some (x k) := rfl
    simp only [e1]
    have e2 : lookAhead gamma (if k = 0 then none else some (w k)) (x k) =
        some (List.zipWith (fun a b => a - gamma * b) (x k) (w k)) := by
      by_cases hk : k = 0
      · subst hk
        rw [if_pos rfl, h0, ← hxl 0, hzero]
        rfl
      · rw [if_neg hk]
        simp only [lookAhead, vzip, if_pos hz]
    rw [e2]
    have e3 : directMethods.fromVector (mkDirect (x k) none) (List.zipWith (fun a b => a - gamma * b) (x k) (w k)) =
        some (mkDirect (List.zipWith (fun a b => a - gamma * b) (x k) (w k)) none) := by
      show Direct.project ⟨_, (mkDirect (x k) none).lower, (mkDirect (x k) none).upper⟩ = _
      have : (⟨List.zipWith (fun a b => a - gamma * b) (x k) (w k), (mkDirect (x k) none).lower,
          (mkDirect (x k) none).upper⟩ : Direct) = free (List.zipWith (fun a b => a - gamma * b) (x k) (w k)) := by
        unfold free mkDirect
        simp [expandBound, hz]
      rw [this, free_project]
      rfl
    simp only [Option.bind_some, e3, hg k]
    have e4 : accum gamma alpha (if k = 0 then none else some (w k)) (g k) = some (w (k + 1)) := by
      rw [hw k]
      by_cases hk : k = 0
      · subst hk
        rw [if_pos rfl, h0, ← hgl 0, hzero']
        rfl
      · rw [if_neg hk]
        simp only [accum, vzip, if_pos ((hwl k).trans (hgl k).symm)]
    rw [e4]
    have e5 : takeStep ⟨directMethods, obj, grad⟩ (mkDirect (x k) none) (w (k + 1)) = some (mkDirect (x (k + 1)) none) := by
      have := free_step ⟨directMethods, obj, grad⟩ rfl (x k) (w (k + 1)) (by rw [hxl, hwl])
      rw [← hx k] at this
      exact this
    simp only [e5]
    rw [if_neg (by omega)]
  have h := optimize_exact_partial (nagIterate ⟨directMethods, obj, grad⟩ alpha gamma) 0 m fuel none
    (fun k => (⟨mkDirect (x k) none, if k = 0 then none else some (w k)⟩ : Acc1 Direct)) (fun _ => false) hm
    (fun k _ => by rw [Nat.zero_add]; exact hstep k) (fun _ _ => rfl) (by simp) hf
  simp only [if_true] at h
  rw [Nat.zero_add] at h
  refine ⟨_, _, h, rfl, ?_⟩
  simp [statesUpTo]

/-- The hypotheses are met: a constant gradient. -/
example : ∃ x w g : Nat → List ℝ, (∀ k, (x k).length = 1) ∧ (∀ k, (w k).length = 1) ∧ (∀ k, (g k).length = 1) ∧
    (∀ k, w (k + 1) = List.zipWith (fun a b => 1 / 2 * a + 1 * b) (w k) (g k)) ∧
    (∀ k, x (k + 1) = List.zipWith (fun a b => a - b) (x k) (w (k + 1))) ∧ w 0 = [0] ∧ w 2 = [3 / 2] := by
  refine ⟨fun k => [Nat.rec 0 (fun n a => a - (2 - 2 / 2 ^ (n + 1))) k], fun k => [2 - 2 / 2 ^ k], fun _ => [1],
    fun _ => rfl, fun _ => rfl, fun _ => rfl, ?_, ?_, by norm_num, by norm_num⟩
  · intro k
    simp only [List.zipWith_cons_cons, List.zipWith_nil_left, List.cons.injEq, and_true]
    rw [pow_succ]
    field_simp
    ring
  · intro k
    rfl

/-- **C64**. Adaptive gradient descent reports convergence exactly when the norm of the gradient is below the tolerance. -/
theorem agd_stops_iff (c : Prob P) (k : AgdCfg) (fuel n : Nat) (s s' : Agd P) (stop : Bool) (g : List ℝ)
    (hg : c.grad s.param = some g) (h : agdIterate c k fuel n s = .done s' stop) :
    stop = true ↔ Real.sqrt (g.map fun x => x ^ 2).sum < k.tol := by
  have hnb : normBelow g k.tol = true ↔ Real.sqrt (g.map fun x => x ^ 2).sum < k.tol := by
    have hsum : (0 : ℝ) ≤ (g.map fun x => x * x).sum := List.sum_nonneg fun y hy => by
      obtain ⟨x, _, rfl⟩ := List.mem_map.1 hy
      exact mul_self_nonneg x
    simp only [normBelow, decide_eq_true_eq, pow_two]
    constructor
    · rintro ⟨h1, h2⟩
      rw [Real.sqrt_lt' h1, pow_two]
      exact h2
    · intro h1
      have h2 : 0 < k.tol := lt_of_le_of_lt (Real.sqrt_nonneg _) h1
      rw [Real.sqrt_lt' h2, pow_two] at h1
      exact ⟨h2, h1⟩
  rw [← hnb]
  unfold agdIterate at h
  rw [hg] at h
  simp only at h
  split at h
  · rename_i hb
    cases h
    simp [hb]
  · rename_i hb
    have key : ∀ (fuel : Nat) (s s' : Agd P) (stop : Bool), agdLoop c k g fuel s = .done s' stop → stop = false := by
      intro fuel
      induction fuel with
      | zero => intro s s' stop h; cases h
      | succ f ih =>
        intro s s' stop h
        unfold agdLoop at h
        repeat' (first | cases h; done | split at h)
        all_goals first | (cases h; rfl) | exact ih _ _ _ h
    rw [key _ _ _ _ h]
    simp [hb]

/-- Same bounds, same length, entries at most `e` apart. -/
def Near (star : Direct) (e : ℝ) (p : Direct) : Prop :=
  p.lower = star.lower ∧ p.upper = star.upper ∧ p.vector.length = star.vector.length ∧
    ∀ (i : Nat) (x y : ℝ), p.vector[i]? = some x → star.vector[i]? = some y → |x - y| ≤ e

/-- What a completed iteration of gradient descent on a `DirectParam` did. -/
theorem gd_done {obj : Direct → Option ℝ} {grad : Direct → Option (List ℝ)} {alpha : ℝ} {n : Nat} {p p' : Direct} {b : Bool}
    (h : gdIterate ⟨directMethods, obj, grad⟩ alpha n p = .done p' b) :
    ∃ g, grad p = some g ∧ p.vector.length = g.length ∧
      Direct.project ⟨List.zipWith (fun x y => x - alpha * y) p.vector g, p.lower, p.upper⟩ = some p' := by
  unfold gdIterate at h
  split at h
  · cases h
  rename_i g hg
  split at h
  · cases h
  rename_i v hv
  replace hv : vzip (fun x y => x - alpha * y) p.vector g = some v := hv
  obtain ⟨hl, rfl⟩ := vzip_some hv
  split at h
  · cases h
  rename_i p1 hp1
  replace hp1 : some (⟨_, p.lower, p.upper⟩ : Direct) = some p1 := hp1
  obtain rfl := Option.some.inj hp1
  split at h
  · cases h
  rename_i p2 hp2
  cases h
  exact ⟨g, hg, hl, hp2⟩

/-- **C64**. Gradient descent with bounds converges: if the step `x - learning_rate * gradient(x)` brings any two points
closer by the factor `q` (in the largest entry), and `star` is a point the iteration does not move (a constrained optimum),
then after `k` iterations the distance to it is at most `q ^ k` times the initial one. -/
theorem gd_converges (obj : Direct → Option ℝ) (grad : Direct → Option (List ℝ)) (alpha q : ℝ)
    (hq : ∀ (a b : Direct) (ga gb : List ℝ) (e : ℝ), grad a = some ga → grad b = some gb → Near b e a →
      ∀ (i : Nat) (x y u v : ℝ), a.vector[i]? = some x → b.vector[i]? = some y → ga[i]? = some u → gb[i]? = some v →
        |(x - alpha * u) - (y - alpha * v)| ≤ q * e)
    (star p : Direct) (d : ℝ) (hstar : gdIterate ⟨directMethods, obj, grad⟩ alpha 0 star = .done star false)
    (hp : Near star d p) (fuel n n' : Nat) (iters maxIters : Option Int) (s' : Direct) (tr : List Direct) (stop : Bool)
    (h : optimize (gdIterate ⟨directMethods, obj, grad⟩ alpha) fuel iters maxIters n p = .done (s', n', tr) stop) :
    ∀ (k : Nat) (s : Direct), (p :: tr)[k]? = some s → Near star (q ^ k * d) s := by
  have hstep : ∀ n s s' b, True → gdIterate ⟨directMethods, obj, grad⟩ alpha n s = .done s' b →
      True ∧ (∀ e, Near star e s → Near star (q * e) s') := by
    intro n s s' b _ hit
    refine ⟨trivial, fun e hne => ?_⟩
    obtain ⟨g, hg, hl, hpr⟩ := gd_done hit
    obtain ⟨gs, hgs, hls, hprs⟩ := gd_done hstar
    obtain ⟨h1, h2, h3, h4⟩ := hne
    obtain ⟨_, _, a1, a2, a3, a4⟩ := direct_project_some hpr
    obtain ⟨_, _, b1, b2, b3, b4⟩ := direct_project_some hprs
    simp only at a1 a2 a3 a4 b4
    refine ⟨a1.trans h1, a2.trans h2, ?_, ?_⟩
    · rw [a3, List.length_zipWith, ← hl, Nat.min_self, h3]
    · intro i x y hx hy
      have c1 := a4 i
      have c2 := b4 i
      rw [hx] at c1
      rw [hy] at c2
      obtain ⟨z1, e1, f1⟩ := Option.map_eq_some_iff.1 c1.symm
      obtain ⟨z2, e2, f2⟩ := Option.map_eq_some_iff.1 c2.symm
      obtain ⟨x0, u, g1, g2, rfl⟩ := zipWith_get e1
      obtain ⟨y0, v, g3, g4, rfl⟩ := zipWith_get e2
      rw [← f1, ← f2, h1, h2]
      exact (clip1_nonexpansive _ _ _ _).trans (hq s star g gs e hg hgs ⟨h1, h2, h3, h4⟩ i x0 y0 u v g1 g3 g2 g4)
  obtain ⟨hc, _⟩ := run_chain _ (fun _ => True) (fun s s' => ∀ e, Near star e s → Near star (q * e) s') hstep fuel n iters
    maxIters p s' n' tr stop trivial h
  have key : ∀ (l : List Direct) (p : Direct) (d : ℝ), Near star d p →
      List.IsChain (fun s s' => ∀ e, Near star e s → Near star (q * e) s') (p :: l) →
      ∀ (k : Nat) (s : Direct), (p :: l)[k]? = some s → Near star (q ^ k * d) s := by
    intro l
    induction l with
    | nil =>
      intro p d hp _ k s hs
      cases k with
      | zero =>
        obtain rfl : p = s := by simpa using hs
        simpa using hp
      | succ k => simp at hs
    | cons a l ih =>
      intro p d hp hc k s hs
      cases k with
      | zero =>
        obtain rfl : p = s := by simpa using hs
        simpa using hp
      | succ k =>
        rw [List.isChain_cons_cons] at hc
        have := ih a (q * d) (hc.1 d hp) hc.2 k s (by simpa using hs)
        rw [pow_succ, mul_assoc]
        exact this
  exact key tr p d hp hc

/-- The parametrization of the example: one entry between 0 and 1. -/
noncomputable def unitDirect (x : ℝ) : Direct := mkDirect [x] (some (.number 0, .number 1))

/-- The hypotheses are met: `(x - 3)^2 / 2` on `[0, 1]` with the learning rate 1/2; the optimum is at the bound 1. -/
example : gdIterate ⟨directMethods, fun _ => none, fun p => some (p.vector.map fun x => x - 3)⟩ (1 / 2) 0 (unitDirect 1) =
    .done (unitDirect 1) false ∧ Near (unitDirect 1) 1 (unitDirect 0) ∧
    (∀ (a b : Direct) (e : ℝ), Near b e a → ∀ (i : Nat) (x y u v : ℝ), a.vector[i]? = some x → b.vector[i]? = some y →
      (a.vector.map fun x => x - 3)[i]? = some u → (b.vector.map fun x => x - 3)[i]? = some v →
      |(x - 1 / 2 * u) - (y - 1 / 2 * v)| ≤ 1 / 2 * e) := by
  refine ⟨?_, ⟨rfl, rfl, rfl, ?_⟩, ?_⟩
  · simp [gdIterate, unitDirect, mkDirect, directMethods, vzip, Direct.project, expandBound, Side.entries, clip1]
    norm_num
  · intro i x y hx hy
    cases i with
    | zero =>
      simp [unitDirect, mkDirect] at hx hy
      subst hx hy
      norm_num
    | succ i => simp [unitDirect, mkDirect] at hx
  · rintro a b e ⟨_, _, _, h⟩ i x y u v hx hy hu hv
    have := h i x y hx hy
    rw [List.getElem?_map, hx] at hu
    rw [List.getElem?_map, hy] at hv
    simp only [Option.map_some, Option.some.injEq] at hu hv
    subst hu hv
    rw [show x - 1 / 2 * (x - 3) - (y - 1 / 2 * (y - 3)) = 1 / 2 * (x - y) by ring, abs_mul, abs_of_pos (by norm_num : (0 : ℝ) < 1 / 2)]
    linarith

/-! ### The run of the augmented Lagrangian optimizer -/

/-- The cycles of a run, from a state and a starting point: each minimises the augmented Lagrangian for its multipliers and
penalty factor from the point the one before ended at, and the state for the next one follows from the values of the
constraints there. -/
def AlChain (inner : Inner P) (c : AlCfg) (q : Problem P) : AlState → P → List (AlCycle P) → P → Prop
  | _, s, [], r => s = r
  | st, s, e :: l, r =>
    e.st = st ∧ (∀ p, e.obj.value p = (lagrangianObj q st.lam st.mu).value p) ∧ inner e.obj st.lt s = some e.result ∧
    ∃ cv, forAll (fun f : OFun P => f.value e.result) q.eqs = some cv ∧
      match alUpdate c st cv with
      | none => l = [] ∧ e.result = r
      | some st' => AlChain inner c q st' e.result l r

/-- **C60**. The run: the first cycle uses the initial penalty factor, a multiplier of 1 for each constraint of the problem
with slack variables, and starts at the given point with zero slack variables; the rest is the chain of cycles, and the
parametrization of the last result is returned. -/
theorem lagrangian_chain (m : Methods P) (inner : Inner (Slack P)) (c : AlCfg) (q : Problem P) (p p' : P)
    (cs : List (AlCycle (Slack P))) (b : Bool) (h : alCall m inner c q p = some (cs, b, p')) :
    ∃ (st : AlState) (s : Slack P), st.mu = c.mu0 ∧ st.lam = List.replicate (q.eqs.length + q.ineqs.length) 1 ∧
      s.param = p' ∧ AlChain inner c (slackProblem m q) st (mkSlack p q.ineqs.length) cs s := by
  have key : ∀ (n : Nat) (q : Problem (Slack P)) (st : AlState) (s s' : Slack P) (cs : List (AlCycle (Slack P))) (b : Bool),
      alCycles inner c q n st s = some (cs, b, s') → AlChain inner c q st s cs s' := by
    intro n q
    induction n with
    | zero =>
      intro st s s' cs b h
      cases h
      rfl
    | succ n ih =>
      intro st s s' cs b h
      simp only [alCycles] at h
      obtain ⟨s1, h1, h⟩ := Option.bind_eq_some_iff.1 h
      obtain ⟨cv, h2, h⟩ := Option.bind_eq_some_iff.1 h
      cases hu : alUpdate c st cv with
      | none =>
        rw [hu] at h
        cases h
        refine ⟨rfl, fun _ => rfl, h1, cv, h2, ?_⟩
        rw [hu]
        exact ⟨rfl, rfl⟩
      | some st' =>
        rw [hu] at h
        obtain ⟨⟨r1, r2, r3⟩, hr, he⟩ := Option.map_eq_some_iff.1 h
        cases he
        refine ⟨rfl, fun _ => rfl, h1, cv, h2, ?_⟩
        rw [hu]
        exact ih st' s1 _ r1 _ hr
  unfold alCall at h
  obtain ⟨⟨r1, r2, r3⟩, hr, he⟩ := Option.map_eq_some_iff.1 h
  cases he
  refine ⟨alInit c (slackProblem m q), r3, rfl, ?_, rfl, key _ _ _ _ _ _ _ hr⟩
  simp [alInit, slackProblem]

/-- The hypothesis is met, by an inner optimizer that does nothing. -/
example : ∃ cs b p', alCall trivialMethods (fun _ _ s => some s) ⟨10, 0.1, 1, 1, 1⟩ trivialProblem () = some (cs, b, p') := by
  unfold alCall alCycles
  simp only [Option.bind_some, slackProblem, trivialProblem, List.map_nil, List.append_nil, List.zipIdx_nil, forAll]
  split <;> simp [alCycles]

end Verif.Opt
