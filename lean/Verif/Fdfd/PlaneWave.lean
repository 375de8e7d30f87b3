import Verif.Fdfd.ShiftProps
/-
Properties C25 and C19: Bloch waves are the eigenvectors of the shifts and derivatives.
-/
namespace Verif.Fdfd
open Matrix
variable {sh : Shape}

/-! ### Specification -/

/-- The plane wave `exp(-i k·r)` on a grid with cells of width `h b` along the axis `b`. -/
noncomputable def planeWave (sh : Shape) (h k : Fin 3 → ℂ) : Fin sh.size → ℂ := fun i =>
  Complex.exp (-Complex.I * ∑ b, k b * (h b * ((cellAt i b).val : ℂ)))

/-! ### Theorems -/

theorem blochPhase_uniform (h k : Fin 3 → ℂ) (so : Fin 3 → Fin 3 → Int) (a : Fin 3) :
    blochPhase sh (fun b _ => h b) k so a = (sh a : ℂ) * h a * k a - ∑ b, (so a b : ℂ) * h b * k b := by
  have e : ((List.range (sh a)).map fun _ => h a).sum = (sh a : ℂ) * h a := by
    rw [List.map_const', List.sum_replicate, List.length_range, nsmul_eq_mul]
  simp only [blochPhase, List.foldl_cons, List.foldl_nil, e]
  rw [Fin.sum_univ_three]
  match a with
  | 0 => simp; ring
  | 1 => simp; ring
  | 2 => simp; ring

theorem wrap_eq (n : Nat) (x o : Int) (h0 : 0 ≤ x) (h1 : x < n) (ho : |o| ≤ n) :
    ((wrap n (x + o) : Nat) : ℂ) = x + o - (beyond n (x + o) : ℂ) * n := by
  have hz : ((wrap n (x + o) : Nat) : Int) = x + o - beyond n (x + o) * n := by
    have hb := abs_le.1 ho
    unfold wrap beyond
    have hn : (0 : Int) < n := by omega
    rw [Int.toNat_of_nonneg (Int.emod_nonneg _ (by omega))]
    split
    · rw [one_mul, ← Int.sub_emod_right (x + o) n]
      exact Int.emod_eq_of_lt (by omega) (by omega)
    · split
      · rw [← Int.add_emod_right (x + o) n, Int.emod_eq_of_lt (by omega) (by omega)]
        ring
      · rw [Int.emod_eq_of_lt (by omega) (by omega)]
        ring
  have := congrArg (fun z : Int => (z : ℂ)) hz
  simpa using this

/-- C25: on a uniform grid, with the phases that the derivative operators compute from the Bloch vector `k`, the shift by
`s` along the axis `a` multiplies the plane wave with wave vector `k` by `exp(-i k_a h_a s)` everywhere, across the
boundaries included, with a sheared boundary of the axis too. (The axes along which the boundary is sheared must not have
sheared boundaries themselves, and no shift may exceed the grid.) -/
theorem plane_wave_shift (a : Fin 3) (s : Int) (h k : Fin 3 → ℂ) (so : Fin 3 → Fin 3 → Int) (F : Mat sh.size)
    (hF : rotationBlochShift a sh s (blochPhase sh (fun b _ => h b) k so) (so a) = some F)
    (hs : |s| ≤ sh a) (hso : ∀ b, |so a b| ≤ sh b) (hso' : ∀ b, so a b ≠ 0 → so b = 0) :
    F *ᵥ planeWave sh h k = Complex.exp (-Complex.I * (k a * (h a * s))) • planeWave sh h k := by
  have h0 : so a a = 0 := (rotation_defined a sh s _ (so a)).1 (by rw [hF]; rfl)
  funext i
  obtain ⟨c, rfl⟩ : ∃ c : Cell sh, i = pos c := ⟨cellAt i, (pos_cellAt i).symm⟩
  set e := beyond (sh a) ((c a).val + s) with he
  have he1 : |e| ≤ 1 := by
    rw [he]; unfold beyond; split
    · simp
    · split <;> simp
  let o : Fin 3 → Int := fun b => if b = a then s else e * so a b
  have hob : ∀ b, |o b| ≤ sh b := by
    intro b
    by_cases hb : b = a
    · simp only [o, if_pos hb]; rw [hb]; exact hs
    · simp only [o, if_neg hb]
      rw [abs_mul]
      calc |e| * |so a b| ≤ 1 * |so a b| := mul_le_mul_of_nonneg_right he1 (abs_nonneg _)
        _ = |so a b| := one_mul _
        _ ≤ sh b := hso b
  have hlt : ∀ b, 0 < sh b := fun b => Nat.lt_of_le_of_lt (Nat.zero_le _) (c b).isLt
  let c' : Cell sh := fun b => ⟨wrap (sh b) ((c b).val + o b), wrap_lt _ _ (hlt b)⟩
  rw [rotation_action a s _ (so a) F hF (planeWave sh h k) c c' o (fun b => rfl) (fun b => rfl)]
  simp only [planeWave, Pi.smul_apply, smul_eq_mul, cellAt_pos]
  rw [← Complex.exp_add, ← Complex.exp_add]
  congr 1
  have hc' : ∀ b, (((c' b).val : Nat) : ℂ) = (c b).val + o b - (beyond (sh b) ((c b).val + o b) : ℂ) * sh b := by
    intro b
    have := wrap_eq (sh b) (c b).val (o b) (by omega) (by have := (c b).isLt; omega) (hob b)
    simpa using this
  have hph : ∀ b, b ≠ a → (beyond (sh b) ((c b).val + o b) : ℂ) * blochPhase sh (fun b _ => h b) k so b =
      (beyond (sh b) ((c b).val + o b) : ℂ) * ((sh b : ℂ) * h b * k b) := by
    intro b hb
    by_cases hz : so a b = 0
    · have : o b = 0 := by simp [o, hb, hz]
      have hbz : beyond (sh b) ((c b).val + o b) = 0 := by
        rw [this]; unfold beyond
        rw [if_neg (by have := (c b).isLt; omega), if_neg (by omega)]
      rw [hbz]; simp
    · rw [blochPhase_uniform, hso' b hz]; simp
  have hoa : o a = s := if_pos rfl
  have hea : beyond (sh a) ((c a).val + o a) = e := by rw [hoa]
  have hon : ∀ b, b ≠ a → (o b : ℂ) = (e : ℂ) * so a b := by
    intro b hb
    simp only [o, if_neg hb]
    push_cast
    rfl
  have split3 : ∀ f : Fin 3 → ℂ, ∑ b, f b = f a + ∑ b ∈ Finset.univ.erase a, f b := fun f =>
    (Finset.add_sum_erase _ _ (Finset.mem_univ a)).symm
  have l1 : ∑ b, (beyond (sh b) ((c b).val + o b) : ℂ) * blochPhase sh (fun b _ => h b) k so b =
      (e : ℂ) * ((sh a : ℂ) * h a * k a - ∑ b ∈ Finset.univ.erase a, (so a b : ℂ) * h b * k b) +
      ∑ b ∈ Finset.univ.erase a, (beyond (sh b) ((c b).val + o b) : ℂ) * ((sh b : ℂ) * h b * k b) := by
    rw [split3]
    congr 1
    · rw [hea, blochPhase_uniform, split3 fun b => (so a b : ℂ) * h b * k b, h0]
      simp
    · exact Finset.sum_congr rfl fun b hb => hph b (Finset.ne_of_mem_erase hb)
  have l2 : ∑ b, k b * (h b * (((c' b).val : Nat) : ℂ)) =
      k a * (h a * ((c a).val + s - (e : ℂ) * sh a)) + ∑ b ∈ Finset.univ.erase a,
        (k b * (h b * ((c b).val : ℂ)) + (e : ℂ) * ((so a b : ℂ) * h b * k b) -
          (beyond (sh b) ((c b).val + o b) : ℂ) * ((sh b : ℂ) * h b * k b)) := by
    rw [split3]
    congr 1
    · rw [hc', hea, hoa]
    · refine Finset.sum_congr rfl fun b hb => ?_
      rw [hc', hon b (Finset.ne_of_mem_erase hb)]
      ring
  rw [l1, l2, split3 fun b => k b * (h b * ((c b).val : ℂ)), Finset.sum_sub_distrib, Finset.sum_add_distrib,
    ← Finset.mul_sum]
  ring

/-- C19: so the forward derivative of the plane wave is the wave times `(exp(-i k h) - 1) / h`, and the backward one
times `(1 - exp(i k h)) / h`. -/
theorem plane_wave_derivative (a : Fin 3) (h k : Fin 3 → ℂ) (so : Fin 3 → Fin 3 → Int) (Df Db : Fin 3 → Mat sh.size)
    (hf : derivForwardShift sh (fun b _ => h b) k so = some Df) (hb : derivBackShift sh (fun b _ => h b) k so = some Db)
    (hs : 0 < sh a) (hso : ∀ b, |so a b| ≤ sh b) (hso' : ∀ b, so a b ≠ 0 → so b = 0) :
    Df a *ᵥ planeWave sh h k = ((Complex.exp (-Complex.I * (k a * h a)) - 1) / h a) • planeWave sh h k ∧
    Db a *ᵥ planeWave sh h k = ((1 - Complex.exp (Complex.I * (k a * h a))) / h a) • planeWave sh h k := by
  have axes : ∀ {α : Type} (f : Fin 3 → Option α) (g : Fin 3 → α), forAxes f = some g → f a = some (g a) := by
    intro α f g hfg
    unfold forAxes at hfg
    obtain ⟨x, hx, hfg⟩ := Option.bind_eq_some_iff.1 hfg
    obtain ⟨y, hy, hfg⟩ := Option.bind_eq_some_iff.1 hfg
    obtain ⟨z, hz, rfl⟩ := Option.map_eq_some_iff.1 hfg
    match a with
    | 0 => exact hx
    | 1 => exact hy
    | 2 => exact hz
  have one : |(1 : Int)| ≤ sh a := by rw [abs_one]; omega
  have mone : |(-1 : Int)| ≤ sh a := by rw [abs_neg, abs_one]; omega
  unfold derivForwardShift at hf
  unfold derivBackShift at hb
  obtain ⟨r, hr, hfe⟩ := Option.map_eq_some_iff.1 (axes _ _ hf)
  obtain ⟨r', hr', hbe⟩ := Option.map_eq_some_iff.1 (axes _ _ hb)
  rw [← hfe, ← hbe]
  constructor
  · rw [← Matrix.mulVec_mulVec, Matrix.sub_mulVec, Matrix.one_mulVec, plane_wave_shift a 1 h k so r hr one hso hso',
      diags_mesh (fun b _ => h b) a (fun x => 1 / x)]
    funext i
    rw [cdiag, Matrix.mulVec_diagonal]
    simp only [Pi.sub_apply, Pi.smul_apply, smul_eq_mul, Int.cast_one, mul_one]
    ring
  · rw [← Matrix.mulVec_mulVec, Matrix.sub_mulVec, Matrix.one_mulVec, plane_wave_shift a (-1) h k so r' hr' mone hso hso',
      diags_mesh (fun b _ => h b) a (fun x => -1 / x)]
    funext i
    rw [cdiag, Matrix.mulVec_diagonal]
    simp only [Pi.sub_apply, Pi.smul_apply, smul_eq_mul, Int.cast_neg, Int.cast_one, mul_neg, mul_one, neg_mul, neg_neg]
    ring

/-- Hypotheses: a 3 by 4 by 1 grid, sheared by two cells along y at the boundaries of x. -/
example : ∃ F, rotationBlochShift 0 (![3, 4, 1] : Shape) 1
    (blochPhase ![3, 4, 1] (fun b _ => ![1, 2, 3] b) ![1, 1, 0] ![![0, 2, 0], 0, 0]) ![0, 2, 0] = some F :=
  ⟨_, rotation_eq _ _ _ _ rfl⟩

example : (∀ b, |(![![0, 2, 0], 0, 0] : Fin 3 → Fin 3 → Int) 0 b| ≤ ((![3, 4, 1] : Shape) b : Int)) ∧
    ∀ b, (![![0, 2, 0], 0, 0] : Fin 3 → Fin 3 → Int) 0 b ≠ 0 → (![![0, 2, 0], 0, 0] : Fin 3 → Fin 3 → Int) b = 0 := by
  decide

end Verif.Fdfd
