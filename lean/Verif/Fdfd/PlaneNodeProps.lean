import Verif.Fdfd.PlaneNode
import Verif.Fdfd.FreeSpaceOneWay
import Verif.Fdfd.FreeSpaceSource
import Verif.Fdfd.SimLawsProps
/-
Property C127: a plane-wave source fits the simulation it is put in.
-/
namespace Verif.Fdfd.PlaneNode
open Matrix Verif.Fdfd.FreeSpace Verif.Fdfd.Laws
set_option linter.unusedSectionVars false
variable {sh : Shape}

/-! ### Specification -/

/-- An axis without absorbing layers. -/
def Periodic (c : SimCfg sh) (b : Fin 3) : Prop := thickness c.pml b true = 0 ∧ thickness c.pml b false = 0

/-- A cell that is, along each axis with absorbing layers, neither in a layer nor next to one nor at the end of the grid. -/
def Clear (c : SimCfg sh) (r : Cell sh) : Prop := ∀ b, Periodic c b ∨
  (1 ≤ (r b).val ∧ (r b).val + 1 < sh b ∧ thickness c.pml b true + 1 ≤ ((r b).val : Int) ∧
    ((r b).val : Int) + thickness c.pml b false < sh b)

/-! ### The wave equation where the layers are not -/

theorem fwdDiff_same (d d' : Dxes) (k k' : Fin 3 → ℂ) (b : Fin 3) (f : Cell sh → ℂ) (c : Cell sh)
    (h : (k' b = k b ∧ ∀ i < sh b, d'.e b i = d.e b i) ∨ ((c b).val + 1 < sh b ∧ d'.e b (c b) = d.e b (c b))) :
    fwdDiff d'.e k' b f c = fwdDiff d.e k b f c := by
  rcases h with ⟨hk, hd⟩ | ⟨h1, hd⟩
  · have hL : gridLength sh d'.e b = gridLength sh d.e b := Finset.sum_congr rfl fun i hi => hd i (Finset.mem_range.mp hi)
    rw [fwdDiff, fwdDiff, upPhase, upPhase, hk, hL, hd _ (c b).isLt]
  · rw [fwdDiff, fwdDiff, upPhase, upPhase, if_neg (by omega), if_neg (by omega), hd]

theorem backDiff_same (d d' : Dxes) (k k' : Fin 3 → ℂ) (b : Fin 3) (f : Cell sh → ℂ) (c : Cell sh)
    (h : (k' b = k b ∧ ∀ i < sh b, d'.h b i = d.h b i) ∨ (1 ≤ (c b).val ∧ d'.h b (c b) = d.h b (c b))) :
    backDiff d'.h k' b f c = backDiff d.h k b f c := by
  rcases h with ⟨hk, hd⟩ | ⟨h1, hd⟩
  · have hL : gridLength sh d'.h b = gridLength sh d.h b := Finset.sum_congr rfl fun i hi => hd i (Finset.mem_range.mp hi)
    rw [backDiff, backDiff, downPhase, downPhase, hk, hL, hd _ (c b).isLt]
  · rw [backDiff, backDiff, downPhase, downPhase, if_neg (by omega), if_neg (by omega), hd]

theorem prev_cases (x b : Fin 3) (c : Cell sh) (h : 1 ≤ (c b).val) :
    (prevCell x c b).val = (c b).val ∨ (prevCell x c b).val = (c b).val - 1 := by
  rcases prev_val x b c h with h1 | ⟨_, h1⟩
  · exact Or.inl h1
  · exact Or.inr (by omega)

theorem waveLeft_same (d d' : Dxes) (k k' : Fin 3 → ℂ) (omega : ℂ) (eps E : FieldT sh) (a : Fin 3) (c : Cell sh)
    (h : ∀ b, (k' b = k b ∧ (∀ i < sh b, d'.e b i = d.e b i) ∧ ∀ i < sh b, d'.h b i = d.h b i) ∨
      (1 ≤ (c b).val ∧ (c b).val + 1 < sh b ∧ d'.e b (c b) = d.e b (c b) ∧ d'.e b ((c b).val - 1) = d.e b ((c b).val - 1) ∧
        d'.h b (c b) = d.h b (c b))) :
    waveLeft d' k' omega eps E a c = waveLeft d k omega eps E a c := by
  have hF : ∀ c', (∀ b, 1 ≤ (c b).val → (c' b).val = (c b).val ∨ (c' b).val = (c b).val - 1) → ∀ x (f : Cell sh → ℂ),
      fwdDiff d'.e k' x f c' = fwdDiff d.e k x f c' := by
    intro c' hc x f
    apply fwdDiff_same
    rcases h x with ⟨h1, h2, _⟩ | ⟨h1, h2, h3, h4, _⟩
    · exact Or.inl ⟨h1, h2⟩
    · right
      rcases hc x h1 with e | e
      · rw [e]; exact ⟨h2, h3⟩
      · rw [e]; exact ⟨by omega, h4⟩
  have hB : ∀ x (f : Cell sh → ℂ), backDiff d'.h k' x f c = backDiff d.h k x f c := by
    intro x f
    apply backDiff_same
    rcases h x with ⟨h1, _, h2⟩ | ⟨h1, _, _, _, h2⟩
    · exact Or.inl ⟨h1, h2⟩
    · exact Or.inr ⟨h1, h2⟩
  have hc : ∀ e, curlF d' k' E e c = curlF d k E e c := fun e => by
    rw [curlF, curlF, hF c (fun _ _ => Or.inl rfl), hF c (fun _ _ => Or.inl rfl)]
  have hp : ∀ x e, curlF d' k' E e (prevCell x c) = curlF d k E e (prevCell x c) := fun x e => by
    rw [curlF, curlF, hF _ (fun b hb => prev_cases x b c hb), hF _ (fun b hb => prev_cases x b c hb)]
  rw [waveLeft, waveLeft, curlB, curlB, hB, hB]
  simp only [backDiff, hc, hp]

theorem mesh_periodic {c : SimCfg sh} (h : GoodSim c) (b : Fin 3) (hb : Periodic c b) (i : Nat) (hi : i < sh b) :
    (mesh c).e b i = (gridOf c.hp c.dx).e b i ∧ (mesh c).h b i = (gridOf c.hp c.dx).h b i :=
  mesh_outside h b i (by rw [hb.1]; exact Int.natCast_nonneg i) (by rw [hb.2]; omega)

/-- The equations of a simulation at a clear cell are those of the grid without layers, with any Bloch vector that agrees along the
periodic axes. -/
theorem simulated_wave {c : SimCfg sh} (h : GoodSim c) (eps E : FieldT sh) (k : Fin 3 → ℂ) (A : Mat3 sh.size)
    (hA : waveOp c (vecF eps) = some A) (hk : ∀ b, Periodic c b → c.bloch.getD 0 b = k b) (a : Fin 3) (r : Cell sh) (hr : Clear c r) :
    (A *ᵥ vecF E) (a, pos r) = waveLeft (gridOf c.hp c.dx) k c.omega eps E a r := by
  obtain ⟨_, _, _, _, hop⟩ := mesh_spec h
  rw [hop] at hA
  rw [eFull_pointwise _ _ _ _ _ _ hA]
  apply waveLeft_same
  intro b
  rcases hr b with hb | ⟨h1, h2, h3, h4⟩
  · exact Or.inl ⟨hk b hb, fun i hi => (mesh_periodic h b hb i hi).1, fun i hi => (mesh_periodic h b hb i hi).2⟩
  · refine Or.inr ⟨h1, h2, ?_⟩
    obtain ⟨e1, e2⟩ := mesh_outside h b (r b).val (by omega) h4
    obtain ⟨e3, _⟩ := mesh_outside h b ((r b).val - 1) (by omega) (by omega)
    exact ⟨e1, e3, e2⟩

/-! ### The source in its simulation -/

theorem planeSource_fields {g : EpsGrid sh} {omega : ℝ} {axis : Fin 3} {sl : Slc} {m : Aim} {bd : Fin 3 → Nat} {power : ℝ}
    {s : FieldT sh × (Fin 3 → ℝ)} (h : planeWaveSource g omega axis sl none m bd power = some s) :
    ∃ fl, planeFields g omega axis sl none m bd power = some fl ∧ currentOf g omega axis sl m.polarity fl = some s.1 ∧
      s.2 = fl.wavevector ∧ fl.wavevector = (omega * Real.sqrt (epsVal g sl)) • heading axis m := by
  rw [planeWaveSource, Option.bind_eq_some_iff] at h
  obtain ⟨fl, h1, h2⟩ := h
  rw [Option.map_eq_some_iff] at h2
  obtain ⟨J, h3, rfl⟩ := h2
  refine ⟨fl, h1, h3, rfl, ?_⟩
  rw [planeFields, Option.bind_eq_some_iff] at h1
  obtain ⟨fl0, g1, g2⟩ := h1
  rw [Option.bind_eq_some_iff] at g2
  obtain ⟨bd', _, g3⟩ := g2
  rw [Option.map_eq_some_iff] at g3
  obtain ⟨P, _, rfl⟩ := g3
  exact (vectorFields_some g1).2

theorem planeNode_fields {g : EpsGrid sh} {dx : ℝ} {layers : List Int} {omega : ℝ} {axis : Fin 3} {sl : Slc} {m : Aim}
    {border : List ℝ} {power : ℝ} {overwrite : Bool} {s : FieldT sh × Option (Fin 3 → ℝ)}
    (h : planeNode g dx layers omega axis sl m border power overwrite = some s) :
    ∃ bd fl, axisBorder (nodeBorder dx border) = some bd ∧ planeFields g omega axis sl none m bd power = some fl ∧
      currentOf g omega axis sl m.polarity fl = some s.1 ∧
      s.2 = (if overwrite then some (zeroBloch layers fl.wavevector) else none) ∧
      fl.wavevector = (omega * Real.sqrt (epsVal g sl)) • heading axis m := by
  rw [planeNode, Option.bind_eq_some_iff] at h
  obtain ⟨bd, h1, h2⟩ := h
  rw [Option.map_eq_some_iff] at h2
  obtain ⟨s', h3, rfl⟩ := h2
  obtain ⟨fl, f1, f2, f3, f4⟩ := planeSource_fields h3
  exact ⟨bd, fl, h1, f1, f2, by simp only [f3], f4⟩

/-- **C127.** The Bloch vector of a simulation with a plane-wave source that overwrites it is the wavevector of the wave along the axes
without absorbing layers, and zero along the others. -/
theorem bloch_of_source (g : EpsGrid sh) (dx : ℝ) (layers : List Int) (wlen : ℝ) (axis : Fin 3) (sl : Slc) (m : Aim)
    (border : List ℝ) (power : ℝ) (s : FieldT sh × Option (Fin 3 → ℝ)) (hp : GHeap) (dxes : DxRef) (bloch : Option (Fin 3 → ℂ))
    (solver : Mat3 sh.size → VField sh.size → VField sh.size)
    (h : planeNode g dx layers (2 * Real.pi / wlen) axis sl m border power true = some s) (b : Fin 3) :
    (Periodic (planeSim hp dxes wlen layers bloch solver s) b → (planeSim hp dxes wlen layers bloch solver s).bloch.getD 0 b =
      ((2 * Real.pi / wlen * Real.sqrt (epsVal g sl) * heading axis m b : ℝ) : ℂ)) ∧
    (¬ Periodic (planeSim hp dxes wlen layers bloch solver s) b → (planeSim hp dxes wlen layers bloch solver s).bloch.getD 0 b = 0) := by
  obtain ⟨bd, fl, _, _, _, h2, h3⟩ := planeNode_fields h
  have hB : (planeSim hp dxes wlen layers bloch solver s).bloch.getD 0 b = (zeroBloch layers fl.wavevector b : ℂ) := by
    simp [planeSim, h2]
  have hP : Periodic (planeSim hp dxes wlen layers bloch solver s) b ↔
      ¬ (layers.getD (2 * b.val) 0 ≠ 0 ∨ layers.getD (2 * b.val + 1) 0 ≠ 0) := by
    simp [Periodic, planeSim, thickness]
  constructor
  · intro hb
    rw [hB, zeroBloch, if_neg (hP.1 hb), h3]
    simp
  · intro hb
    rw [hB, zeroBloch, if_pos (by by_contra hc; exact hb (hP.2 hc)), Complex.ofReal_zero]

/-- **C127.** In the simulation the source emits to one side: at every cell outside the absorbing layers, the wave on the side of its
polarity and zero on the other side satisfies the equations of the simulation with its current, which is that of the source, also across the periodic
boundaries, except for what the wave itself leaves of them. The source reaches across the grid, in the permittivity it was computed with. -/
theorem source_in_simulation (g : EpsGrid sh) (dx : ℝ) (layers : List Int) (wlen : ℝ) (axis : Fin 3) (sl : Slc) (m : Aim)
    (border : List ℝ) (power : ℝ) (s : FieldT sh × Option (Fin 3 → ℝ)) (hp : GHeap) (dxes : DxRef) (bloch : Option (Fin 3 → ℂ))
    (solver : Mat3 sh.size → VField sh.size → VField sh.size) (hgood : GoodSim (planeSim hp dxes wlen layers bloch solver s))
    (hd : g.d = gridOf hp dxes) (h : planeNode g dx layers (2 * Real.pi / wlen) axis sl m border power true = some s)
    (hind : 1 ≤ planeIndex axis sl m.polarity) (hwhole : ∀ b, b ≠ axis → sl.lo b = 0 ∧ sl.hi b = sh b) (A : Mat3 sh.size)
    (hA : waveOp (planeSim hp dxes wlen layers bloch solver s) (vecF g.eps) = some A) :
    ∃ bd fl, axisBorder (nodeBorder dx border) = some bd ∧ planeFields g (2 * Real.pi / wlen) axis sl none m bd power = some fl ∧
      ∀ (a : Fin 3) (r : Cell sh), Clear (planeSim hp dxes wlen layers bloch solver s) r → 1 ≤ (r axis).val → (r axis).val + 1 < sh axis →
        (A *ᵥ vecF (oneSided axis m.polarity (planeIndex axis sl m.polarity) fl.E)) (a, pos r) =
          -Complex.I * (2 * Real.pi / wlen : ℝ) * (planeSim hp dxes wlen layers bloch solver s).J (a, pos r) +
            open Classical in if Lit m.polarity (planeIndex axis sl m.polarity) (r axis).val ∧
                (r axis).val ≠ planeIndex axis sl m.polarity ∧ (r axis).val + 1 ≠ planeIndex axis sl m.polarity
              then (A *ᵥ vecF fl.E) (a, pos r) else 0 := by
  obtain ⟨bd, fl, f0, f1, f2, f3, f4⟩ := planeNode_fields h
  refine ⟨bd, fl, f0, f1, fun a r hr h1 h2 => ?_⟩
  have hk : ∀ b, Periodic (planeSim hp dxes wlen layers bloch solver s) b →
      (planeSim hp dxes wlen layers bloch solver s).bloch.getD 0 b = ((fl.wavevector b : ℝ) : ℂ) := by
    intro b hb
    rw [(bloch_of_source g dx layers wlen axis sl m border power s hp dxes bloch solver h b).1 hb, f4]
    simp
  have hsim := fun E => simulated_wave hgood g.eps E (fun b => ((fl.wavevector b : ℝ) : ℂ)) A hA hk a r hr
  have hω : (2 * Real.pi / wlen : ℝ) ≠ 0 := by
    have := hgood.wlen
    have h0 : 0 < wlen := this
    have := Real.pi_pos
    positivity
  have hem := emits_one_way g (2 * Real.pi / wlen) hω axis sl m.polarity fl s.1 f2 hind hwhole a r h1 h2
  have e1 : gridOf (planeSim hp dxes wlen layers bloch solver s).hp (planeSim hp dxes wlen layers bloch solver s).dx = g.d := hd.symm
  have e2 : (planeSim hp dxes wlen layers bloch solver s).omega = ((2 * Real.pi / wlen : ℝ) : ℂ) := rfl
  have e3 : (planeSim hp dxes wlen layers bloch solver s).J (a, pos r) = s.1 a r := vecF_isVec s.1 a r
  rw [e1, e2] at hsim
  rw [hsim, hem, hsim, e3]

/-- **C127.** The Bloch factors of such a simulation are phases: stepping across the boundary of any axis does not change the
amplitude, also if other axes have absorbing layers. -/
theorem bloch_factor_phase (g : EpsGrid sh) (dx : ℝ) (layers : List Int) (wlen : ℝ) (axis : Fin 3) (sl : Slc) (m : Aim)
    (border : List ℝ) (power : ℝ) (s : FieldT sh × Option (Fin 3 → ℝ)) (hp : GHeap) (dxes : DxRef) (bloch : Option (Fin 3 → ℂ))
    (solver : Mat3 sh.size → VField sh.size → VField sh.size) (hgood : GoodSim (planeSim hp dxes wlen layers bloch solver s))
    (h : planeNode g dx layers (2 * Real.pi / wlen) axis sl m border power true = some s) (b : Fin 3) (r : Cell sh) :
    ‖upPhase (mesh (planeSim hp dxes wlen layers bloch solver s)).e ((planeSim hp dxes wlen layers bloch solver s).bloch.getD 0) b r‖ = 1 := by
  obtain ⟨b1, b2⟩ := bloch_of_source g dx layers wlen axis sl m border power s hp dxes bloch solver h b
  rw [upPhase]
  split
  · by_cases hb : Periodic (planeSim hp dxes wlen layers bloch solver s) b
    · rw [b1 hb, Complex.norm_exp]
      have him : (gridLength sh (mesh (planeSim hp dxes wlen layers bloch solver s)).e b).im = 0 := by
        rw [gridLength, Complex.im_sum]
        refine Finset.sum_eq_zero fun i hi => ?_
        rw [(mesh_periodic hgood b hb i (Finset.mem_range.mp hi)).1]
        exact Complex.conj_eq_iff_im.1 ((grid_real hgood).1 b i)
      rw [Complex.neg_re, Complex.I_mul_re, Complex.re_ofReal_mul |> fun _ => Complex.im_ofReal_mul, him]
      simp
    · rw [b2 hb]
      simp
  · simp

/-- **C127.** The wave continues across a periodic boundary: the value that the equations use beyond the last cell, the first cell times
the Bloch factor, is the plane wave one period further. -/
theorem wave_continues (g : EpsGrid sh) (omega : ℝ) (axis : Fin 3) (sl : Slc) (m : Aim) (power : ℝ)
    (hm : m.Valid) (hω : 0 < omega) (he : 0 < epsVal g sl) (fl : Fields sh)
    (h : vectorFields g none omega axis sl (planeScalar omega m.polarity (epsVal g sl)) m power = some fl) (b : Fin 3) (L : ℝ)
    (hL : gridLength sh g.d.e b = (L : ℂ)) (a : Fin 3) (c : Cell sh) (hc : (c b).val + 1 = sh b) :
    upPhase g.d.e (fun b => (fl.wavevector b : ℂ)) b c * fl.E a (nextCell b c) = (Real.sqrt power : ℂ) *
      Complex.exp (-Complex.I * ((∑ x, fl.wavevector x * (g.xyz a x (nextCell b c x).val + if x = b then L else 0) : ℝ) : ℂ)) *
        (polarization axis m a : ℂ) := by
  obtain ⟨_, hE⟩ := plane_wave_field g none omega axis sl m power hm hω he fl h
  rw [hE, upPhase, if_pos hc, hL]
  have hs : ∑ x, fl.wavevector x * (g.xyz a x (nextCell b c x).val + if x = b then L else 0) =
      (∑ x, fl.wavevector x * g.xyz a x (nextCell b c x).val) + fl.wavevector b * L := by
    simp [mul_add, Finset.sum_add_distrib]
  rw [hs]
  have hx : -Complex.I * (((∑ x, fl.wavevector x * g.xyz a x (nextCell b c x).val) + fl.wavevector b * L : ℝ) : ℂ) =
      -(Complex.I * ((fl.wavevector b : ℂ) * (L : ℂ))) + -Complex.I * ((∑ x, fl.wavevector x * g.xyz a x (nextCell b c x).val : ℝ) : ℂ) := by
    push_cast; ring
  rw [hx, Complex.exp_add]
  ring

/-! ### The border -/

/-- **C127.** Without a border nothing is tapered. -/
theorem border_none (dx : ℝ) : axisBorder (nodeBorder dx []) = some fun _ => 0 := by
  have h : nodeBorder dx [] = [0, 0, 0] := by simp [nodeBorder]
  rw [h, axisBorder, if_neg (by decide)]
  congr 1
  funext b
  fin_cases b <;> rfl

/-- **C127.** The border of a plane wave along z is, in x and y, the given width rounded down to cells. -/
theorem border_cells (dx bx bY : ℝ) (hdx : 0 < dx) (hx : 0 ≤ bx) (hy : 0 ≤ bY) :
    ∃ bd, axisBorder (nodeBorder dx [bx, bY]) = some bd ∧ (bd 0 : ℝ) * dx ≤ bx ∧ bx < (bd 0 + 1) * dx ∧
      (bd 1 : ℝ) * dx ≤ bY ∧ bY < (bd 1 + 1) * dx := by
  have key : ∀ t : ℝ, 0 ≤ t → ((⌊t / dx⌋.toNat : ℕ) : ℝ) * dx ≤ t ∧ t < ((⌊t / dx⌋.toNat : ℕ) + 1) * dx := by
    intro t ht
    have h0 : 0 ≤ ⌊t / dx⌋ := Int.floor_nonneg.2 (div_nonneg ht hdx.le)
    have hc : ((⌊t / dx⌋.toNat : ℕ) : ℝ) = (⌊t / dx⌋ : ℝ) := by
      have : ((⌊t / dx⌋.toNat : ℕ) : ℤ) = ⌊t / dx⌋ := Int.toNat_of_nonneg h0
      exact_mod_cast this
    rw [hc]
    exact ⟨(le_div_iff₀ hdx).1 (Int.floor_le _), (div_lt_iff₀ hdx).1 (Int.lt_floor_add_one _)⟩
  refine ⟨fun b => (nodeBorder dx [bx, bY]).getD b.val 0, by simp [axisBorder, nodeBorder], ?_⟩
  have e0 : (nodeBorder dx [bx, bY]).getD (0 : Fin 3).val 0 = ⌊bx / dx⌋.toNat := by simp [nodeBorder]
  have e1 : (nodeBorder dx [bx, bY]).getD (1 : Fin 3).val 0 = ⌊bY / dx⌋.toNat := by simp [nodeBorder]
  simp only [e0, e1]
  exact ⟨(key bx hx).1, (key bx hx).2, (key bY hy).1, (key bY hy).2⟩

/-- **C127.** A border of two widths does not taper a wave along x in z: the mask does not depend on z. -/
theorem border_x_false (dx b1 b2 : ℝ) (sl : Slc) (bd bd' : Fin 3 → Nat) (h : axisBorder (nodeBorder dx [b1, b2]) = some bd)
    (hc : checkBorder sl 0 bd = some bd') (c c' : Cell sh) (h1 : (c 1).val = (c' 1).val)
    (hin : ∀ b : Fin 3, b ≠ 0 → sl.lo b ≤ (c b).val ∧ (c b).val < sl.hi b)
    (hin' : ∀ b : Fin 3, b ≠ 0 → sl.lo b ≤ (c' b).val ∧ (c' b).val < sl.hi b) : makeMask sl 0 bd' c = makeMask sl 0 bd' c' := by
  have hb2 : bd 2 = 0 := by
    simp [axisBorder, nodeBorder] at h
    rw [← h]
    simp
  have hb2' : bd' 2 = 0 := by
    rw [checkBorder] at hc
    split at hc
    · rw [Option.some.injEq] at hc
      rw [← hc]
      simp [hb2]
    · cases hc
  have hz : ∀ n i : Nat, (maskCoords n 0)[i]?.getD 0 = 0 := by
    intro n i
    rw [maskCoords, if_neg (by simp), List.getElem?_replicate]
    split <;> rfl
  rw [makeMask, makeMask, if_pos hin, if_pos hin']
  simp [hb2', hz, h1]

/-- **C127.** With a border of a single width the source cannot be built. -/
theorem border_single_false (g : EpsGrid sh) (dx : ℝ) (layers : List Int) (omega : ℝ) (axis : Fin 3) (sl : Slc) (m : Aim) (b power : ℝ)
    (overwrite : Bool) : planeNode g dx layers omega axis sl m [b] power overwrite = none := by
  simp [planeNode, axisBorder, nodeBorder]

/-- **C127.** A source that does not overwrite the Bloch vector leaves the one of the simulation, whatever the angle of the wave. -/
theorem bloch_given (g : EpsGrid sh) (dx : ℝ) (layers : List Int) (omega wlen : ℝ) (axis : Fin 3) (sl : Slc) (m : Aim)
    (border : List ℝ) (power : ℝ) (s : FieldT sh × Option (Fin 3 → ℝ)) (hp : GHeap) (dxes : DxRef) (bloch : Option (Fin 3 → ℂ))
    (solver : Mat3 sh.size → VField sh.size → VField sh.size)
    (h : planeNode g dx layers omega axis sl m border power false = some s) :
    (planeSim hp dxes wlen layers bloch solver s).bloch = bloch := by
  obtain ⟨_, _, _, _, _, h2, _⟩ := planeNode_fields h
  simp [planeSim, h2]

/-! ### The hypotheses can be met -/

/-- A source can be built if its border fits and its plane is one cell thick. -/
theorem source_exists (g : EpsGrid sh) (dx : ℝ) (layers : List Int) (omega : ℝ) (axis : Fin 3) (sl : Slc) (m : Aim)
    (border : List ℝ) (power : ℝ) (overwrite : Bool) (bd bd' : Fin 3 → Nat) (h1 : axisBorder (nodeBorder dx border) = some bd)
    (h2 : checkBorder sl axis bd = some bd') (h3 : (shrink sl bd').hi axis - (shrink sl bd').lo axis = 1) :
    ∃ s, planeNode g dx layers omega axis sl m border power overwrite = some s := by
  obtain ⟨fl0, e0⟩ := vectorFields_exists g none omega axis sl (planeScalar omega m.polarity (epsVal g sl)) m power
  have hf : ∃ fl, planeFields g omega axis sl none m bd power = some fl := by
    rw [planeFields, e0, Option.bind_some, h2, Option.bind_some, transmission_value _ _ _ _ _ h3, Option.map_some]
    exact ⟨_, rfl⟩
  obtain ⟨fl, hfl⟩ := hf
  obtain ⟨J, hJ⟩ := current_exists g omega axis sl m.polarity fl
  exact ⟨(J, if overwrite then some (zeroBloch layers fl.wavevector) else none), by
    rw [planeNode, h1, Option.bind_some, planeWaveSource, hfl, Option.bind_some, hJ]; rfl⟩

/-- Two by two by eight cells. -/
def pillar : GHeap := ⟨[[1, 1], [1, 1, 1, 1, 1, 1, 1, 1]], [fun a => if a = 2 then 1 else 0]⟩

/-- A tilted wave in a pillar that is periodic in x and y and has a layer of one cell at both ends of z. -/
example : ∃ (g : EpsGrid ![2, 2, 8]) (s : FieldT ![2, 2, 8] × Option (Fin 3 → ℝ)) (sl : Slc) (m : Aim)
    (solver : Mat3 (Shape.size ![2, 2, 8]) → VField (Shape.size ![2, 2, 8]) → VField (Shape.size ![2, 2, 8])) (A : Mat3 (Shape.size ![2, 2, 8])) (r : Cell ![2, 2, 8]),
    g.d = gridOf pillar ⟨0, 0⟩ ∧ m.theta = 1 ∧ planeNode g 1 [0, 0, 0, 0, 1, 1] (2 * Real.pi / 5) 2 sl m [] 1 true = some s ∧
      GoodSim (planeSim pillar ⟨0, 0⟩ 5 [0, 0, 0, 0, 1, 1] none solver s) ∧ 1 ≤ planeIndex 2 sl m.polarity ∧
      (∀ b, b ≠ 2 → sl.lo b = 0 ∧ sl.hi b = (![2, 2, 8] : Shape) b) ∧
      waveOp (planeSim pillar ⟨0, 0⟩ 5 [0, 0, 0, 0, 1, 1] none solver s) (vecF g.eps) = some A ∧
      Clear (planeSim pillar ⟨0, 0⟩ 5 [0, 0, 0, 0, 1, 1] none solver s) r ∧ (r 2).val = planeIndex 2 sl m.polarity := by
  classical
  let g : EpsGrid ![2, 2, 8] := ⟨fun _ _ i => i, gridOf pillar ⟨0, 0⟩, fun _ _ => 2⟩
  let sl : Slc := ⟨![0, 0, 3], ![2, 2, 4]⟩
  let solver : Mat3 (Shape.size ![2, 2, 8]) → VField (Shape.size ![2, 2, 8]) → VField (Shape.size ![2, 2, 8]) :=
    fun A b => if h : ∃ x, A *ᵥ x = b then h.choose else 0
  have hbd : axisBorder (nodeBorder 1 []) = some fun b : Fin 3 => [0, 0, 0].getD b.val 0 := by simp [axisBorder, nodeBorder]
  have hch : checkBorder sl 2 (fun b : Fin 3 => [0, 0, 0].getD b.val 0) = some 0 := by
    have : (fun b : Fin 3 => if 2 * Function.update (fun b : Fin 3 => [0, 0, 0].getD b.val 0) 2 0 b < Slc.size sl b
        then Function.update (fun b : Fin 3 => [0, 0, 0].getD b.val 0) 2 0 b else 0) = 0 := by decide
    rw [checkBorder, if_pos (by decide), this]
  obtain ⟨s, hs⟩ := source_exists g 1 [0, 0, 0, 0, 1, 1] (2 * Real.pi / 5) 2 sl ⟨1, 1, 0, 0⟩ [] 1 true _ _ hbd hch (by decide)
  have hone : ∀ a, ∀ x ∈ pillar.read 0 a, x = 1 := by
    intro a x hx
    match a with
    | 0 => have : x ∈ ([1, 1] : List ℂ) := hx; simpa using this
    | 1 => have : x ∈ ([1, 1] : List ℂ) := hx; simpa using this
    | 2 => have : x ∈ ([1, 1, 1, 1, 1, 1, 1, 1] : List ℂ) := hx; simpa using this
  have hpos : ∀ (a : Fin 3), ∀ x ∈ pillar.read 0 a, x.im = 0 ∧ 0 < x.re := by
    intro a x hx
    rw [hone a x hx]; simp
  have hgood : GoodSim (planeSim pillar ⟨0, 0⟩ 5 [0, 0, 0, 0, 1, 1] none solver s) := by
    refine ⟨?_, ⟨by show 0 < 1; decide, by show 0 < 1; decide, ?_⟩, ⟨fun _ => rfl, hpos, hpos⟩, ?_, by show (0 : ℝ) < 5; norm_num, fun A b h => ?_⟩
    · intro a
      match a with
      | 0 => rfl
      | 1 => rfl
      | 2 => rfl
    · intro r hr a
      have hr' : r = fun a : Fin 3 => if a = 2 then 1 else 0 := by simpa [planeSim, pillar] using hr
      subst hr'
      match a with
      | 0 => show 0 < 2; decide
      | 1 => show 0 < 2; decide
      | 2 => show 1 < 2; decide
    · intro a
      match a with
      | 0 => show max (0 : Int) 0 + max 0 0 ≤ 2; decide
      | 1 => show max (0 : Int) 0 + max 0 0 ≤ 2; decide
      | 2 => show max (0 : Int) 1 + max 0 1 ≤ 8; decide
    · show A *ᵥ (if h : ∃ x, A *ᵥ x = b then h.choose else 0) = b
      rw [dif_pos h]
      exact h.choose_spec
  obtain ⟨K, hK, _⟩ := sim_system hgood
  have hidx : planeIndex 2 sl 1 = 3 := by rw [planeIndex, if_neg (by norm_num)]; decide
  refine ⟨g, s, sl, ⟨1, 1, 0, 0⟩, solver, _, fun b => match b with | 0 => (0 : Fin 2) | 1 => (1 : Fin 2) | 2 => (3 : Fin 8),
    rfl, rfl, hs, hgood, ?_, by decide, hK _, ?_, ?_⟩
  · show 1 ≤ planeIndex 2 sl 1
    rw [hidx]; decide
  · intro b
    match b with
    | 0 => exact Or.inl ⟨rfl, rfl⟩
    | 1 => exact Or.inl ⟨rfl, rfl⟩
    | 2 => exact Or.inr ⟨by decide, by decide, by show (1 : Int) + 1 ≤ 3; decide, by show (3 : Int) + 1 < 8; decide⟩
  · show 3 = planeIndex 2 sl 1
    rw [hidx]

end Verif.Fdfd.PlaneNode
