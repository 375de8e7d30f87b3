import Verif.Mat.MaterialProps
set_option linter.unusedVariables false
/-
Property C98, continued: the material of a plan (`_get_mat_index`, `goos.material.get_material`) and what the
tables say outside their data.
-/
namespace Verif.Mat
open Complex

/-- A wavelength with a given photon energy. -/
theorem energy_of (e : ℝ) (he : 0 < e) : photonEnergy (1239.841930092394328 / e) = e := by
  rw [energy_of_wavelength _ (by positivity)]
  rw [div_div_eq_mul_div]
  field_simp

/-! ### The material of a plan -/

/-- A given index is taken as it is, whatever name and file say: absorption is a negative imaginary part. -/
theorem index_given (files : String → Option Csv) (re im : ℝ) (name file : Option String) (wl : ℝ) :
    getMatIndex files ⟨some (re, im), name, file⟩ wl = some ⟨re, im⟩ ∧
    goosPermittivity ⟨some (re, im), name, file⟩ wl = spacePermittivity files ⟨some (re, im), name, file⟩ wl := by
  refine ⟨?_, rfl⟩
  simp only [getMatIndex]
  congr 1
  apply Complex.ext <;> simp

/-- The names that are known, and only those, stand for the four materials. -/
theorem names_known (s : String) :
    (matOfName s = some .air ↔ s = "Air" ∨ s = "air") ∧
    (matOfName s = some .sio2 ↔ s = "SiO2" ∨ s = "sio2" ∨ s = "sio") ∧
    (matOfName s = some .si ↔ s = "Si" ∨ s = "si") ∧
    (matOfName s = some .si3n4 ↔ s = "Si3N4" ∨ s = "sin" ∨ s = "si3n4" ∨ s = "SiN") ∧
    ((matOfName s).isSome → matOfName s = some .air ∨ matOfName s = some .sio2 ∨ matOfName s = some .si ∨
      matOfName s = some .si3n4) := by
  unfold matOfName
  simp only [List.mem_cons, List.not_mem_nil, or_false]
  by_cases h1 : s = "Air" ∨ s = "air"
  · rcases h1 with rfl | rfl <;> simp
  by_cases h2 : s = "SiO2" ∨ s = "sio2" ∨ s = "sio"
  · rcases h2 with rfl | rfl | rfl <;> simp
  by_cases h3 : s = "Si" ∨ s = "si"
  · rcases h3 with rfl | rfl <;> simp
  by_cases h4 : s = "Si3N4" ∨ s = "sin" ∨ s = "si3n4" ∨ s = "SiN"
  · rcases h4 with rfl | rfl | rfl | rfl <;> simp
  simp [h1, h2, h3, h4]

/-- A name that is not known, a file that cannot be found or misses a column, and a material without index, name
and file raise an error. -/
theorem index_raises (files : String → Option Csv) (wl : ℝ) :
    getMatIndex files ⟨none, none, none⟩ wl = none ∧
    (∀ s file, matOfName s = none → getMatIndex files ⟨none, some s, file⟩ wl = none) ∧
    (∀ f, files f = none → getMatIndex files ⟨none, none, some f⟩ wl = none) ∧
    (∀ f c, files f = some c → c.wl = none ∨ c.n = none → getMatIndex files ⟨none, none, some f⟩ wl = none) := by
  refine ⟨rfl, ?_, ?_, ?_⟩
  · intro s file h; simp [getMatIndex, h]
  · intro f h; simp [getMatIndex, h]
  · intro f c h hc
    rcases hc with hc | hc
    · simp [getMatIndex, h, matOfCsv, hc]
    · cases hw : c.wl <;> simp [getMatIndex, h, matOfCsv, hc, hw]

/-- A named material has the index of that material. -/
theorem name_index (files : String → Option Csv) (s : String) (file : Option String) (m : Medium) (hs : matOfName s = some m)
    (wl n k : ℝ) (h : refractiveIndex m wl = some (n, k)) : getMatIndex files ⟨none, some s, file⟩ wl = some (n : ℂ) := by
  simp [getMatIndex, hs, h]

/-- A file of increasing wavelengths in micrometres: at the wavelengths of the file, in nanometres, the index is
`n - i k` with the numbers of that line (`k = 0` if the file has no such column). -/
theorem file_samples (files : String → Option Csv) (f : String) (c : Csv) (hf : files f = some c) (um n k : List ℝ)
    (hw : c.wl = some um) (hn : c.n = some n) (hk : c.k.getD (um.map fun _ => 0) = k) (hd : GoodData um n k) (i : Nat)
    (hi : i < um.length) :
    getMatIndex files ⟨none, none, some f⟩ (1000 * um.getD i 0) = some ⟨n.getD i 0, -k.getD i 0⟩ := by
  have g : ∀ j, (um.map fun w => w * 1000).getD j 0 = um.getD j 0 * 1000 := by
    intro j
    rw [List.getD_eq_getElem?_getD, List.getElem?_map, List.getD_eq_getElem?_getD]
    cases um[j]? <;> simp
  have hd' : GoodData (um.map fun w => w * 1000) n k := by
    refine ⟨by simpa using hd.many, by simpa using hd.n_len, by simpa using hd.k_len, fun j hj => ?_⟩
    rw [g, g]
    have := hd.increasing j (by simpa using hj)
    linarith
  have s := custom_samples hd' i (by simpa using hi)
  rw [g, mul_comm] at s
  have hm : matOfCsv c = some (.custom (um.map fun w => w * 1000) n k) := by
    simp only [matOfCsv, hw, hn, Option.bind_some, Option.map_some, hk]
  simp only [getMatIndex, hf, Option.bind_some, hm, s, Option.map_some]
  congr 1
  apply Complex.ext <;> simp

example : getMatIndex (fun _ => some ⟨some [0.4, 0.5, 0.7], some [2, 3, 2.5], some [0.1, 0, 0]⟩) ⟨none, none, some "a.csv"⟩
    (1000 * 0.4) = some ⟨2, -0.1⟩ := by
  have hd : GoodData [0.4, 0.5, 0.7] [2, 3, 2.5] [0.1, 0, 0] := by
    refine ⟨by simp, rfl, rfl, fun i hi => ?_⟩
    simp only [List.length_cons, List.length_nil] at hi
    have : i = 0 ∨ i = 1 := by omega
    rcases this with rfl | rfl <;> norm_num
  have := file_samples (fun _ => some ⟨some [0.4, 0.5, 0.7], some [2, 3, 2.5], some [0.1, 0, 0]⟩) "a.csv" _ rfl
    [0.4, 0.5, 0.7] [2, 3, 2.5] [0.1, 0, 0] rfl rfl rfl hd 0 (by simp)
  simpa using this

/-! ### The absorption of named materials is lost -/

/-- The index of a named material is real: its extinction coefficient is dropped. -/
theorem named_index_real (files : String → Option Csv) (s : String) (file : Option String) (wl : ℝ) (z : ℂ)
    (h : getMatIndex files ⟨none, some s, file⟩ wl = some z) : z.im = 0 := by
  simp only [getMatIndex, Option.bind_eq_some_iff, Option.map_eq_some_iff] at h
  obtain ⟨m, _, p, _, rfl⟩ := h
  simp

/-- Silicon nitride at the wavelength of 5 eV (248 nm): the material's own permittivity absorbs, the permittivity
drawn in a simulation space does not. -/
theorem named_absorption_false (files : String → Option Csv) :
    ∃ wl, 0 < wl ∧ (∃ z, eps .si3n4 wl = some z ∧ z.im < 0) ∧
      ∃ z, spacePermittivity files ⟨none, some "SiN", none⟩ wl = some z ∧ z.im = 0 := by
  have e5 := energy_of 5 (by norm_num)
  obtain ⟨a, b, hr, h1, h2⟩ := tabulated_samples _ _ _ _ _ .si3n4 (1239.841930092394328 / 5)
  have t : sinEV.getD 31 0 = 5 ∧ sinN.getD 31 0 = 2.278 ∧ sinK.getD 31 0 = 0.0049 ∧ 31 < sinEV.length := by decide +kernel
  have ha := h1 31 t.2.2.2 (by rw [e5, t.1]; norm_num)
  have hb := h2 31 t.2.2.2 (by rw [e5, t.1]; norm_num)
  rw [t.2.1] at ha
  rw [t.2.2.1] at hb
  refine ⟨1239.841930092394328 / 5, by norm_num, ?_, ?_⟩
  · have ha0 : (0 : ℝ) ≤ a := by rw [ha]; norm_num
    have hb0 : (0 : ℝ) ≤ b := by rw [hb]; norm_num
    obtain ⟨z, hz, _, _, him, _⟩ := permittivity_passive _ _ _ _ hr ha0 hb0
    refine ⟨z, hz, ?_⟩
    rw [him, ha, hb]; norm_num
  · refine ⟨(a : ℂ) ^ 2, ?_, by simp [pow_two]⟩
    rw [spacePermittivity, name_index files "SiN" none .si3n4 (by simp [matOfName]) _ _ _ hr]
    rfl

/-! ### `goos` materials -/

/-- In `goos` a material given by its name or by a file has no permittivity: looking it up fails, although the
same description gives one to a simulation space of a plan. -/
theorem goos_name_false (files : String → Option Csv) (wl : ℝ) :
    (∀ name file, goosPermittivity ⟨none, name, file⟩ wl = none) ∧
    spacePermittivity files ⟨none, some "Air", none⟩ wl = some 1 := by
  refine ⟨fun _ _ => rfl, ?_⟩
  simp [spacePermittivity, getMatIndex, matOfName, refractiveIndex]

/-! ### What the tables say where there are no data -/

/-- The last 38 lines of the silica table, from 12.5 um on, hold the wavelength in micrometres where the index
should be: at the wavelengths of these lines the index is the wavelength, up to a thousandth. -/
theorem sio2_wavelength_false (i : Nat) (h1 : 500 ≤ i) (h2 : i < 538) (wl : ℝ)
    (hwl : photonEnergy wl = ((sio2En.getD i 0 : ℚ) : ℝ)) (h0 : 0 < wl) :
    ∃ n k, refractiveIndex .sio2 wl = some (n, k) ∧ |n - wl / 1000| ≤ 0.001 * (wl / 1000) := by
  have lens : sio2En.length = 538 := by decide +kernel
  have rows : ∀ j, j < 38 → |sio2N0.getD (500 + j) 0 * sio2En.getD (500 + j) 0 - 1.239841930092394328| ≤
      0.001 * 1.239841930092394328 := by decide +kernel
  obtain ⟨a, b, hr, hn, _⟩ := tabulated_samples _ _ _ _ _ .sio2 wl
  have ha := hn i (by rw [lens]; exact h2) hwl
  refine ⟨a, b, hr, ?_⟩
  have r := rows (i - 500) (by omega)
  rw [show 500 + (i - 500) = i by omega] at r
  have r' : |a * photonEnergy wl - 1.239841930092394328| ≤ 0.001 * 1.239841930092394328 := by
    rw [ha, hwl]
    have r2 := (Rat.cast_le (K := ℝ)).2 r
    push_cast at r2
    norm_num at r2 ⊢
    exact r2
  rw [energy_of_wavelength wl h0] at r'
  rw [abs_le] at r' ⊢
  have e : a * (1239.841930092394328 / wl) * wl = a * 1239.841930092394328 := by
    field_simp
  obtain ⟨r1, r2⟩ := r'
  have m1 := mul_le_mul_of_nonneg_right r1 h0.le
  have m2 := mul_le_mul_of_nonneg_right r2 h0.le
  rw [sub_mul, e] at m1 m2
  constructor <;> norm_num at m1 m2 ⊢ <;> linarith

theorem falls_le {e v : List ℝ} (h : GoodTable e v) (i j : Nat) (hij : i ≤ j) (hj : j < e.length) :
    e.getD j 0 ≤ e.getD i 0 := by
  induction j with
  | zero => rw [Nat.le_zero.1 hij]
  | succ j ih =>
    rcases Nat.lt_or_eq_of_le hij with hlt | heq
    · exact le_trans (h.decreasing j hj).le (ih (by omega) (by omega))
    · rw [heq]

/-- ... so that silica has an index of 12.5 and more at every wavelength from 12.5 um to 499 um. -/
theorem sio2_infrared_false (wl : ℝ) (h1 : 12500 ≤ wl) (h2 : wl ≤ 499000) :
    ∃ n k, refractiveIndex .sio2 wl = some (n, k) ∧ 12.5 ≤ n := by
  obtain ⟨t1, _, _, _⟩ := tables_good _ _ _ _ _ Tabulated.sio2
  have lens : sio2En.length = 538 := by decide +kernel
  have ends : sio2En.getD 537 0 ≤ 0.00248 ∧ 10000 ≤ sio2En.getD 0 0 ∧ sio2En.getD 500 0 = 0.09919 := by decide +kernel
  have rows : ∀ j, j < 38 → 12.5 ≤ sio2N0.getD (500 + j) 0 := by decide +kernel
  have h0 : 0 < wl := by linarith
  refine ⟨_, _, tabulated_index _ _ _ _ _ .sio2 wl, ?_⟩
  rw [energy_of_wavelength wl h0]
  have q1 : (0.00248 : ℝ) ≤ 1239.841930092394328 / wl := by rw [le_div_iff₀ h0]; norm_num; linarith
  have q2 : 1239.841930092394328 / wl < (0.09919 : ℝ) := by rw [div_lt_iff₀ h0]; norm_num; linarith
  set q := 1239.841930092394328 / wl
  have rng : InRange (real sio2En) q := by
    unfold InRange
    rw [real_getD, real_getD, real_length, lens]
    have e1 : ((sio2En.getD 537 0 : ℚ) : ℝ) ≤ 0.00248 := by
      have : ((sio2En.getD 537 0 : ℚ) : ℝ) ≤ ((0.00248 : ℚ) : ℝ) := by exact_mod_cast ends.1
      refine le_trans this (by norm_num)
    have e2 : (10000 : ℝ) ≤ ((sio2En.getD 0 0 : ℚ) : ℝ) := by exact_mod_cast ends.2.1
    exact ⟨le_trans e1 q1, by linarith⟩
  obtain ⟨i, hi, a, b⟩ := table_gap t1 q rng
  rw [real_length, lens] at hi
  have hi' : 500 ≤ i := by
    by_contra hc
    have := falls_le t1 (i + 1) 500 (by omega) (by rw [real_length, lens]; omega)
    rw [real_getD, ends.2.2] at this
    have e : (((0.09919 : ℚ)) : ℝ) = 0.09919 := by norm_num
    rw [e] at this
    linarith
  refine le_trans (le_min ?_ ?_) (table_between t1 i (by rw [real_length, lens]; exact hi) q a b).1
  · have := rows (i - 500) (by omega)
    rw [show 500 + (i - 500) = i by omega] at this
    rw [real_getD]
    have h : ((12.5 : ℚ) : ℝ) ≤ ((sio2N0.getD i 0 : ℚ) : ℝ) := by exact_mod_cast this
    refine le_trans (by norm_num) h
  · have := rows (i + 1 - 500) (by omega)
    rw [show 500 + (i + 1 - 500) = i + 1 by omega] at this
    rw [real_getD]
    have h : ((12.5 : ℚ) : ℝ) ≤ ((sio2N0.getD (i + 1) 0 : ℚ) : ℝ) := by exact_mod_cast this
    refine le_trans (by norm_num) h

theorem shape_le (a b t : ℝ) (ha : a ≤ 3) (hb : 0 ≤ b) (h0 : 0 ≤ t) (h1 : t ≤ 1) : shape a b t ≤ 1 - (1 - t) ^ 3 := by
  have e : 1 - (1 - t) ^ 3 - shape a b t = (3 - a) * (t * (1 - t) ^ 2) + b * (t ^ 2 * (1 - t)) := by
    unfold shape; ring
  have h2 : 0 ≤ 1 - t := by linarith
  have : 0 ≤ (3 - a) * (t * (1 - t) ^ 2) + b * (t ^ 2 * (1 - t)) := by
    have : 0 ≤ 3 - a := by linarith
    positivity
  linarith

/-- Silica is said to absorb from the near to the middle infrared: between the ultraviolet edge (7.8 eV) and the
first phonon line (0.16 eV) the table of the extinction coefficient has no line, and the interpolation puts a
slow decrease in the place of the transparency window. At 1.55 um the coefficient is 0.028, a power loss of
about one decibel per micrometre. -/
theorem sio2_transparent_false (wl : ℝ) (h1 : 1000 ≤ wl) (h2 : wl ≤ 7690) :
    ∃ n k, refractiveIndex .sio2 wl = some (n, k) ∧ 0.023 ≤ k ∧ (1550 ≤ wl → 0.028 ≤ k) := by
  obtain ⟨_, t2, _, _⟩ := tables_good _ _ _ _ _ Tabulated.sio2
  have lens : sio2Ek.length = 451 ∧ sio2K0.length = 451 := by decide +kernel
  have rows : sio2Ek.getD 375 0 = 7.8 ∧ sio2Ek.getD 376 0 = 0.1612 ∧ sio2K0.getD 375 0 = 0.0000047 ∧
      sio2K0.getD 376 0 = 0.0372 := by decide +kernel
  obtain ⟨r1, r2, r3, r4⟩ := rows
  have h0 : 0 < wl := by linarith
  refine ⟨_, _, tabulated_index _ _ _ _ _ .sio2 wl, ?_⟩
  rw [energy_of_wavelength wl h0]
  have q1 : (0.1612 : ℝ) ≤ 1239.841930092394328 / wl := by rw [le_div_iff₀ h0]; norm_num; linarith
  have q2 : 1239.841930092394328 / wl ≤ (1.24 : ℝ) := by rw [div_le_iff₀ h0]; norm_num; linarith
  have q3 : 1550 ≤ wl → 1239.841930092394328 / wl ≤ (0.8 : ℝ) := by
    intro h; rw [div_le_iff₀ h0]; norm_num; linarith
  set q := 1239.841930092394328 / wl
  have l' : (real sio2Ek).length = 451 := by rw [real_length]; exact lens.1
  obtain ⟨a, b, ha, ha3, hb, hb3, he⟩ := pchipAt_piece (real sio2Ek).length (fun i => (real sio2Ek).reverse.getD i 0)
    (fun i => (real sio2K0).reverse.getD i 0) (rev_increasing t2) 74 (by rw [l']; omega)
  have x0 : (real sio2Ek).reverse.getD 74 0 = 0.1612 := by
    rw [rev_getD _ _ (by rw [l']; omega), l', real_getD, show 451 - 1 - 74 = 376 by omega, r2]; norm_num
  have x1 : (real sio2Ek).reverse.getD 75 0 = 7.8 := by
    rw [rev_getD _ _ (by rw [l']; omega), l', real_getD, show 451 - 1 - 75 = 375 by omega, r1]; norm_num
  have y0 : (real sio2K0).reverse.getD 74 0 = 0.0372 := by
    rw [rev_getD _ _ (by rw [real_length, lens.2]; omega), real_getD, real_length, lens.2,
      show 451 - 1 - 74 = 376 by omega, r4]; norm_num
  have y1 : (real sio2K0).reverse.getD 75 0 = 0.0000047 := by
    rw [rev_getD _ _ (by rw [real_length, lens.2]; omega), real_getD, real_length, lens.2,
      show 451 - 1 - 75 = 375 by omega, r3]; norm_num
  have v := he q (by rw [x0]; exact q1) (by rw [x1]; linarith)
  rw [x0, x1, y0, y1] at v
  have v' : tableAt (real sio2Ek) (real sio2K0) q =
      0.0372 + (0.0000047 - 0.0372) * shape a b ((q - 0.1612) / (7.8 - 0.1612)) := v
  have sb : ∀ u : ℝ, q ≤ u → u ≤ 7.8 →
      shape a b ((q - 0.1612) / (7.8 - 0.1612)) ≤ 1 - (1 - (u - 0.1612) / (7.8 - 0.1612)) ^ 3 := by
    intro u hu hu'
    have t0 : 0 ≤ (q - 0.1612) / (7.8 - 0.1612) := div_nonneg (by linarith) (by norm_num)
    have tu : (q - 0.1612) / (7.8 - 0.1612) ≤ (u - 0.1612) / (7.8 - 0.1612) :=
      div_le_div_of_nonneg_right (by linarith) (by norm_num)
    have tu1 : (u - 0.1612) / (7.8 - 0.1612) ≤ 1 := by rw [div_le_one (by norm_num)]; linarith
    refine le_trans (shape_le a b _ ha3 hb t0 (le_trans tu tu1)) ?_
    have := pow_le_pow_left₀ (by linarith : 0 ≤ 1 - (u - 0.1612) / (7.8 - 0.1612))
      (by linarith : 1 - (u - 0.1612) / (7.8 - 0.1612) ≤ 1 - (q - 0.1612) / (7.8 - 0.1612)) 3
    linarith
  show 0.023 ≤ tableAt (real sio2Ek) (real sio2K0) q ∧ (1550 ≤ wl → 0.028 ≤ tableAt (real sio2Ek) (real sio2K0) q)
  rw [v']
  constructor
  · have := sb 1.24 q2 (by norm_num)
    norm_num at this ⊢
    linarith
  · intro h
    have := sb 0.8 (q3 h) (by norm_num)
    norm_num at this ⊢
    linarith

/-- The table of silicon has no line between 1.1 eV and 5 eV: from 248 nm to 1119 nm, all of the visible, the
index of the named material stays below 3.5361 and rises with the wavelength. -/
theorem si_visible (wl wl' : ℝ) (h1 : 248 ≤ wl) (hw : wl ≤ wl') (h2 : wl' ≤ 1119) :
    ∃ n k n' k', refractiveIndex .si wl = some (n, k) ∧ refractiveIndex .si wl' = some (n', k') ∧
      1.68 ≤ n ∧ n ≤ n' ∧ n' ≤ 3.5361 := by
  obtain ⟨t1, _, _, _⟩ := tables_good _ _ _ _ _ Tabulated.si
  have lens : siEn.length = 287 := by decide +kernel
  have rows : siEn.getD 245 0 = 5 ∧ siEn.getD 246 0 = 1.107 ∧ siN0.getD 245 0 = 1.68 ∧ siN0.getD 246 0 = 3.5361 := by
    decide +kernel
  obtain ⟨r1, r2, r3, r4⟩ := rows
  have h0 : 0 < wl := by linarith
  have h0' : 0 < wl' := by linarith
  have x0 : (real siEn).getD 245 0 = 5 := by rw [real_getD, r1]; norm_num
  have x1 : (real siEn).getD (245 + 1) 0 = 1.107 := by rw [real_getD, r2]; norm_num
  have y0 : (real siN0).getD 245 0 = 1.68 := by rw [real_getD, r3]; norm_num
  have y1 : (real siN0).getD (245 + 1) 0 = 3.5361 := by rw [real_getD, r4]; norm_num
  have q1 : (1.107 : ℝ) ≤ photonEnergy wl' := by
    rw [energy_of_wavelength _ h0', le_div_iff₀ h0']; norm_num; linarith
  have q2 : photonEnergy wl ≤ 5 := by rw [energy_of_wavelength _ h0, div_le_iff₀ h0]; norm_num; linarith
  have q3 : photonEnergy wl' ≤ photonEnergy wl := by
    rw [energy_of_wavelength _ h0, energy_of_wavelength _ h0']
    exact div_le_div_of_nonneg_left (by norm_num) h0 hw
  have hl : 245 + 1 < (real siEn).length := by rw [real_length, lens]; omega
  refine ⟨_, _, _, _, tabulated_index _ _ _ _ _ .si wl, tabulated_index _ _ _ _ _ .si wl', ?_, ?_, ?_⟩
  · have := (table_between t1 245 hl (photonEnergy wl) (by rw [x1]; linarith) (by rw [x0]; exact q2)).1
    rw [y0, y1, min_eq_left (by norm_num)] at this
    exact this
  · exact (table_monotone t1 245 hl _ _ (by rw [x1]; exact q1) q3 (by rw [x0]; exact q2)).2
      (by rw [y0, y1]; norm_num)
  · have := (table_between t1 245 hl (photonEnergy wl') (by rw [x1]; exact q1) (by rw [x0]; linarith)).2
    rw [y0, y1, max_eq_right (by norm_num)] at this
    exact this

/-- The file `Si_Aspnes.csv` of the package. -/
noncomputable def aspnes : Csv := ⟨some (real aspnesWl), some (real aspnesN), some (real aspnesK)⟩

/-- Silicon by its name and silicon by the file of measured data that comes with the package do not agree: at
every wavelength of the file from 288.3 nm (line 19) to its end the index of the file is above 3.67, that of the
name below 3.54. -/
theorem si_name_file_false (i : Nat) (h1 : 17 ≤ i) (h2 : i < 46) :
    ∃ wl z z', getMatIndex (fun _ => some aspnes) ⟨none, none, some "Si_Aspnes.csv"⟩ wl = some z ∧ 3.67 ≤ z.re ∧
      getMatIndex (fun _ => some aspnes) ⟨none, some "Si", none⟩ wl = some z' ∧ z'.re ≤ 3.5361 := by
  have lens : aspnesWl.length = 46 ∧ aspnesN.length = 46 ∧ aspnesK.length = 46 := by decide +kernel
  have mono : ∀ j, j < 45 → aspnesWl.getD j 0 < aspnesWl.getD (j + 1) 0 := by decide +kernel
  have rows : ∀ j, j < 29 → 3.67 ≤ aspnesN.getD (17 + j) 0 ∧ 0.248 ≤ aspnesWl.getD (17 + j) 0 ∧
      aspnesWl.getD (17 + j) 0 ≤ 1.119 := by decide +kernel
  have hd : GoodData (real aspnesWl) (real aspnesN) (real aspnesK) := by
    refine ⟨by rw [real_length, lens.1]; omega, by rw [real_length, real_length, lens.1, lens.2.1],
      by rw [real_length, real_length, lens.1, lens.2.2], fun j hj => ?_⟩
    rw [real_length, lens.1] at hj
    rw [real_getD, real_getD]
    exact_mod_cast mono j (by omega)
  have r := rows (i - 17) (by omega)
  rw [show 17 + (i - 17) = i by omega] at r
  have b1 : (0.248 : ℝ) ≤ (real aspnesWl).getD i 0 := by
    rw [real_getD]
    have : ((0.248 : ℚ) : ℝ) ≤ ((aspnesWl.getD i 0 : ℚ) : ℝ) := by exact_mod_cast r.2.1
    exact le_trans (by norm_num) this
  have b2 : (real aspnesWl).getD i 0 ≤ (1.119 : ℝ) := by
    rw [real_getD]
    have : ((aspnesWl.getD i 0 : ℚ) : ℝ) ≤ ((1.119 : ℚ) : ℝ) := by exact_mod_cast r.2.2
    exact le_trans this (by norm_num)
  obtain ⟨n, k, n', k', e, e', c1, c2, c3⟩ := si_visible (1000 * (real aspnesWl).getD i 0) (1000 * (real aspnesWl).getD i 0)
    (by linarith) (le_refl _) (by linarith)
  refine ⟨1000 * (real aspnesWl).getD i 0, _, _, file_samples _ "Si_Aspnes.csv" aspnes rfl _ _ _ rfl rfl rfl hd i
    (by rw [real_length, lens.1]; exact h2), ?_, name_index _ "Si" none .si (by simp [matOfName]) _ n k e, ?_⟩
  · show (3.67 : ℝ) ≤ (real aspnesN).getD i 0
    rw [real_getD]
    have : ((3.67 : ℚ) : ℝ) ≤ ((aspnesN.getD i 0 : ℚ) : ℝ) := by exact_mod_cast r.1
    exact le_trans (by norm_num) this
  · simp only [ofReal_re]; linarith

theorem edge_value (h0 h1 m0 m1 : ℝ) (hm0 : 0 < m0) (hm1 : 0 < m1) (hd : 0 < ((2 * h0 + h1) * m0 - h0 * m1) / (h0 + h1)) :
    edgeCase h0 h1 m0 m1 = ((2 * h0 + h1) * m0 - h0 * m1) / (h0 + h1) := by
  unfold edgeCase
  simp only []
  rw [sign_pos hd, sign_pos hm0, sign_pos hm1, if_neg (fun h => h rfl), if_neg (fun h => h.1 rfl)]

/-- Silicon nitride beyond its table, which ends at 1 eV (1240 nm): the continuation of the last piece stays
between 1.99 and 1.998 and has no loss, at every longer wavelength, 1550 nm included. -/
theorem si3n4_extrapolated (wl : ℝ) (h1 : 1240 ≤ wl) :
    ∃ n, refractiveIndex .si3n4 wl = some (n, 0) ∧ 1.99 ≤ n ∧ n ≤ 1.998 := by
  obtain ⟨t1, t2, _, _⟩ := tables_good _ _ _ _ _ Tabulated.si3n4
  have lens : sinEV.length = 42 ∧ sinN.length = 42 ∧ sinK.length = 42 := by decide +kernel
  have rows : sinEV.getD 41 0 = 1 ∧ sinEV.getD 40 0 = 1.5 ∧ sinEV.getD 39 0 = 2 ∧ sinN.getD 41 0 = 1.998 ∧
      sinN.getD 40 0 = 2.008 ∧ sinN.getD 39 0 = 2.022 ∧ sinK.getD 41 0 = 0 ∧ sinK.getD 40 0 = 0 ∧ sinK.getD 39 0 = 0 := by
    decide +kernel
  obtain ⟨r1, r2, r3, r4, r5, r6, r7, r8, r9⟩ := rows
  have h0 : 0 < wl := by linarith
  have lE : (real sinEV).length = 42 := by rw [real_length]; exact lens.1
  have getE : ∀ j v, j < 42 → sinEV.getD (41 - j) 0 = v → (real sinEV).reverse.getD j 0 = (v : ℝ) := by
    intro j v hj hv
    rw [rev_getD _ _ (by rw [lE]; exact hj), lE, real_getD, ← hv]
  have getN : ∀ j v, j < 42 → sinN.getD (41 - j) 0 = v → (real sinN).reverse.getD j 0 = (v : ℝ) := by
    intro j v hj hv
    rw [rev_getD _ _ (by rw [real_length, lens.2.1]; exact hj), real_getD, real_length, lens.2.1, ← hv]
  have getK : ∀ j v, j < 42 → sinK.getD (41 - j) 0 = v → (real sinK).reverse.getD j 0 = (v : ℝ) := by
    intro j v hj hv
    rw [rev_getD _ _ (by rw [real_length, lens.2.2]; exact hj), real_getD, real_length, lens.2.2, ← hv]
  have x0 := getE 0 1 (by omega) r1
  have x1 := getE 1 1.5 (by omega) r2
  have x2 := getE 2 2 (by omega) r3
  have n0 := getN 0 1.998 (by omega) r4
  have n1 := getN 1 2.008 (by omega) r5
  have n2 := getN 2 2.022 (by omega) r6
  have k0 := getK 0 0 (by omega) r7
  have k1 := getK 1 0 (by omega) r8
  have k2 := getK 2 0 (by omega) r9
  push_cast at x0 x1 x2 n0 n1 n2 k0 k1 k2
  have q1 : photonEnergy wl < 1 := by
    rw [energy_of_wavelength _ h0, div_lt_one h0]; norm_num; linarith
  have q0 : 0 < photonEnergy wl := by rw [energy_of_wavelength _ h0]; positivity
  rw [tabulated_index _ _ _ _ _ .si3n4 wl]
  set q := photonEnergy wl
  have hp : piece (real sinEV).length (fun i => (real sinEV).reverse.getD i 0) q = 0 :=
    piece_first _ _ (rev_increasing t1) q (by rw [lE]; omega) (by rw [x0]; exact q1)
  have vN : tableAt (real sinEV) (real sinN) q = 1.998 + 0.016 * (q - 1) + (0.008 + 0.002 / 1.5) * (q - 1) ^ 2 -
      0.004 / 1.5 * (q - 1) ^ 3 := by
    have m0 : mk (fun i => (real sinEV).reverse.getD i 0) (fun i => (real sinN).reverse.getD i 0) 0 = 0.02 := by
      unfold mk hk; simp only [Nat.zero_add, x0, x1, n0, n1]; norm_num
    have m1 : mk (fun i => (real sinEV).reverse.getD i 0) (fun i => (real sinN).reverse.getD i 0) 1 = 0.028 := by
      unfold mk hk; simp only [Nat.reduceAdd, x1, x2, n1, n2]; norm_num
    have g0 : hk (fun i => (real sinEV).reverse.getD i 0) 0 = 0.5 := by
      unfold hk; simp only [Nat.zero_add, x0, x1]; norm_num
    have g1 : hk (fun i => (real sinEV).reverse.getD i 0) 1 = 0.5 := by
      unfold hk; simp only [Nat.reduceAdd, x1, x2]; norm_num
    have s0 : slope 42 (fun i => (real sinEV).reverse.getD i 0) (fun i => (real sinN).reverse.getD i 0) 0 = 0.016 := by
      unfold slope
      rw [if_neg (by omega), if_pos rfl, m0, m1, g0, g1, edge_value _ _ _ _ (by norm_num) (by norm_num) (by norm_num)]
      norm_num
    have s1 : slope 42 (fun i => (real sinEV).reverse.getD i 0) (fun i => (real sinN).reverse.getD i 0) 1 = 0.07 / 3 := by
      unfold slope
      rw [if_neg (by omega), if_neg (by omega), if_neg (by omega), Nat.sub_self, m0, m1, g0, g1]
      unfold innerSlope
      rw [if_neg]
      · norm_num
      · rw [sign_pos (by norm_num), sign_pos (by norm_num)]; norm_num
    unfold tableAt pchipAt
    simp only [hp]
    rw [lE, Nat.zero_add, s0, s1, m0, g0, n0, x0]
    unfold hermite
    simp only []
    ring
  have vK : tableAt (real sinEV) (real sinK) q = 0 := by
    have m0 : mk (fun i => (real sinEV).reverse.getD i 0) (fun i => (real sinK).reverse.getD i 0) 0 = 0 := by
      unfold mk; simp only [Nat.zero_add, k0, k1]; norm_num
    obtain ⟨⟨a, _, _, s0⟩, b, _, _, s1⟩ := slope_mild (real sinEV).length (fun i => (real sinEV).reverse.getD i 0)
      (fun i => (real sinK).reverse.getD i 0) (rev_increasing t2) 0 (by rw [lE]; omega)
    rw [m0, mul_zero] at s0 s1
    unfold tableAt pchipAt
    simp only [hp]
    rw [s0, s1, m0, k0]
    unfold hermite
    simp
  refine ⟨_, by rw [vK], ?_, ?_⟩
  · rw [vN]
    nlinarith
  · rw [vN]
    nlinarith

end Verif.Mat
