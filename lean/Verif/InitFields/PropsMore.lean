import Verif.InitFields.PropsOther

/-! # C64: shapes of the initial fields, legacy files -/

set_option linter.unusedSectionVars false

namespace Verif.InitFields

open Verif.Fourier Verif.Energy Verif.Vectors Verif.Forcing Finset

noncomputable section

/-- C64: the gaussian of ad1d is in (0, 1], and its maximum 1 is reached only at the centre of the domain. -/
theorem C64_ad1d_gaussian_shape (n : Fin 1 → ℕ) (lx : ℝ) (old : State1 n) (j : Pt n) :
    0 < (initGaussian n lx old).phys j ∧ (initGaussian n lx old).phys j ≤ 1 ∧
      ((initGaussian n lx old).phys j = 1 ↔ lx * (j 0 : ℕ) / n 0 = lx / 2) := by
  simp only [initGaussian]
  refine ⟨Real.exp_pos _, ?_, ?_⟩
  · rw [Real.exp_le_one_iff]; nlinarith [sq_nonneg (10 * (lx * (j 0 : ℕ) / n 0 - lx / 2))]
  · rw [Real.exp_eq_one_iff, neg_eq_zero, pow_eq_zero_iff (by norm_num), mul_eq_zero, sub_eq_zero]
    norm_num

/-- C64: the vorticity of the jet at `Ly / 4` is 2, up to the tails of the neighbouring layers. -/
theorem C64_jet_amplitude (ly : ℝ) : |jet ly (ly / 4) - 2| ≤ 10 * Real.exp (-ly ^ 2) := by
  have e : jet ly (ly / 4) = 2 - 4 * Real.exp (-ly ^ 2) + 4 * Real.exp (-(2 * ly) ^ 2)
      - 2 * Real.exp (-(3 * ly) ^ 2) := by
    simp only [jet]
    rw [show -(((ly / 4 - ly / 2 + ly / 2 / 2) / 0.5) ^ 2) = 0 by ring,
      show -(((ly / 4 - ly / 2 - ly / 2 / 2) / 0.5) ^ 2) = -ly ^ 2 by ring,
      show -(((ly / 4 - ly / 2 + ly / 2 / 2 + ly) / 0.5) ^ 2) = -(2 * ly) ^ 2 by ring,
      show -(((ly / 4 - ly / 2 - ly / 2 / 2 + ly) / 0.5) ^ 2) = -ly ^ 2 by ring,
      show -(((ly / 4 - ly / 2 + ly / 2 / 2 - ly) / 0.5) ^ 2) = -(2 * ly) ^ 2 by ring,
      show -(((ly / 4 - ly / 2 - ly / 2 / 2 - ly) / 0.5) ^ 2) = -(3 * ly) ^ 2 by ring, Real.exp_zero]
    ring
  have h2 : Real.exp (-(2 * ly) ^ 2) ≤ Real.exp (-ly ^ 2) := Real.exp_le_exp.2 (by nlinarith [sq_nonneg ly])
  have h3 : Real.exp (-(3 * ly) ^ 2) ≤ Real.exp (-ly ^ 2) := Real.exp_le_exp.2 (by nlinarith [sq_nonneg ly])
  have p1 := Real.exp_pos (-ly ^ 2)
  have p2 := Real.exp_pos (-(2 * ly) ^ 2)
  have p3 := Real.exp_pos (-(3 * ly) ^ 2)
  rw [e, abs_le]
  constructor <;> linarith

/-- The two vortices of each image of the dipole, at the distance `b / 2 = 1.25` of its centre in the
direction `± (-sin θ, cos θ)`, have opposite vorticities `± (2 - 2 exp(-b²))`. -/
theorem C64_dipole_vortices (lx ly : ℝ) (ip jp : ℤ) :
    let θ := Real.pi / 2.3
    dipoleImage lx ly (lx / 2 + ip * lx - Real.sin θ * 1.25) (ly / 2 + jp * ly + Real.cos θ * 1.25) ip jp
        = 2 - 2 * Real.exp (-2.5 ^ 2) ∧
      dipoleImage lx ly (lx / 2 + ip * lx + Real.sin θ * 1.25) (ly / 2 + jp * ly - Real.cos θ * 1.25) ip jp
        = -(2 - 2 * Real.exp (-2.5 ^ 2)) := by
  intro θ
  have hs := Real.sin_sq_add_cos_sq θ
  have key : ∀ {X Y X' Y' : ℝ}, X = X' → Y = Y' → wz2LO X Y 2.5 = wz2LO X' Y' 2.5 := by
    rintro X Y X' Y' rfl rfl; rfl
  constructor
  · simp only [dipoleImage]
    rw [key (X' := 0) (Y' := 1.25) (by ring) (by linear_combination 1.25 * hs)]
    simp only [wz2LO]; norm_num
  · simp only [dipoleImage]
    rw [key (X' := 0) (Y' := -1.25) (by ring) (by linear_combination -1.25 * hs)]
    simp only [wz2LO]; norm_num

/-- C64: the dipole is the sum of nine translated images. -/
theorem C64_dipole_images (lx ly x y : ℝ) : dipole lx ly x y
    = ∑ ip ∈ ({-1, 0, 1} : Finset ℤ), ∑ jp ∈ ({-1, 0, 1} : Finset ℤ),
      dipoleImage lx ly (x - ip * lx) (y - jp * ly) 0 0 := by
  simp only [dipole]
  refine sum_congr rfl fun ip _ => sum_congr rfl fun jp _ => ?_
  simp only [dipoleImage]
  push_cast
  congr 1 <;> ring

/-- C64, ns2d.strat, "linear_mode": a block of modes along `kx`, `ky` which leaves the array in `ky` and is
still in the (transposed) range of the loops is refused with `IndexError`. -/
theorem C64_linear_mode_error {nky nkx ikx iky delta : ℕ} (hd : 0 < delta) (hx : ikx < nky)
    (hy : nky < iky + delta) (hy' : iky + delta ≤ nkx) (amplitude N : ℝ) :
    linearMode nky nkx (ikx, iky) delta amplitude N = .error "IndexError" := by
  have hmem : (iky + delta - 1, ikx) ∈ linearCells nky nkx (ikx, iky) delta := by
    rw [mem_linearCells]
    dsimp only
    omega
  simp only [linearMode]
  rw [if_neg]
  rw [List.all_eq_true]
  intro h
  have := h _ hmem
  simp only [decide_eq_true_eq] at this
  omega

example : (0 < 2 ∧ 3 < 8 ∧ 8 < 7 + 2 ∧ 7 + 2 ≤ 17) := by norm_num

/-- C64, type "from_file": when the file has no names of axes, or not the number of points of its first
axis, the numbers of points and the lengths along x and y are checked: a difference is refused with
`ValueError`, and success means equality. -/
theorem C64_from_file_legacy {A : Type} (zero : A) (params : String → Option ℝ) (needed : List String)
    (f : StateFile A) (s : SimState A)
    (ha : f.axes = none ∨ ∃ r rest, f.axes = some (r :: rest) ∧ f.oper.lookup ("n" ++ r) = none) :
    ((∃ s', fromFile zero params needed f s = .ok s') ↔
      ∀ r ∈ ["nx", "ny", "Lx", "Ly"], ∃ v, f.oper.lookup r = some v ∧ params r = some v) ∧
    ((∀ r ∈ ["nx", "ny", "Lx", "Ly"], ∃ v, f.oper.lookup r = some v) →
      ∀ r ∈ ["nx", "ny", "Lx", "Ly"], ∀ v, f.oper.lookup r = some v → params r ≠ some v →
        fromFile zero params needed f s = .error "ValueError") := by
  have hc : checkFile params f = checkLegacy params f.oper := by
    rcases ha with h | ⟨r, rest, h, hn⟩
    · simp only [checkFile, h]
    · simp only [checkFile, h, checkAxes, hn]
  constructor
  · constructor
    · rintro ⟨s', h⟩
      rw [fromFile, hc] at h
      cases hl : checkLegacy params f.oper with
      | error e => rw [hl] at h; simp at h
      | ok x => exact checkLegacy_ok hl
    · intro h
      obtain ⟨a, ha1, ha2⟩ := h "nx" (by simp)
      obtain ⟨b, hb1, hb2⟩ := h "ny" (by simp)
      obtain ⟨c, hc1, hc2⟩ := h "Lx" (by simp)
      obtain ⟨d, hd1, hd2⟩ := h "Ly" (by simp)
      rw [fromFile, hc]
      simp [checkLegacy, ha1, hb1, hc1, hd1, ha2, hb2, hc2, hd2]
  · intro hall r hr v hv hp
    obtain ⟨a, ha1⟩ := hall "nx" (by simp)
    obtain ⟨b, hb1⟩ := hall "ny" (by simp)
    obtain ⟨c, hc1⟩ := hall "Lx" (by simp)
    obtain ⟨d, hd1⟩ := hall "Ly" (by simp)
    have : checkLegacy params f.oper = .error "ValueError" := by
      simp only [checkLegacy, ha1, hb1, hc1, hd1]
      rw [if_pos]
      simp only [List.mem_cons, List.not_mem_nil, or_false] at hr
      rcases hr with rfl | rfl | rfl | rfl
      · rw [ha1] at hv; rw [Option.some.inj hv]; exact Or.inl hp
      · rw [hb1] at hv; rw [Option.some.inj hv]; exact Or.inr (Or.inl hp)
      · rw [hc1] at hv; rw [Option.some.inj hv]; exact Or.inr (Or.inr (Or.inl hp))
      · rw [hd1] at hv; rw [Option.some.inj hv]; exact Or.inr (Or.inr (Or.inr hp))
    rw [fromFile, hc, this]

end

end Verif.InitFields
