import Verif.Preproc.ModelRate
import Verif.Preproc.Props

/-! # C45: the preprocessing and the units; the Kolmogorov scale -/

namespace Verif.Preproc

noncomputable section

/-- The viscosities when the lengths are multiplied by `ℓ` and the times by `τ`: `ν` of order `n` is in `length ^ n / time`. -/
def otherUnits (ℓ τ : ℝ) (r : List (String × ℤ × ℝ)) : List (String × ℤ × ℝ) := r.map fun d => (d.1, d.2.1, d.2.2 * ℓ ^ d.2.1 / τ)

theorem rpow_scale {a ℓ : ℝ} (ha : 0 ≤ a) (hℓ : 0 ≤ ℓ) (x : ℝ) : (a * ℓ) ^ x = a ^ x * ℓ ^ x := Real.mul_rpow ha hℓ

theorem length_units {ℓ : ℝ} (C coef dx : ℝ) : lengthScale C coef (ℓ * dx) = ℓ * lengthScale C coef dx := by
  simp only [lengthScale, div_div_eq_mul_div, div_mul_eq_mul_div]
  ring

/-- Time scale of an enstrophy. -/
theorem time_enstrophy {Z τ : ℝ} (hZ : 0 ≤ Z) (hτ : 0 < τ) :
    ((Z / τ ^ 2) ^ (3 / 2 : ℝ)) ^ (-1 / 3 : ℝ) = τ * (Z ^ (3 / 2 : ℝ)) ^ (-1 / 3 : ℝ) := by
  rw [← Real.rpow_mul (by positivity), ← Real.rpow_mul hZ, Real.div_rpow hZ (by positivity), ← Real.rpow_natCast, ← Real.rpow_mul hτ.le]
  have : ((2 : ℕ) : ℝ) * (3 / 2 * (-1 / 3)) = -1 := by norm_num
  rw [this, Real.rpow_neg_one]
  field_simp

/-- Time scale of an energy dissipation. -/
theorem time_forcing {P l ℓ τ : ℝ} (hP : 0 ≤ P) (hl : 0 ≤ l) (hℓ : 0 < ℓ) (hτ : 0 < τ) :
    (P * ℓ ^ 2 / τ ^ 3) ^ (-1 / 3 : ℝ) * (ℓ * l) ^ (2 / 3 : ℝ) = τ * (P ^ (-1 / 3 : ℝ) * l ^ (2 / 3 : ℝ)) := by
  rw [Real.div_rpow (by positivity) (by positivity), Real.mul_rpow hP (by positivity), Real.mul_rpow hℓ.le hl]
  have h1 : (ℓ ^ 2) ^ (-1 / 3 : ℝ) = (ℓ ^ (2 / 3 : ℝ))⁻¹ := by
    rw [← Real.rpow_natCast, ← Real.rpow_mul hℓ.le, ← Real.rpow_neg hℓ.le]
    norm_num
  have h2 : (τ ^ 3) ^ (-1 / 3 : ℝ) = τ⁻¹ := by
    rw [← Real.rpow_natCast, ← Real.rpow_mul hτ.le, ← Real.rpow_neg_one]
    norm_num
  rw [h1, h2]
  have : ℓ ^ (2 / 3 : ℝ) ≠ 0 := (Real.rpow_pos_of_pos hℓ _).ne'
  field_simp

theorem calcul_units {ℓ τ l time : ℝ} (contains : String → Bool) :
    calculViscosity (ℓ * l) (τ * time) contains = (calculViscosity l time contains).map (otherUnits ℓ τ) := by
  simp only [calculViscosity]
  split
  · rfl
  · simp only [Except.map, otherUnits, List.map_map]
    congr 1
    refine List.map_congr_left fun d _ => ?_
    simp only [Function.comp]
    split
    · simp only [Prod.mk.injEq, true_and]
      rw [mul_zpow, mul_comm τ time, ← div_div]
      ring
    · simp

/-- C45: with the scales "enstrophy", "forcing" and "enstrophy_forcing", the viscosities set by the preprocessing follow the units: when
the same simulation is described with lengths multiplied by `ℓ` and times by `τ`, the viscosity of order `n` is multiplied by `ℓ ^ n / τ`. -/
theorem C45_units {scale : String} (hs : scale = "enstrophy" ∨ scale = "forcing" ∨ scale = "enstrophy_forcing")
    {E Z P C coef dx deltak ℓ τ : ℝ} (hZ : 0 ≤ Z) (hP : 0 ≤ P) (hC : 0 ≤ C) (hcoef : 0 ≤ coef) (hdx : 0 ≤ dx) (hℓ : 0 < ℓ) (hτ : 0 < τ)
    (nkmin nkmax : ℕ) (contains : String → Bool) :
    setViscosity scale (E * ℓ ^ 2 / τ ^ 2) (Z / τ ^ 2) (P * ℓ ^ 2 / τ ^ 3) C coef (ℓ * dx) (deltak / ℓ) nkmin nkmax contains
      = (setViscosity scale E Z P C coef dx deltak nkmin nkmax contains).map (otherUnits ℓ τ) := by
  have hl : 0 ≤ lengthScale C coef dx := by
    simp only [lengthScale]
    have := Real.pi_pos
    positivity
  have hk : forcingWavenumber (deltak / ℓ) nkmin nkmax = 0 ↔ forcingWavenumber deltak nkmin nkmax = 0 := by
    simp [forcingWavenumber, hℓ.ne']
  simp only [setViscosity, length_units, hk]
  rcases hs with rfl | rfl | rfl
  · simp only [viscosityArgs, if_true, bind, Except.bind]
    split
    · rfl
    · simp only [timeScale, if_true, time_enstrophy hZ hτ, calcul_units]
  · have e1 : ("forcing" = "enstrophy") = False := by decide
    have e2 : ("forcing" = "energy") = False := by decide
    have e3 : ("forcing" = "enstrophy_forcing") = False := by decide
    simp only [viscosityArgs, e1, e2, e3, if_true, if_false, bind, Except.bind]
    split
    · rfl
    · simp only [timeScale, e1, e2, e3, if_true, if_false, time_forcing hP hl hℓ hτ, calcul_units]
  · have e1 : ("enstrophy_forcing" = "enstrophy") = False := by decide
    have e2 : ("enstrophy_forcing" = "energy") = False := by decide
    simp only [viscosityArgs, e1, e2, if_true, if_false, bind, Except.bind]
    split
    · rfl
    · simp only [timeScale, e1, e2, if_true, if_false, time_enstrophy hZ hτ, time_forcing hP hl hℓ hτ,
          ← mul_min_of_nonneg _ _ hτ.le, calcul_units]

/-- C45: the wavenumber of the forcing used for the rate and for the scales is in the forced band, and at most half a mode from its
middle. -/
theorem C45_forcing_wavenumber {deltak : ℝ} (hk : 0 < deltak) {nkmin nkmax : ℕ} (h : nkmin ≤ nkmax) :
    deltak * nkmin ≤ forcingWavenumber deltak nkmin nkmax ∧ forcingWavenumber deltak nkmin nkmax ≤ deltak * nkmax ∧
      |forcingWavenumber deltak nkmin nkmax - (deltak * nkmin + deltak * nkmax) / 2| ≤ deltak / 2 := by
  simp only [forcingWavenumber]
  have h1 : nkmin ≤ (nkmax + nkmin) / 2 := by omega
  have h2 : (nkmax + nkmin) / 2 ≤ nkmax := by omega
  have h3 : nkmax + nkmin ≤ 2 * ((nkmax + nkmin) / 2) + 1 := by omega
  have h4 : 2 * ((nkmax + nkmin) / 2) ≤ nkmax + nkmin := by omega
  generalize (nkmax + nkmin) / 2 = q at *
  have e3 : (nkmax : ℝ) + nkmin ≤ 2 * q + 1 := by exact_mod_cast h3
  have e4 : (2 : ℝ) * q ≤ nkmax + nkmin := by exact_mod_cast h4
  refine ⟨mul_le_mul_of_nonneg_left (by exact_mod_cast h1) hk.le, mul_le_mul_of_nonneg_left (by exact_mod_cast h2) hk.le, abs_le.2 ⟨?_, ?_⟩⟩ <;>
    nlinarith

/-- C45 fails with the scale "energy" (finding): `epsilon = energy_0 * (1.5) / large_scale` (instead of `energy_0 ** 1.5`), so that the
viscosity depends on the unit of time. Here the time is counted in units 8 times smaller (`τ = 8`): the right viscosity is divided by 8,
the one which is set by 4. -/
theorem C45_energy_units_violated :
    let ν (E : ℝ) := setViscosity "energy" E 1 1 1 1 1 1 1 1 (· = "laplacian")
    ∃ a b : List (String × ℤ × ℝ), ν 1 = .ok a ∧ ν (1 * 1 ^ 2 / 8 ^ 2) = .ok b ∧ b ≠ otherUnits 1 8 a ∧
      ∃ r s : ℝ, a.head? = some ("nu_2", 2, r) ∧ b.head? = some ("nu_2", 2, s) ∧ s = r / 4 ∧ 0 < r := by
  have e1 : ("energy" = "enstrophy") = False := by decide
  have hk : forcingWavenumber 1 1 1 ≠ 0 := by norm_num [forcingWavenumber]
  have hl : lengthScale 1 1 1 = 1 := by
    simp only [lengthScale]
    field_simp [Real.pi_ne_zero]
  set L := Real.pi / forcingWavenumber 1 1 1 with hL
  have hLpos : 0 < L := div_pos Real.pi_pos (by norm_num [forcingWavenumber])
  set t : ℝ := (1 * (3 / 2) / L) ^ (-1 / 3 : ℝ) with ht
  have htpos : 0 < t := Real.rpow_pos_of_pos (by positivity) _
  have h4 : (1 * 1 ^ 2 / 8 ^ 2 * (3 / 2) / L) ^ (-1 / 3 : ℝ) = 4 * t := by
    have : (1 * 1 ^ 2 / 8 ^ 2 * (3 / 2) / L : ℝ) = (1 * (3 / 2) / L) * (4 ^ 3)⁻¹ := by ring
    rw [this, Real.mul_rpow (by positivity) (by positivity), ht, mul_comm]
    congr 1
    rw [Real.inv_rpow (by positivity), ← Real.rpow_natCast, ← Real.rpow_mul (by norm_num)]
    norm_num
  have hcalc : ∀ time : ℝ, calculViscosity 1 time (fun x => decide (x = "laplacian"))
      = .ok [("nu_2", 2, 1 / time), ("nu_4", 4, 0), ("nu_8", 8, 0), ("nu_m4", -4, 0)] := by
    intro time
    simp only [calculViscosity, dictVisc, List.any_cons, List.map_cons, List.map_nil, decide_true, Bool.true_or, not_true_eq_false, if_false,
      if_true, one_zpow]
    have n4 : ¬ ("hyper4" = "laplacian") := by decide
    have n8 : ¬ ("hyper8" = "laplacian") := by decide
    have nm : ¬ ("hypo" = "laplacian") := by decide
    simp [n4, n8, nm]
  have run : ∀ E time : ℝ, (E * (3 / 2) / L) ^ (-1 / 3 : ℝ) = time →
      setViscosity "energy" E 1 1 1 1 1 1 1 1 (· = "laplacian") = .ok [("nu_2", 2, 1 / time), ("nu_4", 4, 0), ("nu_8", 8, 0), ("nu_m4", -4, 0)] := by
    intro E time h
    simp only [setViscosity, viscosityArgs, e1, if_true, if_false, bind, Except.bind, if_neg hk, timeScale, hl, ← hL, h, Real.one_rpow, mul_one]
    exact hcalc time
  intro ν
  refine ⟨_, _, run 1 t rfl, run _ (4 * t) h4, ?_, 1 / t, 1 / (4 * t), rfl, rfl, by field_simp, by positivity⟩
  intro h
  simp only [otherUnits, List.map_cons, List.cons.injEq, Prod.mk.injEq, true_and] at h
  have := h.1
  field_simp at this
  norm_num at this

/-- C45: the forcing rate set from the energy or the enstrophy follows the units (an energy per unit time: `ℓ² / τ³`). -/
theorem C45_rate_units {scale : String} (hs : scale = "energy" ∨ scale = "enstrophy") {C E Z kf ℓ τ : ℝ} (hE : 0 ≤ E) (hZ : 0 ≤ Z)
    (hℓ : 0 < ℓ) (hτ : 0 < τ) :
    forcingRate scale C (E * ℓ ^ 2 / τ ^ 2) (Z / τ ^ 2) (kf / ℓ) = (forcingRate scale C E Z kf).map (· * ℓ ^ 2 / τ ^ 3) := by
  have h3 : ∀ x : ℝ, 0 < x → (x ^ 2) ^ (3 / 2 : ℝ) = x ^ 3 := fun x hx => by
    rw [← Real.rpow_natCast, ← Real.rpow_mul hx.le, ← Real.rpow_natCast]
    norm_num
  rcases hs with rfl | rfl
  · have e1 : ("energy" = "unity") = False := by decide
    simp only [forcingRate, e1, if_true, if_false, Except.map]
    rw [Real.div_rpow (by positivity) (by positivity), Real.mul_rpow hE (by positivity), h3 _ hℓ, h3 _ hτ]
    congr 1
    field_simp
  · have e1 : ("enstrophy" = "unity") = False := by decide
    have e2 : ("enstrophy" = "energy") = False := by decide
    have hk : kf / ℓ = 0 ↔ kf = 0 := by simp [hℓ.ne']
    simp only [forcingRate, e1, e2, hk, if_true, if_false]
    split
    · rfl
    · rename_i hk0
      simp only [Except.map]
      rw [Real.div_rpow hZ (by positivity), h3 _ hτ]
      congr 1
      field_simp

/-- C45: with the scale "forcing" every viscosity which is requested is such that the Kolmogorov scale `(ν³ / ε) ^ (1 / (3 n - 2))` of the
forcing rate `ε` is the length `viscosity_const * pi / k_max`. -/
theorem C45_kolmogorov {P C coef dx deltak : ℝ} (hP : 0 < P) (hC : 0 < C) (hcoef : 0 < coef) (hdx : 0 < dx) (E Z : ℝ) {nkmin nkmax : ℕ}
    {contains : String → Bool} {r : List (String × ℤ × ℝ)} (h : setViscosity "forcing" E Z P C coef dx deltak nkmin nkmax contains = .ok r)
    {attr : String} {n : ℤ} {ν : ℝ} (hν : (attr, n, ν) ∈ r) (hne : ν ≠ 0) :
    (ν ^ 3 / P) ^ (1 / (3 * n - 2) : ℝ) = C * Real.pi / (Real.pi / dx * coef) := by
  have e1 : ("forcing" = "enstrophy") = False := by decide
  have e2 : ("forcing" = "energy") = False := by decide
  have e3 : ("forcing" = "enstrophy_forcing") = False := by decide
  have hl : 0 < lengthScale C coef dx := by
    simp only [lengthScale]
    have := Real.pi_pos
    positivity
  change _ = lengthScale C coef dx
  simp only [setViscosity, viscosityArgs, e1, e2, e3, if_true, if_false, bind, Except.bind] at h
  split at h
  · cases h
  · simp only [timeScale, e1, e2, e3, if_true, if_false, calculViscosity] at h
    split at h
    · cases h
    · cases h
      obtain ⟨d, hd, hd'⟩ := List.mem_map.1 hν
      simp only [Prod.mk.injEq] at hd'
      obtain ⟨-, rfl, hv⟩ := hd'
      have hc : contains d.1 := by
        by_contra hc
        rw [if_neg (by simpa using hc)] at hv
        exact hne hv.symm
      rw [if_pos hc] at hv
      set l := lengthScale C coef dx
      have hcube : (P ^ (-1 / 3 : ℝ) * l ^ (2 / 3 : ℝ)) ^ 3 = P⁻¹ * l ^ 2 := by
        rw [mul_pow, ← Real.rpow_natCast, ← Real.rpow_natCast, ← Real.rpow_mul hP.le, ← Real.rpow_mul hl.le, ← Real.rpow_neg_one]
        norm_num
      have hval : ν ^ 3 / P = l ^ (3 * d.2.2 - 2 : ℝ) := by
        rw [← hv, div_pow, hcube, Real.rpow_sub hl, mul_comm (3 : ℝ), Real.rpow_mul hl.le, Real.rpow_intCast]
        rw [show (l ^ d.2.2) ^ (3 : ℝ) = (l ^ d.2.2) ^ (3 : ℕ) by rw [← Real.rpow_natCast]; norm_num,
          show l ^ (2 : ℝ) = l ^ (2 : ℕ) by rw [← Real.rpow_natCast]; norm_num]
        field_simp
      have hn : (3 * (d.2.2 : ℝ) - 2) ≠ 0 := by
        intro h0
        have : 3 * d.2.2 = 2 := by
          have : (3 * (d.2.2 : ℝ)) = 2 := by linarith
          exact_mod_cast this
        omega
      rw [hval, ← Real.rpow_mul hl.le, mul_one_div_cancel hn, Real.rpow_one]

/-- C45 fails for a forcing of the first modes (finding): with `nkmin_forcing = 0` and `nkmax_forcing = 1` the integer division gives a
forcing wavenumber 0 and the preprocessing stops with `ZeroDivisionError`, even when the viscosity does not depend on the forcing. -/
theorem C45_large_scale_violated (E Z P C coef dx deltak : ℝ) (contains : String → Bool) :
    setViscosity "enstrophy" E Z P C coef dx deltak 0 1 contains = .error "ZeroDivisionError" := by
  simp [setViscosity, viscosityArgs, forcingWavenumber, bind, Except.bind]

/-- The hypotheses of `C45_kolmogorov` are met: default parameters, one viscosity. -/
example : ∃ r, setViscosity "forcing" 0 0 1 1 (2 / 3) 1 1 4 5 (· = "hyper8") = .ok r ∧ ∃ ν ≠ 0, ("nu_8", 8, ν) ∈ r := by
  have e1 : ("forcing" = "enstrophy") = False := by decide
  have e2 : ("forcing" = "energy") = False := by decide
  have e3 : ("forcing" = "enstrophy_forcing") = False := by decide
  have hk : forcingWavenumber 1 4 5 ≠ 0 := by norm_num [forcingWavenumber]
  have hl : 0 < lengthScale 1 (2 / 3) 1 := by
    simp only [lengthScale]
    have := Real.pi_pos
    positivity
  simp only [setViscosity, viscosityArgs, e1, e2, e3, if_true, if_false, bind, Except.bind, if_neg hk, timeScale, calculViscosity, dictVisc]
  refine ⟨_, rfl, lengthScale 1 (2 / 3) 1 ^ (8 : ℤ) / (1 ^ (-1 / 3 : ℝ) * lengthScale 1 (2 / 3) 1 ^ (2 / 3 : ℝ)), ?_, ?_⟩
  · have := Real.rpow_pos_of_pos hl (2 / 3)
    have h8 := zpow_pos hl 8
    rw [Real.one_rpow]
    positivity
  · simp

end

end Verif.Preproc
