import Verif.Preproc.Model
import Verif.Forcing.Spec
import Verif.Forcing.Lemmas
import Mathlib.Tactic.FieldSimp
import Mathlib.Tactic.Linarith
import Mathlib.Tactic.NormNum

/-! # C45: preprocessing -/

namespace Verif.Preproc

open Verif.Forcing

set_option linter.unusedSectionVars false

noncomputable section

variable {ι : Type} [Fintype ι]

theorem rpow_half_sq {x : ℝ} (hx : 0 ≤ x) : (x ^ (1 / 2 : ℝ)) ^ 2 = x := by
  rw [← Real.sqrt_eq_rpow, Real.sq_sqrt hx]

theorem vec_smul (kx ky : ℝ) (c : ℝ) (rot : ℂ) :
    vecFromRot kx ky (c * rot) = (c * (vecFromRot kx ky rot).1, c * (vecFromRot kx ky rot).2) := by
  simp only [vecFromRot, Prod.mk.injEq]
  constructor <;> ring

/-- The vorticity recomputed from the velocity is the vorticity, except for its mean. -/
theorem rot_vec (kx ky c : ℝ) (rot : ℂ) :
    rotFromVec kx ky (c * (vecFromRot kx ky rot).1) (c * (vecFromRot kx ky rot).2)
      = if kx ^ 2 + ky ^ 2 = 0 then 0 else c * rot := by
  by_cases h : kx ^ 2 + ky ^ 2 = 0
  · have hx : kx = 0 := by nlinarith [sq_nonneg kx, sq_nonneg ky]
    have hy : ky = 0 := by nlinarith [sq_nonneg kx, sq_nonneg ky]
    subst hx; subst hy
    simp [rotFromVec]
  · have hc : (kx : ℂ) ^ 2 + (ky : ℂ) ^ 2 ≠ 0 := by exact_mod_cast h
    rw [if_neg h]
    simp only [rotFromVec, vecFromRot, k2not0, if_neg h]
    push_cast
    field_simp
    linear_combination (-(c : ℂ)) * rot * Complex.I_sq * ((kx : ℂ) ^ 2 + (ky : ℂ) ^ 2)

theorem energy_smul (w kx ky : ι → ℝ) (c : ℝ) (rot : ι → ℂ) :
    energy2d w kx ky (fun i => c * rot i) = c ^ 2 * energy2d w kx ky rot := by
  simp only [energy2d, sumK, vec_smul, Finset.mul_sum, norm_mul, Complex.norm_real, Real.norm_eq_abs]
  refine Finset.sum_congr rfl fun i _ => ?_
  rw [mul_pow, mul_pow, sq_abs]
  ring

theorem enstrophy_smul (w : ι → ℝ) (c : ℝ) (rot : ι → ℂ) :
    enstrophy2d w (fun i => c * rot i) = c ^ 2 * enstrophy2d w rot := by
  simp only [enstrophy2d, sumK, Finset.mul_sum, norm_mul, Complex.norm_real, Real.norm_eq_abs]
  refine Finset.sum_congr rfl fun i _ => ?_
  rw [mul_pow, sq_abs]
  ring

/-- The kinetic energy only depends on the modes which are not the mean. -/
theorem energy_congr {w kx ky : ι → ℝ} {r r' : ι → ℂ}
    (h : ∀ i, kx i ^ 2 + ky i ^ 2 ≠ 0 → r i = r' i) : energy2d w kx ky r = energy2d w kx ky r' := by
  simp only [energy2d, sumK]
  refine Finset.sum_congr rfl fun i _ => ?_
  by_cases hz : kx i ^ 2 + ky i ^ 2 = 0
  · have hx : kx i = 0 := by nlinarith [sq_nonneg (kx i), sq_nonneg (ky i)]
    have hy : ky i = 0 := by nlinarith [sq_nonneg (kx i), sq_nonneg (ky i)]
    simp [vecFromRot, hx, hy]
  · rw [h i hz]

/-- The state has only modes which are not truncated. -/
def Dealiased (mask : ι → Bool) (f : ι → ℂ) : Prop := ∀ i, mask i = true → f i = 0

/-- C45: for a state without buoyancy (ns2d, or ns2d.strat with `b = 0`), the normalised state has exactly the
requested energy. Missing: states with buoyancy, see `C45_energy_strat_violated`. -/
theorem C45_energy_partial (w kx ky : ι → ℝ) (N : ℝ) (mask : ι → Bool) {rot : ι → ℂ}
    (hd : Dealiased mask rot) {C : ℝ} (hC : 0 ≤ C) (hE : 0 < energy2d w kx ky rot) (Z P kf : ℝ) :
    ∃ s, normalize "energy" C (energyStrat w kx ky N rot 0) Z P kf kx ky mask (rot, 0) = .ok s ∧
      energyStrat w kx ky N s.1 s.2 = C ∧
      ∃ c : ℝ, 0 ≤ c ∧ ∀ i, kx i ^ 2 + ky i ^ 2 ≠ 0 → s.1 i = c * rot i := by
  have hE' : energyStrat w kx ky N rot 0 = energy2d w kx ky rot := by
    simp [energyStrat, sumK]
  rw [hE']
  set E := energy2d w kx ky rot with hEdef
  set c : ℝ := (C / E) ^ (1 / 2 : ℝ) with hc
  have hs : normalize "energy" C E Z P kf kx ky mask (rot, 0) = .ok (dealias mask (fun i =>
      rotFromVec (kx i) (ky i) (c * (vecFromRot (kx i) (ky i) (rot i)).1)
        (c * (vecFromRot (kx i) (ky i) (rot i)).2)), fun _ => 0) := by
    simp only [normalize, if_true, if_pos hE.ne', ← hc]
  refine ⟨_, hs, ?_, c, Real.rpow_nonneg (div_nonneg hC hE.le) _, ?_⟩
  · simp only [energyStrat]
    have h0 : sumK w (fun i : ι => (‖(0 : ℂ)‖ / N) ^ 2 / 2) = 0 := by simp [sumK]
    rw [h0, add_zero]
    have := energy_congr (w := w) (r' := fun i => c * rot i) (kx := kx) (ky := ky)
      (r := dealias mask (fun i =>
      rotFromVec (kx i) (ky i) (c * (vecFromRot (kx i) (ky i) (rot i)).1)
        (c * (vecFromRot (kx i) (ky i) (rot i)).2))) (by
          intro i hi
          simp only [dealias, rot_vec, if_neg hi]
          split
          · rename_i hm; rw [hd i hm, mul_zero]
          · rfl)
    rw [this, energy_smul, hc, rpow_half_sq (div_nonneg hC hE.le), ← hEdef]
    field_simp
  · intro i hi
    simp only [dealias, rot_vec, if_neg hi]
    split
    · rename_i hm; rw [hd i hm, mul_zero]
    · rfl

/-- C45: the enstrophy of the normalised state is the requested one. -/
theorem C45_enstrophy (w kx ky : ι → ℝ) (mask : ι → Bool) {rot : ι → ℂ} (b : ι → ℂ)
    (hd : Dealiased mask rot) {C : ℝ} (hC : 0 ≤ C) (hZ : 0 < enstrophy2d w rot) (E P kf : ℝ) :
    ∃ s, normalize "enstrophy" C E (enstrophy2d w rot) P kf kx ky mask (rot, b) = .ok s ∧
      enstrophy2d w s.1 = C := by
  set Z := enstrophy2d w rot with hZdef
  set c : ℝ := (C / Z) ^ (1 / 2 : ℝ) with hc
  have hdc : dealias mask (fun i => c * rot i) = fun i => c * rot i := by
    funext i
    simp only [dealias]
    split
    · rename_i hm; rw [hd i hm, mul_zero]
    · rfl
  refine ⟨(fun i => c * rot i, fun _ => 0), ?_, ?_⟩
  · simp only [normalize, if_pos hZ.ne', ← hc, hdc]
    rfl
  · show enstrophy2d w (fun i => c * rot i) = C
    rw [enstrophy_smul, hc, rpow_half_sq (div_nonneg hC hZ.le), ← hZdef]
    field_simp

/-- C45: with "enstrophy_forcing", the enstrophy of the normalised state is `C P^(2/3) k_f^(4/3)`. -/
theorem C45_enstrophy_forcing (w kx ky : ι → ℝ) (mask : ι → Bool) {rot : ι → ℂ} (b : ι → ℂ)
    (hd : Dealiased mask rot) {C P kf : ℝ} (hC : 0 ≤ C) (hP : 0 < P) (hk : 0 < kf)
    (hZ : 0 < enstrophy2d w rot) (E : ℝ) :
    ∃ s, normalize "enstrophy_forcing" C E (enstrophy2d w rot) P kf kx ky mask (rot, b) = .ok s ∧
      enstrophy2d w s.1 = C * (P ^ (2 / 3 : ℝ) * kf ^ (4 / 3 : ℝ)) := by
  set Z := enstrophy2d w rot with hZdef
  have hq : 0 < P ^ (2 / 3 : ℝ) * kf ^ (4 / 3 : ℝ) :=
    mul_pos (Real.rpow_pos_of_pos hP _) (Real.rpow_pos_of_pos hk _)
  set c : ℝ := (C / (Z / (P ^ (2 / 3 : ℝ) * kf ^ (4 / 3 : ℝ)))) ^ (1 / 2 : ℝ) with hc
  have hdc : dealias mask (fun i => c * rot i) = fun i => c * rot i := by
    funext i
    simp only [dealias]
    split
    · rename_i hm; rw [hd i hm, mul_zero]
    · rfl
  refine ⟨(fun i => c * rot i, fun _ => 0), ?_, ?_⟩
  · simp only [normalize, if_pos hZ.ne', ← hc, hdc]
    rfl
  · show enstrophy2d w (fun i => c * rot i) = _
    rw [enstrophy_smul, hc, rpow_half_sq (by positivity), ← hZdef]
    field_simp

/-- C45: "unity" does not change the state and other names are refused. -/
theorem C45_unity (C E Z P kf : ℝ) (kx ky : ι → ℝ) (mask : ι → Bool) (s : (ι → ℂ) × (ι → ℂ)) :
    normalize "unity" C E Z P kf kx ky mask s = .ok s ∧
    ∀ name, name ≠ "energy" → name ≠ "enstrophy" → name ≠ "enstrophy_forcing" → name ≠ "unity" →
      normalize name C E Z P kf kx ky mask s = .error "ValueError" := by
  constructor
  · simp only [normalize]; rfl
  · intro name h1 h2 h3 h4
    simp only [normalize, if_neg h1, if_neg h2, if_neg h3, if_neg h4]

/-- C45, finding: for ns2d.strat, a state with potential energy loses its buoyancy and does not get the
requested energy: it gets `C E_K / (E_K + E_A)`. -/
theorem C45_energy_strat_violated (w kx ky : ι → ℝ) (N : ℝ) (mask : ι → Bool) {rot b : ι → ℂ}
    (hd : Dealiased mask rot) {C : ℝ} (hC : 0 < C) (hK : 0 ≤ energy2d w kx ky rot)
    (hA : 0 < sumK w fun i => (‖b i‖ / N) ^ 2 / 2) (Z P kf : ℝ) :
    ∃ s, normalize "energy" C (energyStrat w kx ky N rot b) Z P kf kx ky mask (rot, b) = .ok s ∧
      s.2 = 0 ∧ energyStrat w kx ky N s.1 s.2
        = C * (energy2d w kx ky rot / energyStrat w kx ky N rot b) ∧
      energyStrat w kx ky N s.1 s.2 ≠ C := by
  set EK := energy2d w kx ky rot with hEK
  have hE : energyStrat w kx ky N rot b = EK + sumK w fun i => (‖b i‖ / N) ^ 2 / 2 := rfl
  have hEpos : 0 < energyStrat w kx ky N rot b := by rw [hE]; linarith
  set E := energyStrat w kx ky N rot b with hEdef
  set c : ℝ := (C / E) ^ (1 / 2 : ℝ) with hc
  have hs : normalize "energy" C E Z P kf kx ky mask (rot, b) = .ok (dealias mask (fun i =>
      rotFromVec (kx i) (ky i) (c * (vecFromRot (kx i) (ky i) (rot i)).1)
        (c * (vecFromRot (kx i) (ky i) (rot i)).2)), fun _ => 0) := by
    simp only [normalize, if_true, if_pos hEpos.ne', ← hc]
  have hval : energyStrat w kx ky N (dealias mask (fun i =>
      rotFromVec (kx i) (ky i) (c * (vecFromRot (kx i) (ky i) (rot i)).1)
        (c * (vecFromRot (kx i) (ky i) (rot i)).2))) (fun _ => 0) = C * (EK / E) := by
    simp only [energyStrat]
    have h0 : sumK w (fun i : ι => (‖(0 : ℂ)‖ / N) ^ 2 / 2) = 0 := by simp [sumK]
    rw [h0, add_zero]
    have := energy_congr (w := w) (r' := fun i => c * rot i) (kx := kx) (ky := ky)
      (r := dealias mask (fun i =>
      rotFromVec (kx i) (ky i) (c * (vecFromRot (kx i) (ky i) (rot i)).1)
        (c * (vecFromRot (kx i) (ky i) (rot i)).2))) (by
          intro i hi
          simp only [dealias, rot_vec, if_neg hi]
          split
          · rename_i hm; rw [hd i hm, mul_zero]
          · rfl)
    rw [this, energy_smul, hc, rpow_half_sq (div_nonneg hC.le hEpos.le), ← hEK]
    field_simp
  refine ⟨_, hs, rfl, hval, ?_⟩
  rw [hval]
  intro hcon
  have : EK / E = 1 := by
    have h1 : C * (EK / E - 1) = 0 := by linear_combination hcon
    have := (mul_eq_zero.mp h1).resolve_left hC.ne'
    linarith
  rw [div_eq_one_iff_eq hEpos.ne'] at this
  linarith [hE, hA]

/-- A state with one mode `k = (1, 0)`, vorticity 1 and buoyancy 1 (energy 1). -/
example : let w : Fin 1 → ℝ := fun _ => 1
    let kx : Fin 1 → ℝ := fun _ => 1
    let ky : Fin 1 → ℝ := fun _ => 0
    energy2d w kx ky (fun _ => 1) = 1 / 2 ∧ enstrophy2d w (fun _ => 1) = 1 / 2 ∧
    (sumK w fun _ => (‖(1 : ℂ)‖ / 1) ^ 2 / 2) = 1 / 2 ∧ Dealiased (fun _ : Fin 1 => false) (fun _ => 1) := by
  refine ⟨?_, ?_, ?_, ?_⟩
  · simp [energy2d, sumK, vecFromRot, k2not0]
  · simp [enstrophy2d, sumK]
  · simp [sumK]
  · intro i hi; simp at hi

/-! ### Viscosity -/

/-- C45: each requested viscosity is such that its damping rate is `1 / time_scale` at the wavenumber
`1 / length_scale`; the viscosities which are not requested are zero; a type without any known word is
refused. -/
theorem C45_viscosity {l time : ℝ} (hl : 0 < l) (contains : String → Bool) :
    ((∀ d ∈ dictVisc, contains d.1 = false) → calculViscosity l time contains = .error "ValueError") ∧
    (∀ d ∈ dictVisc, contains d.1 = true → ∃ res, calculViscosity l time contains = .ok res ∧
      res.map Prod.fst = ["nu_2", "nu_4", "nu_8", "nu_m4"] ∧
      ∀ r ∈ res, r.2.2 * (1 / l) ^ r.2.1 = 1 / time ∨ r.2.2 = 0) := by
  constructor
  · intro h
    rw [calculViscosity, if_pos]
    simpa using h
  · intro d hd hc
    have hany : ¬ ¬ dictVisc.any (fun d => contains d.1) := by
      rw [not_not, List.any_eq_true]
      exact ⟨d, hd, hc⟩
    refine ⟨_, by rw [calculViscosity, if_neg hany], rfl, ?_⟩
    intro r hr
    obtain ⟨d', _, rfl⟩ := List.mem_map.mp hr
    by_cases hc' : contains d'.1 = true
    · left
      simp only [hc', if_true]
      rw [one_div, inv_zpow]
      have := zpow_ne_zero d'.2.2 hl.ne'
      field_simp
    · right
      simp [hc']

/-- C45: each requested viscosity is positive and the word decides of the attribute. -/
theorem C45_viscosity_requested {l time : ℝ} (hl : 0 < l) (ht : 0 < time) (contains : String → Bool)
    {d : String × String × ℤ} (hd : d ∈ dictVisc) {res : List (String × ℤ × ℝ)}
    (h : calculViscosity l time contains = .ok res) :
    ∃ v, (d.2.1, d.2.2, v) ∈ res ∧ (contains d.1 = true → v = l ^ d.2.2 / time ∧ 0 < v) ∧
      (contains d.1 = false → v = 0) := by
  simp only [calculViscosity] at h
  split at h
  · simp at h
  · simp only [Except.ok.injEq] at h
    subst h
    refine ⟨_, List.mem_map.mpr ⟨d, hd, rfl⟩, ?_, ?_⟩
    · intro hc
      simp only [hc, if_true, true_and]
      exact div_pos (zpow_pos hl _) ht
    · intro hc; simp [hc]

/-- C45: at the dissipation wavenumber `k_max / (C π)`, where `k_max = π / Δx × coef_dealiasing` is the largest
resolved wavenumber, the damping rates `ν_2 k²`, `ν_4 k⁴`, `ν_8 k⁸` and `ν_m4 k⁻⁴` of the requested viscosities are
all equal to `1 / time_scale`; the other viscosities are zero. -/
theorem C45_viscosity_rate {C coef dx time : ℝ} (hC : 0 < C) (hcoef : 0 < coef) (hdx : 0 < dx)
    (contains : String → Bool) {res : List (String × ℤ × ℝ)}
    (h : calculViscosity (lengthScale C coef dx) time contains = .ok res) :
    let k := Real.pi / dx * coef / (C * Real.pi)
    ∃ nu2 nu4 nu8 num4 : ℝ,
      res.map (fun r => (r.1, r.2.2)) = [("nu_2", nu2), ("nu_4", nu4), ("nu_8", nu8), ("nu_m4", num4)] ∧
      nu2 * k ^ 2 = (if contains "laplacian" then 1 / time else 0) ∧
      nu4 * k ^ 4 = (if contains "hyper4" then 1 / time else 0) ∧
      nu8 * k ^ 8 = (if contains "hyper8" then 1 / time else 0) ∧
      num4 / k ^ 4 = (if contains "hypo" then 1 / time else 0) := by
  intro k
  have hk : 0 < k := by have := Real.pi_pos; positivity
  have hl : lengthScale C coef dx = k⁻¹ := by
    simp only [lengthScale, k, inv_div]
  rw [hl] at h
  simp only [calculViscosity] at h
  split at h
  · simp at h
  · simp only [Except.ok.injEq] at h
    subst h
    refine ⟨_, _, _, _, rfl, ?_, ?_, ?_, ?_⟩
    all_goals
      dsimp only
      split
      · simp only [zpow_ofNat, zpow_neg, inv_inv, inv_pow]
        field_simp
      · simp

/-- Laplacian and hyperviscosity of order 8 (the words of the type "laplacian+hyper8"). -/
example : ∃ res, calculViscosity (lengthScale 1 (2 / 3) 0.1) 3 (fun s => s == "laplacian" || s == "hyper8") = .ok res := by
  simp [calculViscosity, dictVisc]

/-- C45: for a positive enstrophy, energy or forcing rate, the time scale is positive. -/
theorem C45_time_scale {scale : String} {args : List ℝ} {l large time : ℝ} (hl : 0 < l) (hL : 0 < large)
    (ha : ∀ a ∈ args, 0 < a) (h : timeScale scale args l large = .ok time) : 0 < time := by
  rcases args with _ | ⟨a, rest⟩
  · simp [timeScale] at h
  · have h0 : 0 < a := ha a (by simp)
    have p1 : 0 < (a ^ (3 / 2 : ℝ)) ^ (-1 / 3 : ℝ) :=
      Real.rpow_pos_of_pos (Real.rpow_pos_of_pos h0 _) _
    have p2 : 0 < l ^ (2 / 3 : ℝ) := Real.rpow_pos_of_pos hl _
    simp only [timeScale] at h
    split at h
    · simp only [Except.ok.injEq] at h; rw [← h]; exact p1
    · split at h
      · simp only [Except.ok.injEq] at h; rw [← h]
        exact mul_pos (Real.rpow_pos_of_pos (by positivity) _) p2
      · split at h
        · rcases rest with _ | ⟨e, rest⟩
          · simp at h
          · simp only [Except.ok.injEq] at h; rw [← h]
            have he : 0 < e := ha e (by simp)
            exact lt_min p1 (mul_pos (Real.rpow_pos_of_pos he _) p2)
        · split at h
          · simp only [Except.ok.injEq] at h; rw [← h]
            exact mul_pos (Real.rpow_pos_of_pos h0 _) p2
          · simp at h

/-! ### Time -/

/-- C45: without preprocessing a simulation created from a file has the time and the iteration of the file.
Missing: with preprocessing. -/
theorem C45_time_partial (c : Clock) : simulInit (some c) false = c := rfl

/-- C45, finding: with preprocessing, the simulation created from a file restarts at time 0 and iteration 0,
whatever the time of the file is. -/
theorem C45_time_violated (c : Clock) (h : c.t ≠ 0) :
    (simulInit (some c) true).t = 0 ∧ (simulInit (some c) true).it = 0 ∧ simulInit (some c) true ≠ c := by
  refine ⟨rfl, rfl, ?_⟩
  intro hc
  exact h (by rw [← hc]; rfl)

end

end Verif.Preproc
