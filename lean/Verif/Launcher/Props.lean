import Verif.Launcher.Lemmas
import Mathlib.Tactic.Linarith
import Mathlib.Tactic.FieldSimp
import Mathlib.Tactic.Ring
import Mathlib.Tactic.Positivity

/-! # C72: theorems on the launcher -/

namespace Verif.Launcher

open Real
open Verif.ForcedRegion (kForcing checkNk)

variable {r3 : ℝ → ℝ} {a : Args} {p : Params}

/-- The grid is isotropic: the same mesh size, hence the same largest wavenumber, in the three directions; the domain
has `nh_forcing` forcing lengths horizontally. -/
theorem C72_grid (h : createParams r3 none a = .ok p) :
    p.nz = a.nz ∧ p.nx = a.ratioNhNz * p.nz ∧ p.ny = p.nx ∧ p.Lx = a.nhForcing ∧ p.Ly = p.Lx ∧
      p.Lx = a.ratioNhNz * p.Lz ∧ p.Lx / p.nx = p.Lz / p.nz ∧
      kNyquist p.nx p.Lx = kNyquist p.nz p.Lz ∧ kNyquist p.ny p.Ly = kNyquist p.nz p.Lz := by
  have f := facts h
  have r0 : (a.ratioNhNz : ℝ) ≠ 0 := by have := f.ratio; exact_mod_cast (by omega : a.ratioNhNz ≠ 0)
  have hn0 : (a.nhForcing : ℝ) ≠ 0 := by exact_mod_cast f.nh0
  have e1 : p.nz = a.nz := congrArg Params.nz f.eq
  have e2 : p.nx = a.nz * a.ratioNhNz := congrArg Params.nx f.eq
  have e3 : p.ny = a.nz * a.ratioNhNz := congrArg Params.ny f.eq
  have e4 : p.Lx = a.nhForcing := congrArg Params.Lx f.eq
  have e5 : p.Ly = a.nhForcing := congrArg Params.Ly f.eq
  have e6 : p.Lz = a.nhForcing / a.ratioNhNz := congrArg Params.Lz f.eq
  have ky : kNyquist p.nx p.Lx = kNyquist p.nz p.Lz := by
    rw [e1, e2, e4, e6, kNyquist, kNyquist]
    push_cast
    field_simp
  refine ⟨e1, by rw [e1, e2, mul_comm], by rw [e2, e3], e4, by rw [e4, e5], ?_, ?_, ky, by rw [e3, ← e2, e5, ← e4, ky]⟩
  · rw [e4, e6]; field_simp
  · rw [e1, e2, e4, e6]
    push_cast
    by_cases hz : (a.nz : ℝ) = 0
    · simp [hz]
    · field_simp

/-- The unit of the wavenumbers of the forcing is the vertical wavenumber step, `ratio_nh_nz` times the horizontal
one. -/
theorem C72_deltak (h : createParams r3 none a = .ok p) (hn : 0 < a.nhForcing) (nk : ℝ) :
    p.deltakz = a.ratioNhNz * p.deltakx ∧ kForcing [p.deltakx, p.deltaky, p.deltakz] nk = p.deltakz * nk := by
  have f := facts h
  have r1 : (1 : ℝ) ≤ a.ratioNhNz := by exact_mod_cast f.ratio
  have hn0 : (0 : ℝ) < a.nhForcing := by exact_mod_cast hn
  have e4 : p.Lx = a.nhForcing := congrArg Params.Lx f.eq
  have e5 : p.Ly = a.nhForcing := congrArg Params.Ly f.eq
  have e6 : p.Lz = a.nhForcing / a.ratioNhNz := congrArg Params.Lz f.eq
  have hpi := pi_pos
  have hx : 0 < p.deltakx := by rw [Params.deltakx, e4]; positivity
  have hyx : p.deltaky = p.deltakx := by rw [Params.deltaky, Params.deltakx, e4, e5]
  have hzx : p.deltakz = a.ratioNhNz * p.deltakx := by
    rw [Params.deltakz, Params.deltakx, e4, e6]
    field_simp
  refine ⟨hzx, ?_⟩
  have hle : p.deltakx ≤ p.deltakz := by rw [hzx]; nlinarith
  have hz : 0 ≤ p.deltakz := hx.le.trans hle
  simp only [kForcing, List.foldr_cons, List.foldr_nil, hyx]
  rw [max_eq_left hz, max_eq_right hle, max_eq_right hle]

/-- The waves of the targeted wavenumber have the asked frequency `F N`, their horizontal wavenumber is `nh_forcing`
horizontal steps, and the correlation time of the forcing is their period. -/
theorem C72_waves (h : createParams r3 none a = .ok p) :
    ∃ kf θ, sin θ = a.F ∧ p.N * sin θ = a.N * a.F ∧ kf * sin θ = a.nhForcing * p.deltakx ∧
      p.timeCorrelation = 2 * π / (p.N * sin θ) := by
  have f := facts h
  have hn0 : (a.nhForcing : ℝ) ≠ 0 := by exact_mod_cast f.nh0
  have e4 : p.Lx = a.nhForcing := congrArg Params.Lx f.eq
  have e7 : p.N = a.N := congrArg Params.N f.eq
  have e8 : p.timeCorrelation = 2 * π / (a.N * a.F) := congrArg Params.timeCorrelation f.eq
  have hF := f.F0
  refine ⟨2 * π / a.F, arcsin a.F, sin_arcsin' f.F1, by rw [sin_arcsin' f.F1, e7], ?_, by rw [sin_arcsin' f.F1, e7, e8]⟩
  rw [sin_arcsin' f.F1, Params.deltakx, e4]
  field_simp

/-- The angle given to the forcing is the one of the asked frequency up to half a thousandth of a radian. -/
theorem C72_angle (hr : IsRound3 r3) (h : createParams r3 none a = .ok p) :
    |p.angle - arcsin a.F| ≤ 1 / 2000 ∧ |p.deltaAngle - arcsin a.deltaF| ≤ 1 / 2000 ∧
      |p.N * sin p.angle - a.N * a.F| ≤ |a.N| / 2000 := by
  have f := facts h
  have e1 : p.angle = r3 (arcsin a.F) := congrArg Params.angle f.eq
  have e2 : p.deltaAngle = r3 (arcsin a.deltaF) := congrArg Params.deltaAngle f.eq
  have e7 : p.N = a.N := congrArg Params.N f.eq
  have n1 := hr.near (arcsin a.F)
  refine ⟨e1 ▸ n1, e2 ▸ hr.near _, ?_⟩
  have key : |sin p.angle - sin (arcsin a.F)| ≤ |p.angle - arcsin a.F| := by
    rw [sin_sub_sin]
    rw [abs_mul, abs_mul, abs_of_pos (by norm_num : (0 : ℝ) < 2)]
    have h1 := abs_cos_le_one ((p.angle + arcsin a.F) / 2)
    have h2 : |sin ((p.angle - arcsin a.F) / 2)| ≤ |(p.angle - arcsin a.F) / 2| := abs_sin_le_abs
    rw [abs_div, abs_of_pos (by norm_num : (0 : ℝ) < 2)] at h2
    have h3 := abs_nonneg (sin ((p.angle - arcsin a.F) / 2))
    nlinarith
  rw [sin_arcsin' f.F1] at key
  rw [e7, ← mul_sub, abs_mul]
  rw [e1] at key ⊢
  calc |a.N| * |sin (r3 (arcsin a.F)) - a.F| ≤ |a.N| * (1 / 2000) :=
        mul_le_mul_of_nonneg_left (key.trans n1) (abs_nonneg _)
    _ = |a.N| / 2000 := by ring

/-- The bounds of the forced region: `ratio_kfmin_kf` and `ratio_kfmax_kf` times the targeted wavenumber `2 pi / F`, up to
half a thousandth of `oper.deltak`, the second one being limited to the largest vertical wavenumber. -/
theorem C72_range (hr : IsRound3 r3) (h : createParams r3 none a = .ok p) (hn : 0 < a.nhForcing) (hF : 0 < a.F)
    (hmin : 0 ≤ a.ratioKfmin) :
    |p.deltakz * p.nkmin - a.ratioKfmin * (2 * π / a.F)| ≤ p.deltakz / 2000 ∧
      p.nkmax ≤ (a.nz / 2 : ℕ) ∧
      p.deltakz * p.nkmax ≤ a.ratioKfmax * (2 * π / a.F) + p.deltakz / 2000 ∧
      (p.nkmax < (a.nz / 2 : ℕ) → |p.deltakz * p.nkmax - a.ratioKfmax * (2 * π / a.F)| ≤ p.deltakz / 2000) := by
  have f := facts h
  have r1 : (1 : ℝ) ≤ a.ratioNhNz := by exact_mod_cast f.ratio
  have hn0 : (0 : ℝ) < a.nhForcing := by exact_mod_cast hn
  have e6 : p.Lz = a.nhForcing / a.ratioNhNz := congrArg Params.Lz f.eq
  have e9 : p.nkmin = max 0 (r3 (2 * π / a.F * a.ratioKfmin / (2 * π / (a.nhForcing / a.ratioNhNz)))) :=
    congrArg Params.nkmin f.eq
  have e10 : p.nkmax = min ((a.nz / 2 : ℕ) : ℝ) (r3 (2 * π / a.F * a.ratioKfmax / (2 * π / (a.nhForcing / a.ratioNhNz)))) :=
    congrArg Params.nkmax f.eq
  have hpi := pi_pos
  have hdk : 0 < p.deltakz := by rw [Params.deltakz, e6]; positivity
  have hdk' : 2 * π / (a.nhForcing / a.ratioNhNz) = p.deltakz := by rw [Params.deltakz, e6]
  rw [hdk'] at e9 e10
  have scale : ∀ x y : ℝ, |y - x / p.deltakz| ≤ 1 / 2000 → |p.deltakz * y - x| ≤ p.deltakz / 2000 := by
    intro x y hxy
    have : p.deltakz * y - x = p.deltakz * (y - x / p.deltakz) := by field_simp
    rw [this, abs_mul, abs_of_pos hdk]
    calc p.deltakz * |y - x / p.deltakz| ≤ p.deltakz * (1 / 2000) := mul_le_mul_of_nonneg_left hxy hdk.le
      _ = _ := by ring
  refine ⟨?_, ?_, ?_, ?_⟩
  · rw [mul_comm a.ratioKfmin]
    apply scale
    have h0 : 0 ≤ 2 * π / a.F * a.ratioKfmin / p.deltakz := by positivity
    have h1 : 0 ≤ r3 (2 * π / a.F * a.ratioKfmin / p.deltakz) := by
      have := hr.mono h0
      have e0 := hr.exact 0
      simp only [Int.cast_zero, zero_div] at e0
      rwa [e0] at this
    rw [e9, max_eq_right h1]
    exact hr.near _
  · rw [e10]; exact min_le_left _ _
  · have h1 := scale _ _ (hr.near (2 * π / a.F * a.ratioKfmax / p.deltakz))
    have h2 : p.nkmax ≤ r3 (2 * π / a.F * a.ratioKfmax / p.deltakz) := by rw [e10]; exact min_le_right _ _
    have h3 := (abs_le.1 h1).2
    have h4 := mul_le_mul_of_nonneg_left h2 hdk.le
    linarith [mul_comm a.ratioKfmax (2 * π / a.F)]
  · intro hlt
    rw [mul_comm a.ratioKfmax]
    apply scale
    have : p.nkmax = r3 (2 * π / a.F * a.ratioKfmax / p.deltakz) := by
      rw [e10] at hlt ⊢
      rcases min_choice ((a.nz / 2 : ℕ) : ℝ) (r3 (2 * π / a.F * a.ratioKfmax / p.deltakz)) with hm | hm
      · rw [hm] at hlt; exact absurd hlt (lt_irrefl _)
      · exact hm
    rw [this]
    exact hr.near _

/-- The range of the forcing is accepted by the forcing when it starts below the largest vertical wavenumber, and refused
when the whole range is beyond it. -/
theorem C72_resolved (hr : IsRound3 r3) (h : createParams r3 none a = .ok p) (hn : 0 < a.nhForcing) (hF : 0 < a.F)
    (hmin : 0 ≤ a.ratioKfmin) (hle : a.ratioKfmin ≤ a.ratioKfmax) :
    (a.ratioKfmin * (2 * π / a.F) ≤ p.deltakz * ((a.nz / 2 : ℕ) : ℝ) → checkNk p.nkmin p.nkmax = .ok ()) ∧
      (p.deltakz * ((a.nz / 2 : ℕ) + 1 / 2000) < a.ratioKfmin * (2 * π / a.F) →
        checkNk p.nkmin p.nkmax = .error "ValueError") := by
  have f := facts h
  have r1 : (1 : ℝ) ≤ a.ratioNhNz := by exact_mod_cast f.ratio
  have hn0 : (0 : ℝ) < a.nhForcing := by exact_mod_cast hn
  have e6 : p.Lz = a.nhForcing / a.ratioNhNz := congrArg Params.Lz f.eq
  have e9 : p.nkmin = max 0 (r3 (2 * π / a.F * a.ratioKfmin / (2 * π / (a.nhForcing / a.ratioNhNz)))) :=
    congrArg Params.nkmin f.eq
  have e10 : p.nkmax = min ((a.nz / 2 : ℕ) : ℝ) (r3 (2 * π / a.F * a.ratioKfmax / (2 * π / (a.nhForcing / a.ratioNhNz)))) :=
    congrArg Params.nkmax f.eq
  have hpi := pi_pos
  have hdk : 0 < p.deltakz := by rw [Params.deltakz, e6]; positivity
  have hdk' : 2 * π / (a.nhForcing / a.ratioNhNz) = p.deltakz := by rw [Params.deltakz, e6]
  rw [hdk'] at e9 e10
  have hx : 0 ≤ 2 * π / a.F * a.ratioKfmin / p.deltakz := by positivity
  have hxy : 2 * π / a.F * a.ratioKfmin / p.deltakz ≤ 2 * π / a.F * a.ratioKfmax / p.deltakz := by
    apply div_le_div_of_nonneg_right _ hdk.le
    exact mul_le_mul_of_nonneg_left hle (by positivity)
  have r0 : r3 0 = 0 := by have := hr.exact 0; simpa using this
  have hmin0 : 0 ≤ r3 (2 * π / a.F * a.ratioKfmin / p.deltakz) := by rw [← r0]; exact hr.mono hx
  rw [max_eq_right hmin0] at e9
  constructor
  · intro hres
    have h1 : 2 * π / a.F * a.ratioKfmin / p.deltakz ≤ ((a.nz / 2 : ℕ) : ℝ) := by
      rw [div_le_iff₀ hdk]; linarith [mul_comm a.ratioKfmin (2 * π / a.F)]
    have h2 := hr.mono h1
    have h3 : r3 ((a.nz / 2 : ℕ) : ℝ) = ((a.nz / 2 : ℕ) : ℝ) := by
      generalize a.nz / 2 = m
      have := hr.exact ((m : ℤ) * 1000)
      have e : (((m : ℤ) * 1000 : ℤ) : ℝ) / 1000 = (m : ℝ) := by
        rw [Int.cast_mul, Int.cast_natCast]; norm_num
      rwa [e] at this
    rw [checkNk, if_neg]
    rw [not_lt, e9, e10, le_min_iff]
    exact ⟨h3 ▸ h2, hr.mono hxy⟩
  · intro hun
    rw [checkNk, if_pos]
    have h1 : ((a.nz / 2 : ℕ) : ℝ) + 1 / 2000 < 2 * π / a.F * a.ratioKfmin / p.deltakz := by
      rw [lt_div_iff₀ hdk]; linarith [mul_comm a.ratioKfmin (2 * π / a.F)]
    have h2 := (abs_le.1 (hr.near (2 * π / a.F * a.ratioKfmin / p.deltakz))).1
    rw [e9, e10]
    exact lt_of_le_of_lt (min_le_left _ _) (by linarith)

/-- The viscosity: the given one, or the one of the given buoyancy Reynolds number, or of a buoyancy Reynolds number
equal to 5; both are refused. -/
theorem C72_viscosity (h : createParams r3 none a = .ok p) :
    (a.nu = none ∨ a.Rb = none) ∧ (∀ nu, a.nu = some nu → p.nu2 = nu) ∧
      (∀ Rb, a.nu = none → a.Rb.getD 5 = Rb → p.forcingRate / (p.nu2 * p.N ^ 2) = Rb) := by
  have f := facts h
  have e7 : p.N = a.N := congrArg Params.N f.eq
  have e8 : p.forcingRate = 1 := congrArg Params.forcingRate f.eq
  have hv := f.visc
  have hN := f.N0
  unfold viscosity at hv
  cases h1 : a.nu with
  | none =>
    refine ⟨.inl rfl, fun nu hh => by simp at hh, fun Rb _ hRb => ?_⟩
    cases h2 : a.Rb with
    | none =>
      simp only [h1, h2] at hv
      obtain ⟨-, hv⟩ := pydiv_ok hv
      rw [h2, Option.getD_none] at hRb
      rw [hv, e7, e8, injectionRate, ← hRb]
      field_simp
    | some R =>
      simp only [h1, h2] at hv
      obtain ⟨hne, hv⟩ := pydiv_ok hv
      rw [h2, Option.getD_some] at hRb
      have hR : R ≠ 0 := fun h0 => hne (by rw [h0]; ring)
      rw [hv, e7, e8, injectionRate, ← hRb]
      field_simp
  | some nu =>
    cases h2 : a.Rb with
    | some R => simp [h1, h2] at hv
    | none =>
      refine ⟨.inr rfl, fun nu' hh => ?_, fun Rb hh => by simp at hh⟩
      simp only [Option.some.injEq] at hh
      simp only [h1, h2, bind, Except.bind, pure, Except.pure] at hv
      split at hv
      · simp at hv
      · simp only [Except.ok.injEq] at hv; rw [← hv, hh]

/-- The hyperviscosity, when it is given or given by the order-4 buoyancy Reynolds number. -/
theorem C72_viscosity4 (h : createParams r3 none a = .ok p) :
    (a.nu4 = none ∨ a.Rb4 = none) ∧ (∀ nu4, a.nu4 = some nu4 → p.nu4 = nu4) ∧
      (∀ Rb4, a.Rb4 = some Rb4 → p.forcingRate / (p.nu4 * p.N ^ 4) = Rb4) := by
  have f := facts h
  have e7 : p.N = a.N := congrArg Params.N f.eq
  have e8 : p.forcingRate = 1 := congrArg Params.forcingRate f.eq
  have hv := f.visc4
  have hN := f.N0
  unfold viscosity4 at hv
  cases h1 : a.nu4 with
  | none =>
    refine ⟨.inl rfl, fun nu hh => by simp at hh, fun Rb hRb => ?_⟩
    simp only [h1, hRb] at hv
    obtain ⟨hne, hv⟩ := pydiv_ok hv
    have hR : Rb ≠ 0 := fun h0 => hne (by rw [h0]; ring)
    rw [hv, e7, e8, injectionRate]
    field_simp
  | some nu =>
    cases h2 : a.Rb4 with
    | some R => simp [h1, h2] at hv
    | none =>
      refine ⟨.inr rfl, fun nu' hh => ?_, fun Rb hh => by simp at hh⟩
      simp only [Option.some.injEq] at hh
      simp only [h1, h2, Except.ok.injEq] at hv
      rw [← hv, hh]

/-- Without order-4 argument: no hyperviscosity if the Kolmogorov scale is resolved, otherwise the hyperviscosity whose
dissipative wavenumber is the largest dealiased wavenumber (`coef_nu4 = 1`). -/
theorem C72_viscosity4_auto (h : createParams r3 none a = .ok p) (hn : 0 < a.nhForcing) (hz : 0 < a.nz)
    (hc : 0 < a.coefDealiasing) (h1 : a.nu4 = none) (h2 : a.Rb4 = none) :
    ∃ kmax, kmax = a.coefDealiasing * kNyquist p.nz p.Lz ∧ kmax = a.coefDealiasing * kNyquist p.nx p.Lx ∧ 0 < kmax ∧
      0 ≤ p.nu2 ∧
      ((p.nu2 ^ 3 / p.forcingRate) ^ (1 / 4 : ℝ) > 1 / kmax → p.nu4 = 0) ∧
      ((p.nu2 ^ 3 / p.forcingRate) ^ (1 / 4 : ℝ) ≤ 1 / kmax → p.nu4 = a.coefNu4 / kmax ^ (10 / 3 : ℝ) ∧
        (a.coefNu4 = 1 → (p.forcingRate / p.nu4 ^ 3) ^ (1 / 10 : ℝ) = kmax)) := by
  have f := facts h
  have g := C72_grid h
  have r1 : (1 : ℝ) ≤ a.ratioNhNz := by exact_mod_cast f.ratio
  have hn0 : (0 : ℝ) < a.nhForcing := by exact_mod_cast hn
  have hz0 : (0 : ℝ) < a.nz := by exact_mod_cast hz
  have e6 : p.Lz = a.nhForcing / a.ratioNhNz := congrArg Params.Lz f.eq
  have e1 : p.nz = a.nz := congrArg Params.nz f.eq
  have e8 : p.forcingRate = 1 := congrArg Params.forcingRate f.eq
  have hpi := pi_pos
  have hv := f.visc4
  unfold viscosity4 at hv
  simp only [h1, h2] at hv
  have ek : a.coefDealiasing * (2 * π / (a.nhForcing / a.ratioNhNz)) * a.nz / 2 = a.coefDealiasing * kNyquist p.nz p.Lz := by
    rw [kNyquist, e1, e6]; push_cast; ring
  rw [ek] at hv
  obtain ⟨kmax, hk⟩ : ∃ k, k = a.coefDealiasing * kNyquist p.nz p.Lz := ⟨_, rfl⟩
  have hkpos : 0 < kmax := by
    rw [hk, ← ek]; positivity
  rw [← hk] at hv
  by_cases hneg : p.nu2 < 0 ∨ kmax < 0
  · rw [if_pos hneg] at hv; simp at hv
  rw [if_neg hneg] at hv
  have hnu : 0 ≤ p.nu2 := by by_contra hh; exact hneg (.inl (not_le.1 hh))
  refine ⟨kmax, hk, by rw [hk, g.2.2.2.2.2.2.2.1], hkpos, hnu, fun hgt => ?_, fun hle => ?_⟩
  · rw [e8] at hgt
    rw [gt_iff_lt, div_lt_iff₀ hkpos] at hgt
    rw [injectionRate, if_pos hgt, Except.ok.injEq] at hv
    exact hv.symm
  · rw [e8, le_div_iff₀ hkpos] at hle
    rw [injectionRate, if_neg (not_lt.2 hle)] at hv
    have hkp : 0 < kmax ^ (10 / 3 : ℝ) := rpow_pos_of_pos hkpos _
    simp only [one_rpow, mul_one, bind, Except.bind, pure, Except.pure, pydiv_eq hkp.ne'] at hv
    have e : p.nu4 = a.coefNu4 / kmax ^ (10 / 3 : ℝ) := by
      split at hv
      · simp at hv
      · simp only [Except.ok.injEq] at hv; exact hv.symm
    refine ⟨e, fun hcoef => ?_⟩
    rw [e, hcoef, e8, div_pow, one_pow, one_div_one_div, ← rpow_natCast, ← rpow_mul hkpos.le, ← rpow_mul hkpos.le]
    norm_num

/-- Not true of the code: `coef_nu4` multiplies the computed hyperviscosity. With `coef_nu4 = 0` the script raises
ZeroDivisionError when the resolution is too coarse. -/
theorem C72_coef_nu4_violated (a : Args) (nu deltaKz : ℝ) (h1 : a.nu4 = none) (h2 : a.Rb4 = none) (h0 : a.coefNu4 = 0)
    (hnu : 0 ≤ nu) (hk : 0 < a.coefDealiasing * deltaKz * a.nz / 2)
    (hcoarse : (nu ^ 3) ^ (1 / 4 : ℝ) * (a.coefDealiasing * deltaKz * a.nz / 2) ≤ 1) :
    viscosity4 a nu deltaKz = .error .zeroDivision := by
  unfold viscosity4
  simp only [h1, h2, injectionRate, div_one]
  rw [if_neg (by push Not; exact ⟨hnu, hk.le⟩), if_neg (not_lt.2 hcoarse)]
  have hkp : 0 < (a.coefDealiasing * deltaKz * a.nz / 2) ^ (10 / 3 : ℝ) := rpow_pos_of_pos hk _
  simp only [one_rpow, mul_one, bind, Except.bind, pydiv_eq hkp.ne', h0]
  simp [pydiv]

/-- The time step follows the waves: at most a sixteenth of the buoyancy period, and it is positive. -/
theorem C72_deltat (h : createParams r3 none a = .ok p) (hN : 0 < a.N) :
    0 < p.deltatMax ∧ p.deltatMax ≤ 1 / 10 ∧ 16 * p.deltatMax ≤ 2 * π / p.N := by
  have f := facts h
  have e7 : p.N = a.N := congrArg Params.N f.eq
  have e : p.deltatMax = min (1 / 10) (2 * π / a.N / 16) := congrArg Params.deltatMax f.eq
  have hpi := pi_pos
  rw [e, e7]
  refine ⟨lt_min (by norm_num) (by positivity), min_le_left _ _, ?_⟩
  have := min_le_right (1 / 10) (2 * π / a.N / 16)
  linarith

/-- The other parameters are those of the arguments. -/
theorem C72_arguments (h : createParams r3 none a = .ok p) :
    p.N = a.N ∧ p.tEnd = a.tEnd ∧ p.projection = a.projection ∧ p.noVzKz0 = !a.disableNoVzKz0 ∧
      p.noShearModes = !a.disableNoShearModes ∧ p.coefDealiasing = a.coefDealiasing ∧ p.noiseVeloMax = a.initVeloMax ∧
      keysVersusKind a.forcedField = some p.keyForced ∧ p.noiseLength = p.Lz / 2 ∧
      p.probesRegion = (16 * a.ratioNhNz, 16 * a.ratioNhNz, 16) ∧
      p.periodSpatiotemporal = if a.spatiotemporal then some (2 * π / a.N / 8) else none := by
  have f := facts h
  have e6 : p.Lz = a.nhForcing / a.ratioNhNz := congrArg Params.Lz f.eq
  exact ⟨congrArg Params.N f.eq, congrArg Params.tEnd f.eq, congrArg Params.projection f.eq,
    congrArg Params.noVzKz0 f.eq, congrArg Params.noShearModes f.eq, congrArg Params.coefDealiasing f.eq,
    congrArg Params.noiseVeloMax f.eq, f.key, by rw [e6]; exact congrArg Params.noiseLength f.eq,
    congrArg Params.probesRegion f.eq, congrArg Params.periodSpatiotemporal f.eq⟩

/-- Wrong arguments are refused: a ratio smaller than 1, an unknown forced field, a viscosity and a buoyancy Reynolds
number, two hyperviscosities, no stratification, a frequency equal to zero or larger than `N`. -/
theorem C72_refused (h : a.ratioNhNz < 1 ∨ keysVersusKind a.forcedField = none ∨ (a.nu ≠ none ∧ a.Rb ≠ none) ∨
    (a.nu4 ≠ none ∧ a.Rb4 ≠ none) ∨ a.N = 0 ∨ a.F = 0 ∨ 1 < |a.F| ∨ 1 < |a.deltaF| ∨ a.nhForcing = 0 ∨ a.Rb = some 0) :
    ¬ ∃ p, createParams r3 none a = .ok p := by
  rintro ⟨p, hp⟩
  have f := facts hp
  rcases h with h | h | ⟨h, h'⟩ | ⟨h, h'⟩ | h | h | h | h | h | h
  · have := f.ratio; omega
  · have := f.key; rw [h] at this; simp at this
  · rcases (C72_viscosity hp).1 with h'' | h''
    · exact h h''
    · exact h' h''
  · rcases (C72_viscosity4 hp).1 with h'' | h''
    · exact h h''
    · exact h' h''
  · exact f.N0 h
  · exact f.F0 h
  · exact absurd f.F1 (not_le.2 h)
  · exact absurd f.dF1 (not_le.2 h)
  · exact f.nh0 h
  · have hv := f.visc
    unfold viscosity at hv
    cases h1 : a.nu with
    | none => simp [h1, h, pydiv] at hv
    | some nu => simp [h1, h] at hv

/-- The code of `--modify-params` is applied to the parameters computed from the other arguments. -/
theorem C72_modify (m : Params → Except Err Params) (q : Params) :
    createParams r3 (some m) a = .ok q ↔ ∃ p, createParams r3 none a = .ok p ∧ m p = .ok q := by
  have key : createParams r3 (some m) a = (createParams r3 none a).bind m := by
    unfold createParams
    by_cases hr : a.ratioNhNz < 1
    · rw [if_pos hr, if_pos hr]; rfl
    rw [if_neg hr, if_neg hr]
    simp only [bind, Except.bind, pure, Except.pure]
    repeat' split
    all_goals first | rfl | simp_all
  rw [key]
  cases hc : createParams r3 none a with
  | error e => simp [Except.bind]
  | ok p => simp [Except.bind]

/-- The default arguments are accepted: the grid 128 x 128 x 32 in a box 3 x 3 x 0.75, the range [1.25, 5] of the forcing,
a viscosity 0.002 and no hyperviscosity. -/
theorem C72_default (hr : IsRound3 r3) : ∃ p, createParams r3 none Args.default = .ok p ∧ p.nx = 128 ∧ p.ny = 128 ∧
    p.nz = 32 ∧ p.Lx = 3 ∧ p.Lz = 3 / 4 ∧ p.nkmin = 5 / 4 ∧ p.nkmax = 5 ∧ p.nu2 = 1 / 500 ∧ p.nu4 = 0 ∧
    p.keyForced = "vp_fft" ∧ checkNk p.nkmin p.nkmax = .ok () := by
  have hpi := pi_pos
  have habs : |Args.default.F| ≤ 1 := by rw [Args.default, abs_of_pos] <;> norm_num
  have habs' : |Args.default.deltaF| ≤ 1 := by rw [Args.default, abs_of_pos] <;> norm_num
  have hv : viscosity Args.default = .ok (1 / 500) := by
    simp only [viscosity, Args.default, injectionRate]
    rw [pydiv_eq (by norm_num)]
    norm_num
  have hv4 : viscosity4 Args.default (1 / 500) (2 * π / (3 / 4)) = .ok 0 := by
    simp only [viscosity4, Args.default, injectionRate, div_one]
    have hk : (8 / 10 * (2 * π / (3 / 4)) * ((32 : ℕ) : ℝ) / 2) = 512 / 15 * π := by push_cast; ring
    rw [hk]
    rw [if_neg (by push Not; exact ⟨by norm_num, by positivity⟩), if_pos]
    have h4 : (1 : ℝ) < (1 / 500) ^ 3 * (512 / 15 * π) ^ 4 := by
      have h314 := pi_gt_d2
      have : (512 / 15 * 3.14 : ℝ) ^ 4 ≤ (512 / 15 * π) ^ 4 := by
        apply pow_le_pow_left₀ (by norm_num); linarith
      nlinarith [this]
    have hb : (0 : ℝ) ≤ ((1 / 500 : ℝ) ^ 3) ^ (1 / 4 : ℝ) * (512 / 15 * π) := by positivity
    have hpow : (((1 / 500 : ℝ) ^ 3) ^ (1 / 4 : ℝ) * (512 / 15 * π)) ^ 4 = (1 / 500) ^ 3 * (512 / 15 * π) ^ 4 := by
      rw [mul_pow, ← rpow_natCast (((1 / 500 : ℝ) ^ 3) ^ (1 / 4 : ℝ)) 4, ← rpow_mul (by norm_num)]
      norm_num
    by_contra hcon
    have hcon' := not_lt.1 hcon
    have := pow_le_one₀ (n := 4) hb hcon'
    rw [hpow] at this
    linarith
  have hL : ((Args.default.nhForcing : ℤ) : ℝ) * 1 / ((Args.default.ratioNhNz : ℤ) : ℝ) = 3 / 4 := by
    simp only [Args.default]; norm_num
  have hkey : keysVersusKind Args.default.forcedField = some "vp_fft" := rfl
  have hx : ∀ x : ℝ, 2 * π / 1 / (3 / 10) * x / (2 * π / (3 / 4)) = 5 / 2 * x := by
    intro x; field_simp; ring
  have h1 : r3 (5 / 2 * (1 / 2)) = 5 / 4 := by
    have := hr.exact 1250; push_cast at this
    rw [show (5 / 2 * (1 / 2) : ℝ) = 1250 / 1000 by norm_num, this]; norm_num
  have h2 : r3 (5 / 2 * 2) = 5 := by
    have := hr.exact 5000; push_cast at this
    rw [show (5 / 2 * 2 : ℝ) = 5000 / 1000 by norm_num, this]; norm_num
  have hmin : max 0 (r3 (2 * π / 1 / (3 / 10) * (1 / 2) / (2 * π / (3 / 4)))) = 5 / 4 := by
    rw [hx, h1]; norm_num
  have hmax : min (((32 : ℕ) / 2 : ℕ) : ℝ) (r3 (2 * π / 1 / (3 / 10) * 2 / (2 * π / (3 / 4)))) = 5 := by
    rw [hx, h2]; norm_num
  obtain ⟨p, hp⟩ : ∃ p, createParams r3 none Args.default = .ok p := by
    unfold createParams
    rw [if_neg (by simp [Args.default])]
    simp only [bind, Except.bind, pure, Except.pure, hL]
    rw [pydiv_eq (by norm_num), pydiv_eq (by simp [Args.default])]
    simp only [hv, hv4, hkey, asin_eq habs, asin_eq habs', sin_arcsin' habs]
    rw [pydiv_eq (by simp [Args.default])]
    exact ⟨_, rfl⟩
  have f := facts hp
  have q1 : p.nu2 = 1 / 500 := by have := f.visc; rw [hv, Except.ok.injEq] at this; exact this.symm
  have q2 : p.nu4 = 0 := by
    have := f.visc4
    have hL' : ((Args.default.nhForcing : ℤ) : ℝ) / ((Args.default.ratioNhNz : ℤ) : ℝ) = 3 / 4 := by rw [← hL, mul_one]
    rw [q1, hL', hv4, Except.ok.injEq] at this
    exact this.symm
  have q3 : p.nkmin = 5 / 4 := by
    have := congrArg Params.nkmin f.eq
    rw [this]
    have hL' : ((Args.default.nhForcing : ℤ) : ℝ) / ((Args.default.ratioNhNz : ℤ) : ℝ) = 3 / 4 := by rw [← hL, mul_one]
    simp only [hL']
    have := hmin
    rw [div_one] at this
    exact this
  have q4 : p.nkmax = 5 := by
    have := congrArg Params.nkmax f.eq
    rw [this]
    have hL' : ((Args.default.nhForcing : ℤ) : ℝ) / ((Args.default.ratioNhNz : ℤ) : ℝ) = 3 / 4 := by rw [← hL, mul_one]
    simp only [hL']
    have := hmax
    rw [div_one] at this
    exact this
  have g := C72_grid hp
  refine ⟨p, hp, ?_, ?_, ?_, ?_, ?_, q3, q4, q1, q2, ?_, ?_⟩
  · rw [g.2.1, g.1]; rfl
  · rw [g.2.2.1, g.2.1, g.1]; rfl
  · rw [g.1]; rfl
  · rw [g.2.2.2.1]; simp [Args.default]
  · have : p.Lz = _ := congrArg Params.Lz f.eq
    rw [this, ← hL, mul_one]
  · have := f.key; rw [hkey, Option.some.injEq] at this; exact this.symm
  · rw [checkNk, if_neg]; rw [q3, q4]; norm_num

/-- Not true of the code: the forcing acts on modes which are kept by the dealiasing. The range is only limited to the
largest wavenumber of the grid: with `F = 0.0288...` and the other default arguments the whole range, [13, 16], is beyond
the largest dealiased wavenumber, 12.8. -/
theorem C72_truncated_violated (hr : IsRound3 r3) (h : createParams r3 none { Args.default with F := 3 / 104 } = .ok p) :
    p.nkmin = 13 ∧ p.nkmax = 16 ∧ checkNk p.nkmin p.nkmax = .ok () ∧
      p.coefDealiasing * kNyquist p.nz p.Lz < p.deltakz * p.nkmin := by
  have f := facts h
  have hpi := pi_pos
  have hL' : (((({ Args.default with F := 3 / 104 } : Args).nhForcing : ℤ) : ℝ) /
      ((({ Args.default with F := 3 / 104 } : Args).ratioNhNz : ℤ) : ℝ)) = 3 / 4 := by
    simp only [Args.default]; norm_num
  have hx : ∀ x : ℝ, 2 * π / (3 / 104) * x / (2 * π / (3 / 4)) = 26 * x := by
    intro x; field_simp; ring
  have h1 : r3 (26 * (1 / 2)) = 13 := by
    have := hr.exact 13000; push_cast at this
    rw [show (26 * (1 / 2) : ℝ) = 13000 / 1000 by norm_num, this]; norm_num
  have h2 : r3 (26 * 2) = 52 := by
    have := hr.exact 52000; push_cast at this
    rw [show (26 * 2 : ℝ) = 52000 / 1000 by norm_num, this]; norm_num
  have q3 : p.nkmin = 13 := by
    have := congrArg Params.nkmin f.eq
    rw [this]
    simp only [hL']
    have e : max 0 (r3 (2 * π / (3 / 104) * (1 / 2) / (2 * π / (3 / 4)))) = 13 := by rw [hx, h1]; norm_num
    exact e
  have q4 : p.nkmax = 16 := by
    have := congrArg Params.nkmax f.eq
    rw [this]
    simp only [hL']
    have e : min (((32 : ℕ) / 2 : ℕ) : ℝ) (r3 (2 * π / (3 / 104) * 2 / (2 * π / (3 / 4)))) = 16 := by
      rw [hx, h2]; norm_num
    exact e
  have q5 : p.Lz = 3 / 4 := by
    have := congrArg Params.Lz f.eq
    rw [this]
    exact hL'
  have q6 : p.nz = 32 := congrArg Params.nz f.eq
  have q7 : p.coefDealiasing = 8 / 10 := congrArg Params.coefDealiasing f.eq
  refine ⟨q3, q4, ?_, ?_⟩
  · rw [checkNk, if_neg]; rw [q3, q4]; norm_num
  · rw [q7, q6, kNyquist, Params.deltakz, q5, q3]
    push_cast
    nlinarith

/-- The projections known by the solver, and those of the launcher: `--projection polo`, accepted by the launcher as in
its test, is refused by the solver. -/
theorem C72_projection (s : String) :
    (projector (some s) = .ok .toroidal ↔ s = "toroidal" ∨ s = "vortical") ∧
      (projector (some s) = .ok .poloidal ↔ s = "poloidal") ∧ projector (some s) ≠ .ok .perpk3d ∧
      projector none = .ok .perpk3d ∧ projector (some "polo") = .error .value ∧ projector (some "toro") = .error .value := by
  refine ⟨?_, ?_, ?_, rfl, rfl, rfl⟩
  · unfold projector; split <;> simp_all
  · unfold projector; split <;> simp_all
  · unfold projector; split <;> simp_all

/-- The options which only print or plot neither start the simulation nor create an object which saves. -/
theorem C72_dry_run (opf oppac opp : Bool) :
    (Action.start ∈ main opf oppac opp ↔ opf = false ∧ oppac = false ∧ opp = false) ∧
      ((opf || oppac || opp) = true → Action.createSim true ∉ main opf oppac opp) ∧
      ((oppac || opp) = true → ∀ b, Action.createSim b ∉ main opf oppac opp) := by
  cases opf <;> cases oppac <;> cases opp <;> simp [main]

/-- Non-vacuity: a rounding which meets the contract, and an accepted set of arguments. -/
example : ∃ p, createParams (fun x => (round (1000 * x) : ℝ) / 1000) none Args.default = .ok p := by
  obtain ⟨p, h, -⟩ := C72_default round3_exists
  exact ⟨p, h⟩

/-- The forced variable for each kind of forcing; the other kinds are refused. -/
theorem C72_forced_field (h : createParams r3 none a = .ok p) :
    (a.forcedField = "toro" ∧ p.keyForced = "vt_fft") ∨ (a.forcedField = "polo" ∧ p.keyForced = "vp_fft") ∨
    (a.forcedField = "buoyancy" ∧ p.keyForced = "b_fft") ∨ (a.forcedField = "vert" ∧ p.keyForced = "vz_fft") := by
  have hk := (facts h).key
  unfold keysVersusKind at hk
  split at hk <;> simp_all

/-- The name of the directory of the run tells the kind of forcing, the horizontal Froude number, whether the solver is
projected, and the viscosities given by the user or the buoyancy Reynolds numbers given by the user. -/
theorem C72_name (h : createParams r3 none a = .ok p) :
    p.shortName.head? = some (.text a.forcedField) ∧ .num "_Fh" (1 / a.N) ∈ p.shortName ∧
    (.text "_proj" ∈ p.shortName ↔ a.projection ≠ none) ∧
    (∀ x, .num "_nu" x ∈ p.shortName ↔ a.nu = some x) ∧ (∀ x, .num "_Rb" x ∈ p.shortName ↔ a.Rb = some x) ∧
    (∀ x, .num "_nuh" x ∈ p.shortName ↔ a.nu4 = some x) ∧ (∀ x, .num "_Rbh" x ∈ p.shortName ↔ a.Rb4 = some x) := by
  have e : p.shortName = shortName a (1 / a.N) := congrArg Params.shortName (facts h).eq
  have hv := (C72_viscosity h).1
  have hv4 := (C72_viscosity4 h).1
  have hf : a.forcedField ≠ "_proj" := by
    rcases C72_forced_field h with h | h | h | h <;> rw [h.1] <;> decide
  rw [e]
  unfold shortName
  cases a.projection <;> cases h1 : a.nu <;> cases h2 : a.Rb <;> cases h3 : a.nu4 <;> cases h4 : a.Rb4 <;>
    simp_all [eq_comm]

end Verif.Launcher
