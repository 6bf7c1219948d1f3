import Verif.Launcher.Spec
import Mathlib.Algebra.Order.Round
import Mathlib.Algebra.Order.Floor.Ring
import Mathlib.Analysis.Real.Pi.Bounds

/-! Lemmas for C72. -/

namespace Verif.Launcher

open Real

theorem pydiv_ok {x y z : ℝ} (h : pydiv x y = .ok z) : y ≠ 0 ∧ z = x / y := by
  unfold pydiv at h
  split at h
  · simp at h
  · rename_i hy; simp only [Except.ok.injEq] at h; exact ⟨hy, h.symm⟩

theorem asin_ok {x z : ℝ} (h : asin x = .ok z) : |x| ≤ 1 ∧ z = arcsin x := by
  unfold asin at h
  split at h
  · rename_i hx; simp only [Except.ok.injEq] at h; exact ⟨hx, h.symm⟩
  · simp at h

theorem pydiv_eq {x y : ℝ} (h : y ≠ 0) : pydiv x y = .ok (x / y) := by
  unfold pydiv; rw [if_neg h]

theorem asin_eq {x : ℝ} (h : |x| ≤ 1) : asin x = .ok (arcsin x) := by
  unfold asin; rw [if_pos h]

theorem sin_arcsin' {x : ℝ} (h : |x| ≤ 1) : sin (arcsin x) = x :=
  sin_arcsin (abs_le.1 h).1 (abs_le.1 h).2

/-- The facts which follow from an accepted set of arguments. -/
structure Facts (r3 : ℝ → ℝ) (a : Args) (p : Params) : Prop where
  ratio : 1 ≤ a.ratioNhNz
  nh0 : a.nhForcing ≠ 0
  N0 : a.N ≠ 0
  F0 : a.F ≠ 0
  F1 : |a.F| ≤ 1
  dF1 : |a.deltaF| ≤ 1
  visc : viscosity a = .ok p.nu2
  visc4 : viscosity4 a p.nu2 (2 * π / (a.nhForcing / a.ratioNhNz)) = .ok p.nu4
  key : keysVersusKind a.forcedField = some p.keyForced
  eq : p = { p with
    shortName := shortName a (1 / a.N)
    projection := a.projection
    noVzKz0 := !a.disableNoVzKz0
    noShearModes := !a.disableNoShearModes
    coefDealiasing := a.coefDealiasing
    nx := a.nz * a.ratioNhNz
    ny := a.nz * a.ratioNhNz
    nz := a.nz
    Lx := a.nhForcing
    Ly := a.nhForcing
    Lz := a.nhForcing / a.ratioNhNz
    N := a.N
    noiseLength := a.nhForcing / a.ratioNhNz / 2
    noiseVeloMax := a.initVeloMax
    forcingRate := 1
    nkmin := max 0 (r3 (2 * π / a.F * a.ratioKfmin / (2 * π / (a.nhForcing / a.ratioNhNz))))
    nkmax := min ((a.nz / 2 : ℕ) : ℝ) (r3 (2 * π / a.F * a.ratioKfmax / (2 * π / (a.nhForcing / a.ratioNhNz))))
    tEnd := a.tEnd
    deltatMax := min (1 / 10) (2 * π / a.N / 16)
    timeCorrelation := 2 * π / (a.N * a.F)
    angle := r3 (arcsin a.F)
    deltaAngle := r3 (arcsin a.deltaF)
    periodSpatiotemporal := if a.spatiotemporal then some (2 * π / a.N / 8) else none
    probesRegion := (16 * a.ratioNhNz, 16 * a.ratioNhNz, 16) }

theorem facts {r3 : ℝ → ℝ} {a : Args} {p : Params} (h : createParams r3 none a = .ok p) : Facts r3 a p := by
  unfold createParams at h
  by_cases hr : a.ratioNhNz < 1
  · rw [if_pos hr] at h; simp [throw, throwThe, MonadExceptOf.throw, bind, Except.bind] at h
  rw [if_neg hr] at h
  simp only [bind, Except.bind, pure, Except.pure, mul_one, div_one] at h
  cases e1 : pydiv (2 * π) (a.nhForcing / a.ratioNhNz) with
  | error e => simp [e1] at h
  | ok dk =>
    simp only [e1] at h
    obtain ⟨n1, rfl⟩ := pydiv_ok e1
    cases e2 : pydiv 1 a.N with
    | error e => simp [e2] at h
    | ok Fh =>
      simp only [e2] at h
      obtain ⟨n2, rfl⟩ := pydiv_ok e2
      cases e3 : viscosity a with
      | error e => simp [e3] at h
      | ok nu =>
        simp only [e3] at h
        cases e4 : viscosity4 a nu (2 * π / (a.nhForcing / a.ratioNhNz)) with
        | error e => simp [e4] at h
        | ok nu4 =>
          simp only [e4] at h
          cases e5 : keysVersusKind a.forcedField with
          | none => simp [e5] at h
          | some k =>
            simp only [e5] at h
            cases e6 : asin a.F with
            | error e => simp [e6] at h
            | ok an =>
              simp only [e6] at h
              obtain ⟨n6, rfl⟩ := asin_ok e6
              cases e7 : asin a.deltaF with
              | error e => simp [e7] at h
              | ok dan =>
                simp only [e7] at h
                obtain ⟨n7, rfl⟩ := asin_ok e7
                rw [sin_arcsin' n6] at h
                cases e8 : pydiv (2 * π) a.F with
                | error e => simp [e8] at h
                | ok kf =>
                  simp only [e8, Except.ok.injEq] at h
                  obtain ⟨n8, rfl⟩ := pydiv_ok e8
                  subst h
                  exact ⟨by omega, fun h => n1 (by simp [h]), n2, n8, n6, n7, by simp only [e3], by simp only [e4],
                    by simp only [e5], rfl⟩

theorem round3_exists : IsRound3 fun x => (round (1000 * x) : ℝ) / 1000 := by
  refine ⟨fun x => ?_, fun n => ?_, fun x y h => ?_⟩
  · have := abs_sub_round (1000 * x)
    have e : (round (1000 * x) : ℝ) / 1000 - x = -((1000 * x - round (1000 * x)) / 1000) := by ring
    rw [e, abs_neg, abs_div, abs_of_pos (by norm_num : (0 : ℝ) < 1000)]
    rw [div_le_div_iff₀ (by norm_num) (by norm_num)]
    linarith
  · have : (1000 : ℝ) * (n / 1000) = n := by ring
    simp only [this, round_intCast]
  · have h1 : round (1000 * x) ≤ round (1000 * y) := by
      rw [round_eq, round_eq]
      apply Int.floor_le_floor
      linarith
    have : (round (1000 * x) : ℝ) ≤ round (1000 * y) := by exact_mod_cast h1
    exact div_le_div_of_nonneg_right this (by norm_num)

end Verif.Launcher
