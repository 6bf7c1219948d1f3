import Verif.DimNumbers.ModelOmegas
import Verif.Strat.Model

/-! # C88: the numbers `F` and `gamma` of the forced simulations of ns2d.strat -/

namespace Verif.DimNumbers

open Verif.Strat Verif.Forcing

set_option linter.unusedSectionVars false

noncomputable section
open Classical

/-! ## Specification -/

/-- The angle in radians, if the parameter is an angle. -/
def Angle.value : Angle → Option ℝ
  | .radians x => some x
  | .degrees x => some (2 * Real.pi * (x / 360))
  | .text => none

/-- What is injected by a force with a given rate: a square of a vorticity (`1 / s²`), a square of
`N² u` (`m² / s⁶`) or a square of a velocity (`m² / s²`). -/
inductive Injected
  | enstrophy
  | waves
  | energy
  deriving DecidableEq

/-- What is injected, from the parameters; `none` if the force has another type. -/
def injected (key rateOf : Option String) : Option Injected :=
  match rateOf with
  | none =>
    match key with
    | none => some .enstrophy
    | some k => if k = "rot_fft" then some .enstrophy else if k = "ap_fft" then some .waves else none
  | some s => if s ∈ ["energy", "energyK"] then some .energy else none

/-- The relation between the injection rate `P`, the length `l` of the force and the frequency `w`
obtained by a dimensional analysis. -/
def Injected.Frequency (i : Injected) (P l w : ℝ) : Prop :=
  match i with
  | .enstrophy => w ^ 3 = P
  | .waves => w ^ 7 * l ^ 2 = P
  | .energy => w ^ 3 * l ^ 2 = P

/-- The number by which the injection rate is multiplied when the unit of time is divided by `a`
and the unit of length by `b`. -/
def Injected.unit (i : Injected) (a b : ℝ) : ℝ :=
  match i with
  | .enstrophy => 1 / a ^ 3
  | .waves => b ^ 2 / a ^ 7
  | .energy => b ^ 2 / a ^ 3

/-- The same simulation described with other units. -/
def ForcedPars.inUnits (p : ForcedPars) (i : Injected) (a b : ℝ) : ForcedPars :=
  { p with N := p.N / a, Lx := b * p.Lx, Ly := b * p.Ly, rate := i.unit a b * p.rate }

/-! ## Lemmas -/

theorem froude_eq (a : Angle) :
    froude a = match a.value with
      | some x => .ok (Real.sin x)
      | none => .error .angle := by
  cases a with
  | radians x => rfl
  | degrees x =>
    simp only [froude, Angle.value]
    congr 2
    ring
  | text => rfl

theorem pow_rpow_inv {x : ℝ} (hx : 0 ≤ x) (n : ℕ) (hn : n ≠ 0) : (x ^ (1 / n : ℝ)) ^ n = x := by
  rw [one_div]
  exact Real.rpow_inv_natCast_pow hx hn

theorem rpow_frac {x : ℝ} (hx : 0 ≤ x) (n : ℕ) (hn : n ≠ 0) :
    (x ^ (-2 / n : ℝ)) ^ n = (x ^ 2)⁻¹ := by
  rw [← Real.rpow_natCast, ← Real.rpow_mul hx]
  have : (-2 / n : ℝ) * n = -(2 : ℕ) := by
    have : (n : ℝ) ≠ 0 := by exact_mod_cast hn
    field_simp
    norm_num
  rw [this, Real.rpow_neg hx, Real.rpow_natCast]

theorem omegaAf_ok {p : ForcedPars} {lf : ℝ} {i : Injected} (hi : injected p.keyForced p.rateOf = some i)
    (hP : 0 < p.rate) (hl : 0 < lf) :
    ∃ w, omegaAf p lf = .ok w ∧ 0 < w ∧ i.Frequency p.rate lf w := by
  have h3 := pow_rpow_inv hP.le 3 (by norm_num)
  have h7 := pow_rpow_inv hP.le 7 (by norm_num)
  have l3 := rpow_frac hl.le 3 (by norm_num)
  have l7 := rpow_frac hl.le 7 (by norm_num)
  push_cast at h3 h7 l3 l7
  unfold injected at hi
  unfold omegaAf
  cases hr : p.rateOf with
  | none =>
    simp only [hr] at hi ⊢
    cases hk : p.keyForced with
    | none =>
      simp only [hk] at hi ⊢
      cases hi
      exact ⟨_, by simp, Real.rpow_pos_of_pos hP _, h3⟩
    | some k =>
      simp only [hk] at hi ⊢
      by_cases h1 : k = "rot_fft"
      · rw [if_pos h1] at hi
        cases hi
        exact ⟨_, by rw [h1, if_pos (Or.inr rfl)], Real.rpow_pos_of_pos hP _, h3⟩
      · rw [if_neg h1] at hi
        by_cases h2 : k = "ap_fft"
        · rw [if_pos h2] at hi
          cases hi
          refine ⟨p.rate ^ (1 / 7 : ℝ) * lf ^ (-2 / 7 : ℝ), by simp [h2], ?_, ?_⟩
          · exact mul_pos (Real.rpow_pos_of_pos hP _) (Real.rpow_pos_of_pos hl _)
          · show (_ * _) ^ 7 * lf ^ 2 = _
            rw [mul_pow, h7, l7]
            field_simp
        · simp [h2] at hi
  | some s =>
    simp only [hr] at hi ⊢
    by_cases hs : s = "energy" ∨ s = "energyK"
    · rw [if_pos (by simpa using hs)] at hi
      cases hi
      refine ⟨p.rate ^ (1 / 3 : ℝ) * lf ^ (-2 / 3 : ℝ), by rw [if_pos hs], ?_, ?_⟩
      · exact mul_pos (Real.rpow_pos_of_pos hP _) (Real.rpow_pos_of_pos hl _)
      · show (_ * _) ^ 3 * lf ^ 2 = _
        rw [mul_pow, h3, l3]
        field_simp
    · rw [if_neg (by simpa using hs)] at hi
      cases hi

theorem omegaAf_error {p : ForcedPars} {lf : ℝ} (hi : injected p.keyForced p.rateOf = none) :
    omegaAf p lf = .error .key ∨ omegaAf p lf = .error .rateOf := by
  unfold injected at hi
  unfold omegaAf
  cases hr : p.rateOf with
  | none =>
    left
    simp only [hr] at hi ⊢
    cases hk : p.keyForced with
    | none => simp [hk] at hi
    | some k =>
      simp only [hk] at hi ⊢
      split_ifs at hi with h1 h2
      simp [h1, h2]
  | some s =>
    right
    simp only [hr] at hi ⊢
    split_ifs at hi with h
    rw [if_neg (by simpa using h)]

theorem frequency_unique {i : Injected} {P l w w' : ℝ} (hl : 0 < l) (hw : 0 < w) (hw' : 0 < w')
    (h : i.Frequency P l w) (h' : i.Frequency P l w') : w = w' := by
  have hl2 : l ^ 2 ≠ 0 := by positivity
  cases i with
  | enstrophy =>
    exact (pow_left_inj₀ hw.le hw'.le (by norm_num)).1 ((show w ^ 3 = P from h).trans h'.symm)
  | waves =>
    have : w ^ 7 * l ^ 2 = w' ^ 7 * l ^ 2 := (show _ = P from h).trans h'.symm
    exact (pow_left_inj₀ hw.le hw'.le (by norm_num)).1 (mul_right_cancel₀ hl2 this)
  | energy =>
    have : w ^ 3 * l ^ 2 = w' ^ 3 * l ^ 2 := (show _ = P from h).trans h'.symm
    exact (pow_left_inj₀ hw.le hw'.le (by norm_num)).1 (mul_right_cancel₀ hl2 this)

/-- A simulation which can be run. -/
structure ForcedPars.Good (p : ForcedPars) : Prop where
  Lx : 0 < p.Lx
  Ly : 0 < p.Ly
  nk : 0 < p.nkmax + p.nkmin
  rate : 0 < p.rate

theorem forcingLength_ok {p : ForcedPars} (h : p.Good) :
    ∃ lf, forcingLength p = .ok lf ∧ 0 < lf ∧
      lf = 2 * Real.pi / ((p.nkmax + p.nkmin) / 2 * (2 * Real.pi / min p.Lx p.Ly)) := by
  have hpi := Real.pi_pos
  have hd : max (2 * Real.pi / p.Lx) (2 * Real.pi / p.Ly) = 2 * Real.pi / min p.Lx p.Ly := by
    rcases le_total p.Lx p.Ly with hle | hle
    · rw [min_eq_left hle, max_eq_left]
      exact div_le_div_of_nonneg_left (by positivity) h.Lx hle
    · rw [min_eq_right hle, max_eq_right]
      exact div_le_div_of_nonneg_left (by positivity) h.Ly hle
  have hm : 0 < min p.Lx p.Ly := lt_min h.Lx h.Ly
  have hnk := h.nk
  have hk : 0 < (p.nkmax + p.nkmin) / 2 * (2 * Real.pi / min p.Lx p.Ly) := by positivity
  refine ⟨2 * Real.pi / ((p.nkmax + p.nkmin) / 2 * (2 * Real.pi / min p.Lx p.Ly)), ?_,
    by positivity, rfl⟩
  unfold forcingLength
  rw [if_neg (by simp [h.Lx.ne', h.Ly.ne'])]
  simp only [hd]
  rw [if_neg hk.ne']

/-! ## Theorems -/

/-- **C88** (ns2d.strat) With an anisotropic forcing, `F` is the sine of the angle of the force,
written in radians or in degrees, and `gamma` is `f / w`, where `f = N F / 2 π` and `w` is the only
positive frequency which can be formed with the injection rate and the length
`2 min(Lx, Ly) / (nkmin + nkmax)` of the force: `w³ = P` for a rate of enstrophy, `w⁷ l² = P` for a
rate of the square of `ap`, `w³ l² = P` for a rate of energy.  Without an anisotropic forcing there
are no such numbers. -/
theorem C88_omegas (p : ForcedPars) (i : Injected) (θ : ℝ) (hg : p.Good) (ht : p.type.endsWith "anisotropic")
    (hθ : p.angle.value = some θ) (hi : injected p.keyForced p.rateOf = some i) :
    ∃ g w, stratNumbers p = .ok (some (Real.sin θ, some g)) ∧ 0 < w ∧
      i.Frequency p.rate (2 * min p.Lx p.Ly / (p.nkmin + p.nkmax)) w ∧
      g = p.N * Real.sin θ / (2 * Real.pi) / w := by
  obtain ⟨lf, hlf, hpos, hval⟩ := forcingLength_ok hg
  obtain ⟨w, hw, hw0, hF⟩ := omegaAf_ok hi hg.rate hpos
  have hl : 2 * min p.Lx p.Ly / (p.nkmin + p.nkmax) = lf := by
    rw [hval]
    have := Real.pi_pos
    have hm : 0 < min p.Lx p.Ly := lt_min hg.Lx hg.Ly
    have h1 := hg.nk
    have h2 : 0 < p.nkmin + p.nkmax := by linarith
    rw [add_comm p.nkmax]
    field_simp
  refine ⟨_, w, ?_, hw0, hl ▸ hF, rfl⟩
  simp only [stratNumbers, ht, if_true, froude_eq, hθ, ratioOmegas, hlf, hw, if_neg hw0.ne']

/-- **C88** (ns2d.strat) Without an anisotropic forcing, the numbers are not computed. -/
theorem C88_omegas_absent (p : ForcedPars) (ht : ¬ p.type.endsWith "anisotropic") :
    stratNumbers p = .ok none := by
  simp only [stratNumbers, if_neg ht]

/-- **C88** (ns2d.strat) The numbers do not depend on the units of time and length. -/
theorem C88_omegas_units (p : ForcedPars) (i : Injected) (a b : ℝ) (ha : 0 < a) (hb : 0 < b) (hg : p.Good)
    (hi : injected p.keyForced p.rateOf = some i) :
    stratNumbers (p.inUnits i a b) = stratNumbers p := by
  by_cases ht : p.type.endsWith "anisotropic"
  swap
  · rw [C88_omegas_absent p ht]
    exact C88_omegas_absent _ ht
  cases hθ : p.angle.value with
  | none =>
    simp only [stratNumbers, ForcedPars.inUnits, ht, if_true, froude_eq, hθ]
  | some θ =>
    have hu : 0 < i.unit a b := by cases i <;> simp only [Injected.unit] <;> positivity
    have hg' : (p.inUnits i a b).Good :=
      ⟨mul_pos hb hg.Lx, mul_pos hb hg.Ly, hg.nk, mul_pos hu hg.rate⟩
    obtain ⟨g, w, h1, h2, h3, h4⟩ := C88_omegas p i θ hg ht hθ hi
    obtain ⟨g', w', h1', h2', h3', h4'⟩ := C88_omegas (p.inUnits i a b) i θ hg' ht hθ hi
    rw [h1, h1']
    have hm : 0 < min p.Lx p.Ly := lt_min hg.Lx hg.Ly
    have hnk : 0 < p.nkmin + p.nkmax := by have := hg.nk; linarith
    have hmin : min (b * p.Lx) (b * p.Ly) = b * min p.Lx p.Ly := (mul_min_of_nonneg _ _ hb.le).symm
    have hww : w' = w / a := by
      refine frequency_unique (i := i) (l := 2 * min (b * p.Lx) (b * p.Ly) / (p.nkmin + p.nkmax))
        (P := i.unit a b * p.rate) (by rw [hmin]; positivity) h2' (by positivity) h3' ?_
      rw [hmin]
      cases i with
      | enstrophy =>
        have h3 : w ^ 3 = p.rate := h3
        show (w / a) ^ 3 = 1 / a ^ 3 * p.rate
        rw [← h3]; field_simp
      | waves =>
        have h3 : w ^ 7 * _ ^ 2 = p.rate := h3
        show (w / a) ^ 7 * _ ^ 2 = b ^ 2 / a ^ 7 * p.rate
        rw [← h3]; field_simp
      | energy =>
        have h3 : w ^ 3 * _ ^ 2 = p.rate := h3
        show (w / a) ^ 3 * _ ^ 2 = b ^ 2 / a ^ 3 * p.rate
        rw [← h3]; field_simp
    rw [h4', h4, hww]
    have : (p.inUnits i a b).N = p.N / a := rfl
    rw [this]
    congr 4
    have := Real.pi_pos
    field_simp

/-- **C88** (ns2d.strat) `N F` is the frequency of the waves at the angle of the force: for a
wavenumber whose horizontal component is the sine of the angle times its modulus,
`compute_dispersion_relation` gives `N F`. -/
theorem C88_froude_waves (p : ForcedPars) (θ : ℝ) (hθ : p.angle.value = some θ) (δ : Fin 2 → ℝ)
    (k : Fin 2 → ℤ) (hk : (δ 0 * k 0) ^ 2 + (δ 1 * k 1) ^ 2 ≠ 0)
    (hx : δ 0 * k 0 = Real.sin θ * Real.sqrt ((δ 0 * k 0) ^ 2 + (δ 1 * k 1) ^ 2)) :
    ∃ F, froude p.angle = .ok F ∧ dispersion δ p.N k = p.N * F := by
  refine ⟨Real.sin θ, by rw [froude_eq, hθ], ?_⟩
  have hs : √((δ 0 * k 0) ^ 2 + (δ 1 * k 1) ^ 2) ≠ 0 :=
    (Real.sqrt_pos.2 (lt_of_le_of_ne (by positivity) hk.symm)).ne'
  have h2 : k2not0 (δ 0 * k 0) (δ 1 * k 1) = (δ 0 * k 0) ^ 2 + (δ 1 * k 1) ^ 2 := by
    unfold k2not0
    rw [if_neg (by first | exact hk | simpa using hk)]
  unfold dispersion
  rw [h2]
  congr 1
  rw [div_eq_iff hs]
  exact hx

/-- **C88** (ns2d.strat) The simulation cannot be created exactly when the angle is a text without the
degree symbol or when the quantity which is injected is not one of the three known ones. -/
theorem C88_omegas_errors (p : ForcedPars) (hg : p.Good) (ht : p.type.endsWith "anisotropic") :
    (∃ e, stratNumbers p = .error e) ↔
      p.angle.value = none ∨ injected p.keyForced p.rateOf = none := by
  constructor
  · rintro ⟨e, he⟩
    by_contra hc
    push Not at hc
    obtain ⟨θ, hθ⟩ := Option.ne_none_iff_exists'.1 hc.1
    obtain ⟨i, hi⟩ := Option.ne_none_iff_exists'.1 hc.2
    obtain ⟨g, w, h, -⟩ := C88_omegas p i θ hg ht hθ hi
    rw [h] at he
    cases he
  · intro h
    cases hθ : p.angle.value with
    | none => exact ⟨.angle, by simp only [stratNumbers, ht, if_true, froude_eq, hθ]⟩
    | some θ =>
      have hi : injected p.keyForced p.rateOf = none := by simpa [hθ] using h
      obtain ⟨lf, hlf, -, -⟩ := forcingLength_ok hg
      rcases omegaAf_error (lf := lf) hi with hw | hw
      · exact ⟨.key, by simp only [stratNumbers, ht, if_true, froude_eq, hθ, ratioOmegas, hlf, hw]⟩
      · exact ⟨.rateOf, by simp only [stratNumbers, ht, if_true, froude_eq, hθ, ratioOmegas, hlf, hw]⟩

/-- **C88** (finding) Reading: a simulation can be forced on each of its variables.  The buoyancy
`b_fft` is a variable of ns2d.strat, but a simulation with an anisotropic force on `b_fft`, whatever
the other parameters, cannot be created. -/
theorem C88_omegas_buoyancy_violated (p : ForcedPars) (hg : p.Good) (ht : p.type.endsWith "anisotropic")
    (hk : p.keyForced = some "b_fft") (hr : p.rateOf = none) : ∃ e, stratNumbers p = .error e := by
  refine (C88_omegas_errors p hg ht).2 (Or.inr ?_)
  rw [hk, hr]
  decide

/-- A simulation: `Lx = Ly = 2`, an angle of 30 degrees, a rate of enstrophy. -/
def sampleForced : ForcedPars :=
  { type := "tcrandom_anisotropic", angle := .degrees 30, N := 4 * Real.pi, Lx := 2, Ly := 2, nkmin := 4,
    nkmax := 6, rate := 8, keyForced := none, rateOf := none }

/-- The hypotheses are satisfied: `F = 1 / 2` and `gamma = 1 / 2`. -/
example : stratNumbers sampleForced = .ok (some (1 / 2, some (1 / 2))) := by
  have hg : sampleForced.Good := ⟨by norm_num [sampleForced], by norm_num [sampleForced],
    by norm_num [sampleForced], by norm_num [sampleForced]⟩
  obtain ⟨g, w, h, hw, hF, hG⟩ := C88_omegas sampleForced .enstrophy (2 * Real.pi * (30 / 360)) hg
    (by decide +kernel) rfl rfl
  have hs : Real.sin (2 * Real.pi * (30 / 360)) = 1 / 2 := by
    rw [show 2 * Real.pi * (30 / 360) = Real.pi / 6 by ring, Real.sin_pi_div_six]
  have hw2 : w = 2 := by
    have h8 : w ^ 3 = 8 := hF
    exact (pow_left_inj₀ hw.le (by norm_num) (by norm_num : (3 : ℕ) ≠ 0)).1 (by rw [h8]; norm_num)
  rw [h, hG, hs, hw2]
  have : sampleForced.N = 4 * Real.pi := rfl
  rw [this]
  congr 4
  have := Real.pi_pos
  field_simp
  norm_num

/-- The wavenumber `(3, 4)` is at the angle `arcsin (3 / 5)`. -/
example : ∃ F, froude (.radians (Real.arcsin (3 / 5))) = .ok F ∧
    dispersion (fun _ => 1) 10 ![3, 4] = 10 * F := by
  refine C88_froude_waves { sampleForced with angle := .radians (Real.arcsin (3 / 5)), N := 10 } _ rfl
    (fun _ => 1) ![3, 4] (by norm_num) ?_
  rw [Real.sin_arcsin (by norm_num) (by norm_num)]
  have : √((1 * ((![3, 4] : Fin 2 → ℤ) 0 : ℝ)) ^ 2 + (1 * ((![3, 4] : Fin 2 → ℤ) 1 : ℝ)) ^ 2) = 5 := by
    rw [Real.sqrt_eq_iff_mul_self_eq (by positivity) (by norm_num)]
    norm_num
  rw [this]
  norm_num

/-- A simulation forced on the buoyancy. -/
example : ∃ e, stratNumbers { sampleForced with keyForced := some "b_fft" } = .error e :=
  C88_omegas_buoyancy_violated _ ⟨by norm_num [sampleForced], by norm_num [sampleForced],
    by norm_num [sampleForced], by norm_num [sampleForced]⟩ (by decide +kernel) rfl rfl

end

end Verif.DimNumbers
