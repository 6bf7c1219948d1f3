import Verif.SpatialMeans.Props
import Mathlib.Algebra.Order.Chebyshev
import Mathlib.Analysis.Calculus.Deriv.Pow

/-! # C59: spatial means of sw1l -/

namespace Verif.SpatialMeans

open Verif.Fourier Verif.Energy Verif.Vectors Verif.SpectBudget Verif.Galerkin Finset

set_option linter.unusedSectionVars false

noncomputable section

/-! ### sw1l.modified: quadratic energies -/

/-- C59 (sw1l.modified): the energies given by the forcing in one time step. -/
theorem C59_msw_injection (S : Finset (Fin 2 → ℤ)) (δ : Fin 2 → ℝ) (c2 : ℝ)
    (fd fdHypo : (Fin 2 → ℤ) → ℝ) (dt : ℝ) (s F : Sw) :
    let M := fun s => mswMeans S δ c2 fd fdHypo dt s F
    (M (kickSw dt s F)).EK - (M s).EK = dt * (M s).PK.tot ∧
      (M (kickSw dt s F)).EA - (M s).EA = dt * (M s).PA.tot ∧
      (M s).PK.tot = (M s).PK.p1 + (M s).PK.p2 ∧ (M s).PA.tot = (M s).PA.p1 + (M s).PA.p2 ∧
      (M s).E = (M s).EK + (M s).EA := by
  refine ⟨?_, ?_, rfl, rfl, rfl⟩
  · simp only [mswMeans, kickSw]
    rw [← sum_sub_distrib, ← sum_add_distrib, mul_sum]
    refine sum_congr rfl fun k _ => ?_
    rw [kick, sq_kick, kick, sq_kick]; ring
  · simp only [mswMeans, kickSw]
    rw [← sum_sub_distrib, ← sum_add_distrib, mul_sum]
    refine sum_congr rfl fun k _ => ?_
    rw [kick, sq_kick]; ring

/-- The three fields evolve with the tendencies `T` and the dissipation `σ`. -/
def EvolvesSw (S : Finset (Fin 2 → ℤ)) (s : ℝ → Sw) (T : Sw) (σ : (Fin 2 → ℤ) → ℝ) (t : ℝ) : Prop :=
  Evolves S (fun τ => (s τ).ux) T.ux σ t ∧ Evolves S (fun τ => (s τ).uy) T.uy σ t ∧
    Evolves S (fun τ => (s τ).eta) T.eta σ t

/-- No tendency: the dissipation alone. -/
def noTendency : Sw := ⟨fun _ => 0, fun _ => 0, fun _ => 0⟩

theorem sum_inner_zero (S : Finset (Fin 2 → ℤ)) (a : Fld (Fin 2)) :
    ∑ k ∈ S, innerProd (a k) 0 = 0 := sum_eq_zero fun k _ => by simp [innerProd]

/-- C59 (sw1l.modified): the saved `epsK` and `epsA` are the rates at which the dissipation alone
decreases the saved energies. -/
theorem C59_msw_dissipation (S : Finset (Fin 2 → ℤ)) (δ : Fin 2 → ℝ) (c2 : ℝ)
    (fd fdHypo : (Fin 2 → ℤ) → ℝ) (dt : ℝ) (s : ℝ → Sw) (F : Sw) (t : ℝ)
    (h : EvolvesSw S s noTendency (fun k => fd k + fdHypo k) t) :
    let M := fun τ => mswMeans S δ c2 fd fdHypo dt (s τ) F
    HasDerivAt (fun τ => (M τ).EK) (-(M t).epsK.tot) t ∧
      HasDerivAt (fun τ => (M τ).EA) (-(M t).epsA.tot) t := by
  intro M
  obtain ⟨hx, hy, he⟩ := h
  constructor
  · have e : (fun τ => (M τ).EK)
        = fun τ => ∑ k ∈ S, ‖(s τ).ux k‖ ^ 2 / 2 + ∑ k ∈ S, ‖(s τ).uy k‖ ^ 2 / 2 := by
      funext τ; rw [← sum_add_distrib]; rfl
    rw [e]
    refine ((sumSq_deriv hx).fun_add (sumSq_deriv hy)).congr_deriv ?_
    simp only [noTendency, sum_inner_zero]
    have : (M t).epsK.tot
      = (diss S fd fdHypo fun k => ‖(s t).ux k‖ ^ 2 / 2 + ‖(s t).uy k‖ ^ 2 / 2).tot := rfl
    rw [this, diss_tot, zero_sub, zero_sub, ← neg_add, ← sum_add_distrib]
    congr 1
    exact sum_congr rfl fun k _ => by ring
  · have e : (fun τ => (M τ).EA) = fun τ => c2 * ∑ k ∈ S, ‖(s τ).eta k‖ ^ 2 / 2 := by
      funext τ
      rw [mul_sum]
      exact sum_congr rfl fun k _ => by ring
    rw [e]
    refine ((sumSq_deriv he).const_mul c2).congr_deriv ?_
    simp only [noTendency, sum_inner_zero]
    have : (M t).epsA.tot = (diss S fd fdHypo fun k => c2 * ‖(s t).eta k‖ ^ 2 / 2).tot := rfl
    rw [this, diss_tot, zero_sub, mul_neg, mul_sum]
    congr 1
    exact sum_congr rfl fun k _ => by ring

/-! ### sw1l -/

variable {n : Fin 2 → ℕ} {S : Finset (Fin 2 → ℤ)}

theorem flux_real {eta a : Fld (Fin 2)} (he : RealOn S eta) (ha : RealOn S a) (j : Pt n) :
    (1 + gridVal n S eta j) * gridVal n S a j
      = (((1 + phys n S eta j) * phys n S a j : ℝ) : ℂ) := by
  rw [grid_ofReal he, grid_ofReal ha]; push_cast; ring

theorem quad_real {s : Sw} (h : RealSw S s) (j : Pt n) :
    0.5 * (gridVal n S s.ux j ^ 2 + gridVal n S s.uy j ^ 2)
      = ((1 / 2 * (phys n S s.ux j ^ 2 + phys n S s.uy j ^ 2) : ℝ) : ℂ) := by
  rw [grid_ofReal h.1, grid_ofReal h.2.1]; push_cast; norm_num

theorem force_real {eta a Feta Fa : Fld (Fin 2)} (he : RealOn S eta) (ha : RealOn S a)
    (hFe : RealOn S Feta) (hFa : RealOn S Fa) (j : Pt n) :
    (gridVal n S eta j + 1) * gridVal n S Fa j + gridVal n S Feta j * gridVal n S a j
      = (((1 + phys n S eta j) * phys n S Fa j + phys n S Feta j * phys n S a j : ℝ) : ℂ) := by
  rw [grid_ofReal he, grid_ofReal ha, grid_ofReal hFe, grid_ofReal hFa]; push_cast; ring

theorem prod_real {a b : Fld (Fin 2)} (ha : RealOn S a) (hb : RealOn S b) (j : Pt n) :
    gridVal n S a j * gridVal n S b j = ((phys n S a j * phys n S b j : ℝ) : ℂ) := by
  rw [grid_ofReal ha, grid_ofReal hb]; push_cast; ring

theorem swEK (δ : Fin 2 → ℝ) (c2 : ℝ) (fd fdHypo : (Fin 2 → ℤ) → ℝ) (dt : ℝ) {s : Sw} (F : Sw)
    (hs : RealSw S s) :
    (swMeans n S δ c2 fd fdHypo dt s F).EK
      = gridMean n fun j => (1 + phys n S s.eta j) * (phys n S s.ux j ^ 2 + phys n S s.uy j ^ 2) / 2 := by
  have h1 := sum_inner_fft' n S (fun j => flux_real hs.2.2 hs.1 j) s.ux
  have h2 := sum_inner_fft' n S (fun j => flux_real hs.2.2 hs.2.1 j) s.uy
  have : (swMeans n S δ c2 fd fdHypo dt s F).EK
      = (∑ k ∈ S, innerProd (fluxFft n S s.eta s.ux k) (s.ux k)
        + ∑ k ∈ S, innerProd (fluxFft n S s.eta s.uy k) (s.uy k)) / 2 := by
    rw [← sum_add_distrib, sum_div]
    simp only [swMeans, innerProd, Complex.add_re]
  rw [this]
  simp only [fluxFft]
  rw [h1, h2, ← gridMean_add, ← gridMean_div]
  exact gridMean_congr n fun j => by ring

/-- C59 (sw1l): `EK` is the mean over the grid of `(1 + eta) (ux² + uy²) / 2`, `EA` that of
`c² eta² / 2` and `E` is their sum. -/
theorem C59_sw1l_means (hn : ∀ d, 0 < n d) (hD : Distinct n S) (δ : Fin 2 → ℝ) (c2 : ℝ)
    (fd fdHypo : (Fin 2 → ℤ) → ℝ) (dt : ℝ) {s : Sw} (F : Sw) (hs : RealSw S s) :
    let M := swMeans n S δ c2 fd fdHypo dt s F
    M.EK = gridMean n (fun j =>
        (1 + phys n S s.eta j) * (phys n S s.ux j ^ 2 + phys n S s.uy j ^ 2) / 2) ∧
      M.EA = gridMean n (fun j => c2 * phys n S s.eta j ^ 2 / 2) ∧ M.E = M.EK + M.EA := by
  refine ⟨swEK δ c2 fd fdHypo dt F hs, ?_, rfl⟩
  rw [gridMean_div, gridMean_mul, ← sumSq_mean hn hD hs.2.2, mul_sum, sum_div]
  rfl

/-- C59 (sw1l): the saved `epsK` and `epsA` are the rates at which the dissipation alone decreases the
saved energies (the kinetic energy is cubic). -/
theorem C59_sw1l_dissipation (δ : Fin 2 → ℝ) (c2 : ℝ) (fd fdHypo : (Fin 2 → ℤ) → ℝ) (dt : ℝ)
    (s : ℝ → Sw) (F : Sw) (t : ℝ) (hs : ∀ τ, RealSw S (s τ))
    (h : EvolvesSw S s noTendency (fun k => fd k + fdHypo k) t) :
    let M := fun τ => swMeans n S δ c2 fd fdHypo dt (s τ) F
    HasDerivAt (fun τ => (M τ).EK) (-(M t).epsK.tot) t ∧
      HasDerivAt (fun τ => (M τ).EA) (-(M t).epsA.tot) t := by
  intro M
  refine ⟨?_, (C59_msw_dissipation S δ c2 fd fdHypo dt s F t h).2⟩
  obtain ⟨hx, hy, he⟩ := h
  have e : (fun τ => (M τ).EK) = fun τ => gridMean n fun j =>
      (1 + phys n S (s τ).eta j) * (phys n S (s τ).ux j ^ 2 + phys n S (s τ).uy j ^ 2) / 2 := by
    funext τ; exact swEK δ c2 fd fdHypo dt F (hs τ)
  rw [e]
  -- derivatives of the fields
  set σ : (Fin 2 → ℤ) → ℝ := fun k => fd k + fdHypo k with hσ
  have hd : ∀ (a : ℝ → Fld (Fin 2)), Evolves S a (fun _ => 0) σ t → ∀ j : Pt n,
      HasDerivAt (fun τ => phys n S (a τ) j) (-phys n S (fun k => σ k * a t k) j) t := by
    intro a ha j
    have h1 := phys_deriv (n := n) (a' := fun k => ((-1 : ℝ) : ℂ) * (σ k * a t k))
      (fun k hk => (ha k hk).congr_deriv (by push_cast; ring)) j
    exact h1.congr_deriv (by rw [phys_scale]; ring)
  have hgx := hd _ hx
  have hgy := hd _ hy
  have hge := hd _ he
  refine (gridMean_deriv n fun j => ((((hge j).const_add 1).fun_mul
    (((hgx j).fun_pow 2).fun_add ((hgy j).fun_pow 2))).div_const 2)).congr_deriv ?_
  -- the saved dissipation
  have hflux : ∀ a : Fld (Fin 2), RealOn S a →
      ∑ k ∈ S, σ k * innerProd (fluxFft n S (s t).eta a k) (a k)
        = gridMean n fun j => (1 + phys n S (s t).eta j) * phys n S a j
          * phys n S (fun k => σ k * a k) j := by
    intro a ha
    rw [← sum_inner_fft' n S (fun j => flux_real (hs t).2.2 ha j)]
    refine sum_congr rfl fun k _ => ?_
    simp only [fluxFft, innerProd, mul_left_comm, Complex.re_ofReal_mul]
  have hq : ∑ k ∈ S, σ k * innerProd (quadFft n S (s t) k) ((s t).eta k)
      = gridMean n fun j => 1 / 2 * (phys n S (s t).ux j ^ 2 + phys n S (s t).uy j ^ 2)
          * phys n S (fun k => σ k * (s t).eta k) j := by
    rw [← sum_inner_fft' n S (fun j => quad_real (hs t) j)]
    refine sum_congr rfl fun k _ => ?_
    simp only [quadFft, innerProd, mul_left_comm, Complex.re_ofReal_mul]
  have hM : (M t).epsK.tot = ∑ k ∈ S, σ k * innerProd (fluxFft n S (s t).eta (s t).ux k) ((s t).ux k)
      + ∑ k ∈ S, σ k * innerProd (fluxFft n S (s t).eta (s t).uy k) ((s t).uy k)
      + ∑ k ∈ S, σ k * innerProd (quadFft n S (s t) k) ((s t).eta k) := by
    simp only [M, swMeans, diss, ← sum_add_distrib, hσ]
    refine sum_congr rfl fun k _ => ?_
    simp only [innerProd, Complex.add_re]; ring
  rw [hM, hflux _ (hs t).1, hflux _ (hs t).2.1, hq, ← gridMean_add, ← gridMean_add,
    show ∀ x : ℝ, -x = (-1) * x by intro x; ring, ← gridMean_mul]
  refine gridMean_congr n fun j => ?_
  push_cast
  ring

theorem swPK1 (δ : Fin 2 → ℝ) (c2 : ℝ) (fd fdHypo : (Fin 2 → ℤ) → ℝ) (dt : ℝ) {s F : Sw}
    (hs : RealSw S s) (hF : RealSw S F) :
    (swMeans n S δ c2 fd fdHypo dt s F).PK.p1
      = gridMean n fun j => (1 + phys n S s.eta j)
          * (phys n S s.ux j * phys n S F.ux j + phys n S s.uy j * phys n S F.uy j)
        + phys n S F.eta j * (phys n S s.ux j ^ 2 + phys n S s.uy j ^ 2) / 2 := by
  have hJx := sum_inner_fft' n S (fun j => flux_real hs.2.2 hs.1 j) F.ux
  have hJy := sum_inner_fft' n S (fun j => flux_real hs.2.2 hs.2.1 j) F.uy
  have hFx := sum_inner_fft' n S (fun j => force_real hs.2.2 hs.1 hF.2.2 hF.1 j) s.ux
  have hFy := sum_inner_fft' n S (fun j => force_real hs.2.2 hs.2.1 hF.2.2 hF.2.1 j) s.uy
  have e : (swMeans n S δ c2 fd fdHypo dt s F).PK.p1
      = (∑ k ∈ S, innerProd (fluxFft n S s.eta s.ux k) (F.ux k)
        + ∑ k ∈ S, innerProd (fluxFft n S s.eta s.uy k) (F.uy k)
        + ∑ k ∈ S, innerProd (forceFluxFft n S s.eta s.ux F.eta F.ux k) (s.ux k)
        + ∑ k ∈ S, innerProd (forceFluxFft n S s.eta s.uy F.eta F.uy k) (s.uy k)) / 2 := by
    simp only [swMeans, ← sum_add_distrib, sum_div]
    refine sum_congr rfl fun k _ => ?_
    rw [innerProd_symm (s.ux k), innerProd_symm (s.uy k)]; ring
  rw [e]
  simp only [fluxFft, forceFluxFft]
  rw [hJx, hJy, hFx, hFy, ← gridMean_add, ← gridMean_add, ← gridMean_add, ← gridMean_div]
  exact gridMean_congr n fun j => by ring

theorem swPK2 (δ : Fin 2 → ℝ) (c2 : ℝ) (fd fdHypo : (Fin 2 → ℤ) → ℝ) (dt : ℝ) {s F : Sw}
    (hs : RealSw S s) (hF : RealSw S F) :
    (swMeans n S δ c2 fd fdHypo dt s F).PK.p2
      = dt * gridMean n fun j => (1 + phys n S s.eta j)
          * (phys n S F.ux j ^ 2 + phys n S F.uy j ^ 2) / 4
        + 3 / 4 * (phys n S F.eta j
          * (phys n S s.ux j * phys n S F.ux j + phys n S s.uy j * phys n S F.uy j)) := by
  have hFx := sum_inner_fft' n S (fun j => force_real hs.2.2 hs.1 hF.2.2 hF.1 j) F.ux
  have hFy := sum_inner_fft' n S (fun j => force_real hs.2.2 hs.2.1 hF.2.2 hF.2.1 j) F.uy
  have hpx := sum_inner_fft' n S (fun j => prod_real hF.2.2 hF.1 j) s.ux
  have hpy := sum_inner_fft' n S (fun j => prod_real hF.2.2 hF.2.1 j) s.uy
  have e : (swMeans n S δ c2 fd fdHypo dt s F).PK.p2
      = dt * ((∑ k ∈ S, innerProd (forceFluxFft n S s.eta s.ux F.eta F.ux k) (F.ux k)
        + ∑ k ∈ S, innerProd (forceFluxFft n S s.eta s.uy F.eta F.uy k) (F.uy k)) / 4
        + (∑ k ∈ S, innerProd (prodFft n S F.eta F.ux k) (s.ux k)
        + ∑ k ∈ S, innerProd (prodFft n S F.eta F.uy k) (s.uy k)) / 2) := by
    simp only [swMeans, ← sum_add_distrib, sum_div, mul_sum]
    refine sum_congr rfl fun k _ => ?_
    rw [innerProd_symm (s.ux k), innerProd_symm (s.uy k), innerProd_symm (F.ux k),
      innerProd_symm (F.uy k)]; ring
  rw [e]
  simp only [forceFluxFft, prodFft]
  rw [hFx, hFy, hpx, hpy, ← gridMean_add, ← gridMean_add, ← gridMean_div, ← gridMean_div,
    ← gridMean_add]
  congr 1
  exact gridMean_congr n fun j => by ring

/-- Kinetic energy after the forcing has acted alone during `dt`. -/
theorem swEK_kick (δ : Fin 2 → ℝ) (c2 : ℝ) (fd fdHypo : (Fin 2 → ℤ) → ℝ) (dt : ℝ) {s F : Sw}
    (hs : RealSw S s) (hF : RealSw S F) (τ : ℝ) :
    (swMeans n S δ c2 fd fdHypo dt (kickSw τ s F) F).EK - (swMeans n S δ c2 fd fdHypo dt s F).EK
      = τ * (swMeans n S δ c2 fd fdHypo dt s F).PK.p1
        + τ ^ 2 * gridMean n (fun j => (1 + phys n S s.eta j)
          * (phys n S F.ux j ^ 2 + phys n S F.uy j ^ 2) / 2
          + phys n S F.eta j
            * (phys n S s.ux j * phys n S F.ux j + phys n S s.uy j * phys n S F.uy j))
        + τ ^ 3 * gridMean n (fun j => phys n S F.eta j
          * (phys n S F.ux j ^ 2 + phys n S F.uy j ^ 2) / 2) := by
  have hk : RealSw S (kickSw τ s F) := ⟨RealOn.kick hs.1 hF.1 τ, RealOn.kick hs.2.1 hF.2.1 τ,
    RealOn.kick hs.2.2 hF.2.2 τ⟩
  rw [swEK δ c2 fd fdHypo dt F hk, swEK δ c2 fd fdHypo dt F hs, swPK1 δ c2 fd fdHypo dt hs hF,
    ← gridMean_mul, ← gridMean_mul, ← gridMean_mul, ← gridMean_sub, ← gridMean_add, ← gridMean_add]
  refine gridMean_congr n fun j => ?_
  simp only [kickSw, phys_kick]
  ring

/-- C59 (sw1l), the part which holds: the energy `EA` given by the forcing in one time step is
`deltat * PA_tot`, and `PK1` is the rate at which the forcing gives kinetic energy. What is missing is
`PK2` (see `C59_sw1l_injection_violated`). -/
theorem C59_sw1l_injection_partial (δ : Fin 2 → ℝ) (c2 : ℝ) (fd fdHypo : (Fin 2 → ℤ) → ℝ) (dt : ℝ)
    {s F : Sw} (hs : RealSw S s) (hF : RealSw S F) :
    let M := fun s => swMeans n S δ c2 fd fdHypo dt s F
    (M (kickSw dt s F)).EA - (M s).EA = dt * (M s).PA.tot ∧
      HasDerivAt (fun τ => (M (kickSw τ s F)).EK) (M s).PK.p1 0 ∧
      (M s).PK.tot = (M s).PK.p1 + (M s).PK.p2 ∧ (M s).PA.tot = (M s).PA.p1 + (M s).PA.p2 := by
  intro M
  refine ⟨(C59_msw_injection S δ c2 fd fdHypo dt s F).2.1, ?_, rfl, rfl⟩
  have e : (fun τ => (M (kickSw τ s F)).EK) = fun τ => (M s).EK + (τ * (M s).PK.p1
        + τ ^ 2 * gridMean n (fun j => (1 + phys n S s.eta j)
          * (phys n S F.ux j ^ 2 + phys n S F.uy j ^ 2) / 2
          + phys n S F.eta j
            * (phys n S s.ux j * phys n S F.ux j + phys n S s.uy j * phys n S F.uy j))
        + τ ^ 3 * gridMean n (fun j => phys n S F.eta j
          * (phys n S F.ux j ^ 2 + phys n S F.uy j ^ 2) / 2)) := by
    funext τ
    have := swEK_kick (n := n) δ c2 fd fdHypo dt hs hF τ
    linarith
  rw [e]
  have h := (((hasDerivAt_id (0 : ℝ)).mul_const (M s).PK.p1).fun_add
    (((hasDerivAt_id (0 : ℝ)).fun_pow 2).mul_const (gridMean n (fun j => (1 + phys n S s.eta j)
          * (phys n S F.ux j ^ 2 + phys n S F.uy j ^ 2) / 2
          + phys n S F.eta j
            * (phys n S s.ux j * phys n S F.ux j + phys n S s.uy j * phys n S F.uy j))))).fun_add
    (((hasDerivAt_id (0 : ℝ)).fun_pow 3).mul_const (gridMean n (fun j => phys n S F.eta j
          * (phys n S F.ux j ^ 2 + phys n S F.uy j ^ 2) / 2)))
  refine (h.const_add (M s).EK).congr_deriv ?_
  simp

/-- C59 is violated by sw1l: `PK2` has half of the term of the square of the forcing. When only the
velocity is forced, the kinetic energy given by the forcing in one time step is
`deltat * (PK1 + 2 * PK2)`, not `deltat * PK_tot`; and there are states and forcings for which `PK2` is
not zero (a flow at rest, forced for `ux` only). -/
theorem C59_sw1l_injection_violated :
    (∀ (n : Fin 2 → ℕ) (S : Finset (Fin 2 → ℤ)) (δ : Fin 2 → ℝ) (c2 : ℝ)
        (fd fdHypo : (Fin 2 → ℤ) → ℝ) (dt : ℝ) (s F : Sw), RealSw S s → RealSw S F →
        (∀ k ∈ S, F.eta k = 0) →
        let M := fun s => swMeans n S δ c2 fd fdHypo dt s F
        (M (kickSw dt s F)).EK - (M s).EK = dt * ((M s).PK.p1 + 2 * (M s).PK.p2)) ∧
      ∃ (n : Fin 2 → ℕ) (S : Finset (Fin 2 → ℤ)) (s F : Sw), (∀ d, 0 < n d) ∧ Distinct n S ∧
        RealSw S s ∧ RealSw S F ∧ ∀ δ c2 fd fdHypo,
          let M := fun s => swMeans n S δ c2 fd fdHypo 1 s F
          (M s).PK.tot = 1 / 2 ∧ (M (kickSw 1 s F)).EK - (M s).EK = 1 := by
  have main : ∀ (n : Fin 2 → ℕ) (S : Finset (Fin 2 → ℤ)) (δ : Fin 2 → ℝ) (c2 : ℝ)
        (fd fdHypo : (Fin 2 → ℤ) → ℝ) (dt : ℝ) (s F : Sw), RealSw S s → RealSw S F →
        (∀ k ∈ S, F.eta k = 0) →
        let M := fun s => swMeans n S δ c2 fd fdHypo dt s F
        (M (kickSw dt s F)).EK - (M s).EK = dt * ((M s).PK.p1 + 2 * (M s).PK.p2) := by
    intro n S δ c2 fd fdHypo dt s F hs hF h0 M
    have hz : ∀ j : Pt n, phys n S F.eta j = 0 := by
      intro j
      have : gridVal n S F.eta j = 0 := by
        simp only [gridVal]; exact sum_eq_zero fun k hk => by rw [h0 k hk, zero_mul]
      rw [phys, this, Complex.zero_re]
    have h := swEK_kick (n := n) δ c2 fd fdHypo dt hs hF dt
    change (swMeans n S δ c2 fd fdHypo dt (kickSw dt s F) F).EK
      - (swMeans n S δ c2 fd fdHypo dt s F).EK = dt * ((swMeans n S δ c2 fd fdHypo dt s F).PK.p1
        + 2 * (swMeans n S δ c2 fd fdHypo dt s F).PK.p2)
    rw [h, swPK2 δ c2 fd fdHypo dt hs hF]
    simp only [hz, zero_mul, add_zero, mul_zero, zero_div]
    have e : gridMean n (fun j => (1 + phys n S s.eta j)
          * (phys n S F.ux j ^ 2 + phys n S F.uy j ^ 2) / 2)
        = 2 * gridMean n (fun j => (1 + phys n S s.eta j)
          * (phys n S F.ux j ^ 2 + phys n S F.uy j ^ 2) / 4) := by
      rw [← gridMean_mul]; exact gridMean_congr n fun j => by ring
    have z : gridMean n (fun _ => (0 : ℝ)) = 0 := by simp [gridMean]
    rw [e, z]; ring
  refine ⟨main, ?_⟩
  let S : Finset (Fin 2 → ℤ) := {![1, 0], ![-1, 0]}
  let n : Fin 2 → ℕ := fun _ => 4
  let s : Sw := ⟨fun _ => 0, fun _ => 0, fun _ => 0⟩
  let F : Sw := ⟨fun _ => 1, fun _ => 0, fun _ => 0⟩
  have hneg : ∀ k ∈ S, -k ∈ S := by decide
  have hn : ∀ d, 0 < n d := fun _ => by norm_num [n]
  have hD : Distinct n S := by
    have := (noAlias_of_small n S (by decide)).2
    exact this
  have hs : RealSw S s := ⟨fun k hk => ⟨hneg k hk, by simp [s]⟩, fun k hk => ⟨hneg k hk, by simp [s]⟩,
    fun k hk => ⟨hneg k hk, by simp [s]⟩⟩
  have hF : RealSw S F := ⟨fun k hk => ⟨hneg k hk, by simp [F]⟩, fun k hk => ⟨hneg k hk, by simp [F]⟩,
    fun k hk => ⟨hneg k hk, by simp [F]⟩⟩
  refine ⟨n, S, s, F, hn, hD, hs, hF, fun δ c2 fd fdHypo => ?_⟩
  have hz : ∀ j : Pt n, phys n S (fun _ => (0 : ℂ)) j = 0 := by
    intro j; simp [phys, gridVal]
  have p1 : (swMeans n S δ c2 fd fdHypo 1 s F).PK.p1 = 0 := by
    rw [swPK1 δ c2 fd fdHypo 1 hs hF]
    simp [s, F, hz, gridMean]
  have hF2 : gridMean n (fun j => phys n S F.ux j ^ 2) = 2 := by
    rw [← sumSq_mean hn hD hF.1]
    simp only [F, norm_one, one_pow, S]
    rw [sum_pair (by decide)]; norm_num
  have p2 : (swMeans n S δ c2 fd fdHypo 1 s F).PK.p2 = 1 / 2 := by
    rw [swPK2 δ c2 fd fdHypo 1 hs hF]
    have : gridMean n (fun j => (1 + phys n S s.eta j)
          * (phys n S F.ux j ^ 2 + phys n S F.uy j ^ 2) / 4
        + 3 / 4 * (phys n S F.eta j
          * (phys n S s.ux j * phys n S F.ux j + phys n S s.uy j * phys n S F.uy j)))
        = gridMean n (fun j => phys n S F.ux j ^ 2) / 4 := by
      rw [← gridMean_div]
      refine gridMean_congr n fun j => ?_
      simp only [s, F, hz]; ring
    rw [this, hF2]; norm_num
  refine ⟨?_, ?_⟩
  · change (swMeans n S δ c2 fd fdHypo 1 s F).PK.p1 + (swMeans n S δ c2 fd fdHypo 1 s F).PK.p2 = 1 / 2
    rw [p1, p2]; norm_num
  · rw [main n S δ c2 fd fdHypo 1 s F hs hF (fun _ _ => rfl), p1, p2]; norm_num

/-! ### conversion, skewness and kurtosis -/

/-- C59 (sw1l): the mean of the divergence of a periodic field is zero, and then the conversion is the
sum of the two saved moments (the last one halved). -/
theorem C59_sw1l_conversion {J : Type*} [Fintype J] (c2 : ℝ) (eta div : J → ℝ)
    (h : ∑ j, div j = 0) :
    (conversion c2 eta div).1 = (conversion c2 eta div).2.1 + (conversion c2 eta div).2.2 / 2 := by
  have e : ∑ j, (eta j + 1) ^ 2 * div j
      = ∑ j, eta j ^ 2 * div j + 2 * ∑ j, eta j * div j + ∑ j, div j := by
    rw [mul_sum, ← sum_add_distrib, ← sum_add_distrib]
    exact sum_congr rfl fun j _ => by ring
  simp only [conversion]
  rw [e, h]; ring

/-- C59 (sw1l), in a sequential run: the saved kurtosis is at least one. -/
theorem C59_sw1l_kurtosis_partial {J : Type*} [Fintype J] {c2 EA : ℝ} (hc : c2 ≠ 0) (eta : J → ℝ)
    (hEA : EA = c2 * ((∑ j, eta j ^ 2) / Fintype.card J) / 2) (h0 : ∃ j, eta j ≠ 0) :
    1 ≤ (skewKurt univ c2 EA eta).2 := by
  obtain ⟨j0, hj0⟩ := h0
  have hcard : (0 : ℝ) < Fintype.card J := by exact_mod_cast Fintype.card_pos_iff.2 ⟨j0⟩
  have hpos : 0 < ∑ j, eta j ^ 2 :=
    sum_pos' (fun j _ => sq_nonneg _) ⟨j0, mem_univ _, by positivity⟩
  have hm : 2 / c2 * EA = (∑ j, eta j ^ 2) / Fintype.card J := by
    rw [hEA]; field_simp
  have hne : (∑ j, eta j ^ 2) / (Fintype.card J : ℝ) ≠ 0 := (div_pos hpos hcard).ne'
  simp only [skewKurt, hm, if_neg hne, card_univ]
  have hcs : (∑ j, eta j ^ 2) ^ 2 ≤ Fintype.card J * ∑ j, eta j ^ 4 := by
    have := sq_sum_le_card_mul_sum_sq (s := (univ : Finset J)) (f := fun j => eta j ^ 2)
    simp only [card_univ, ← pow_mul] at this
    exact this
  rw [le_div_iff₀ (by positivity), one_mul, div_pow, div_le_div_iff₀ (by positivity) hcard]
  nlinarith [hcs, hcard]

/-- C59 is violated by sw1l with several processes: the saved kurtosis and skewness use the mean over
the part of the grid of the process which writes; here the first of two processes saves a kurtosis of
zero (for a field with a kurtosis of two). -/
theorem C59_sw1l_kurtosis_violated :
    ∃ (eta : Fin 2 → ℝ) (EA : ℝ), EA = 1 * ((∑ j, eta j ^ 2) / Fintype.card (Fin 2)) / 2 ∧
      (skewKurt univ 1 EA eta).2 = 2 ∧ (skewKurt {0} 1 EA eta).2 = 0 := by
  refine ⟨![0, 1], 1 / 4, by norm_num [Fin.sum_univ_two], ?_, ?_⟩
  · simp only [skewKurt]
    rw [if_neg (by norm_num)]
    norm_num [Fin.sum_univ_two]
  · simp only [skewKurt]
    rw [if_neg (by norm_num)]
    simp

/-- The hypotheses are met: a damped state with the three fields, real at all times. -/
example : ∃ s : ℝ → Sw, (s 0).ux = (fun _ => 1) ∧ (s 0).uy = (fun _ => 2) ∧ (s 0).eta = (fun _ => 1 / 4) ∧
    (∀ τ, RealSw exS4 (s τ)) ∧ EvolvesSw exS4 s noTendency (fun _ => 3 + 1) 0 := by
  have hneg : ∀ k ∈ exS4, -k ∈ exS4 := by decide
  let f : ℂ → ℝ → Fld (Fin 2) := fun c s _ => c + s * (0 - ((3 + 1 : ℝ) : ℂ) * c)
  have h0 : ∀ c, f c 0 = fun _ => c := fun c => by funext k; simp [f]
  have hr : ∀ c : ℂ, (starRingEnd ℂ) c = c → ∀ τ, RealOn exS4 (f c τ) := by
    intro c hc τ k hk
    refine ⟨hneg k hk, ?_⟩
    simp only [f, map_add, map_mul, map_sub, map_zero, Complex.conj_ofReal, hc]
  refine ⟨fun s => ⟨f 1 s, f 2 s, f (1 / 4) s⟩, h0 _, h0 _, h0 _, fun τ => ⟨hr _ (by simp) τ,
    hr _ (by simp [Complex.conj_ofNat]) τ, hr _ (by simp [Complex.conj_ofNat]) τ⟩, ?_⟩
  have hev : ∀ c, Evolves exS4 (f c) (fun _ => 0) (fun _ => 3 + 1) 0 := by
    intro c k hk
    rw [h0]
    have := evolves_exists exS4 (fun _ => c) (fun _ => 0) (fun _ => 3 + 1) k hk
    simpa [f] using this
  exact ⟨hev 1, hev 2, hev (1 / 4)⟩

/-- A field with zero mean divergence, and one with kurtosis two. -/
example : ∑ j, ![1, -1] j = (0 : ℝ) ∧ (conversion 1 ![1, 2] ![1, -1]).1 = -(5 / 4) := by
  constructor
  · norm_num [Fin.sum_univ_two]
  · norm_num [conversion, Fin.sum_univ_two]

end

end Verif.SpatialMeans
