import Verif.Invariants.PropsEnergy
import Verif.EndToEnd.PropsPlate
import Verif.SpatialMeans.PropsSw1l

/-! # C101: the energies of burgers1d, sw1l.modified and plate2d along the runs -/

set_option linter.unusedSectionVars false

namespace Verif.Invariants

open Verif.Fourier Verif.Energy Verif.Vectors Verif.Galerkin Verif.Schemes Verif.EndToEnd Verif.Convergence Verif.SpatialMeans Verif.BudgetCurves
  Finset

noncomputable section

theorem quad_deriv {D V : Type*} [DecidableEq (D → ℤ)] [Fintype V] {S : Finset (D → ℤ)} (w : V → (D → ℤ) → ℝ) {s : ℝ → V → Fld D}
    {R : V → Fld D} {t : ℝ} (h : ∀ v, ∀ k ∈ S, HasDerivAt (fun t => s t v k) (R v k) t) :
    HasDerivAt (fun t => quad S w (s t)) (∑ v, ∑ k ∈ S, w v k * (2 * (R v k * (starRingEnd ℂ) (s t v k)).re)) t := by
  refine HasDerivAt.fun_sum fun v _ => HasDerivAt.fun_sum fun k hk => ?_
  refine ((h v k hk).norm_sq.const_mul (w v k)).congr_deriv ?_
  rw [Complex.inner]

/-- The dissipation of a quadratic quantity. -/
def quadDiss {D V : Type*} [Fintype D] [Fintype V] (S : Finset (D → ℤ)) (δ : D → ℝ) (nu : Dissip.Nu) (w : V → (D → ℤ) → ℝ)
    (u : V → Fld D) : ℝ :=
  ∑ v, ∑ k ∈ S, w v k * (2 * (damping δ nu k * ‖u v k‖ ^ 2))

theorem damping_nonneg {D : Type*} [Fintype D] (δ : D → ℝ) {nu : Dissip.Nu} (hnu : Nu.Ok nu) (k : D → ℤ) : 0 ≤ damping δ nu k := by
  obtain ⟨h2, h4, h8, -⟩ := id hnu
  rw [damping, fd_eq hnu]
  have : 0 ≤ waveSq δ k := sum_nonneg fun d _ => sq_nonneg _
  positivity

/-- A solution of an equation whose tendencies conserve the quantity. -/
theorem quad_along {D V : Type*} [Fintype D] [DecidableEq (D → ℤ)] [Fintype V] {G S : Finset (D → ℤ)} (hG : S ⊆ G) {δ : D → ℝ}
    {Q : (V → Fld D) → ℝ} {w : V → (D → ℤ) → ℝ} (hw : ∀ v k, 0 ≤ w v k) (hQ : ∀ u, Q u = quad S w u) {order : ℕ}
    {T : ℝ} {s : ℝ → V → Fld D} {cfl : Bool} {u : (ℕ → ℝ) → ℕ → Arr (V × G)}
    (hu : ConvergesWithOrder order T (fun t => array G (s t)) cfl u) {nu : Dissip.Nu} (hnu : Nu.Ok nu) {tend : (V → Fld D) → V → Fld D}
    (hs : ∀ t ∈ Set.Icc 0 T, ∀ v, ∀ k ∈ S, HasDerivAt (fun t => s t v k) (tend (s t) v k - dissipation δ nu (s t v) k) t)
    (hc : ∀ t ∈ Set.Icc 0 T, ∑ v, ∑ k ∈ S, w v k * (tend (s t) v k * (starRingEnd ℂ) (s t v k)).re = 0) :
    AlongRuns order T cfl u fun a ε => Decays nu (Q (fields G a)) (Q (s 0)) ε := by
  refine along_runs hG hQ hu (fun v k hk t ht => (hs t ht v k hk).continuousAt.continuousWithinAt)
    (eps := fun t => quadDiss S δ nu w (s t)) (fun t ht => ?_) (fun t => ?_) fun a b c t => ?_
  · simp only [hQ]
    refine (quad_deriv w (hs t ht)).congr_deriv ?_
    have e : ∀ v k, w v k * (2 * ((tend (s t) v k - dissipation δ nu (s t v) k) * (starRingEnd ℂ) (s t v k)).re)
        = 2 * (w v k * (tend (s t) v k * (starRingEnd ℂ) (s t v k)).re) - w v k * (2 * (damping δ nu k * ‖s t v k‖ ^ 2)) := by
      intro v k
      have : dissipation δ nu (s t v) k = (damping δ nu k : ℂ) * s t v k := by simp only [dissipation, damping, fd_eq hnu, waveSq]
      rw [this, sub_mul, Complex.sub_re, mul_assoc, Complex.mul_conj, Complex.normSq_eq_norm_sq, ← Complex.ofReal_mul, Complex.ofReal_re]
      ring
    simp only [e, sum_sub_distrib, ← mul_sum, hc t ht]
    simp [quadDiss]
  · refine sum_nonneg fun v _ => sum_nonneg fun k _ => ?_
    have := hw v k
    have := damping_nonneg δ hnu k
    positivity
  · simp [quadDiss, damping, fd_eq hnu, a, b, c]

/-- Energy of a velocity on the grid: half the mean of its square. -/
def gridEnergy {D : Type*} [Fintype D] [DecidableEq D] (n : D → ℕ) (S : Finset (D → ℤ)) (a : Fld D) : ℝ :=
  (∑ j : Pt n, ‖gridVal n S a j‖ ^ 2) / (∏ d, (n d : ℝ)) / 2

/-- C101 (burgers1d and burgers1d.skew_sym, with a truncation which removes the aliases): the energy. -/
theorem C101_energy_burgers (skew : Bool) {nx : ℕ} (hn : 1 < nx) {S : Finset (Unit → ℤ)} (h3 : ∀ k ∈ S, 3 * |k ()| < nx) (δ : ℝ)
    {nu : Dissip.Nu} (hnu : Nu.Ok nu) {u0 : Fld Unit} (h0 : RealField S u0) {T : ℝ} (hT : 0 ≤ T) {G : Finset (Unit → ℤ)} (hG : S ⊆ G)
    {c : Scheme × ℕ} (hc : c ∈ orders) (ps pa pb : ℕ → Arr (Unit × G)) (heap : Heap (Unit × G)) (g1 g2 : Arr (Unit × G)) (cfl : Bool) :
    AlongRuns c.2 T cfl
      (states c.1 (onArrays G (tendBurgers skew nx S δ)) (freqDiss G (fun _ => δ) nu) (truncated G S) ps pa pb heap g1 g2 cfl
        (array G fun _ => u0))
      fun a ε => Decays nu (gridEnergy (fun _ => nx) S (fields G a ())) (gridEnergy (fun _ => nx) S u0) ε := by
  have hz : RealField S (fun _ => 0) := ⟨fun k hk => ⟨(h0.1 k hk).1, by simp⟩, fun _ _ => rfl⟩
  obtain ⟨u, e0, hf, -, hconv⟩ := C87_burgers skew hn h3 δ hnu hz h0 hT
  have hconv := hconv G hG c hc ps pa pb heap g1 g2 cfl
  rw [forced_zero] at hconv
  subst e0
  refine quad_along hG (δ := fun _ => δ) (Q := fun a => gridEnergy (fun _ => nx) S (a ())) (w := fun _ _ => 1 / 2) (fun _ _ => by norm_num)
    (fun a => ?_) hconv hnu (tend := tendBurgers false nx S δ) (fun t ht _ k hk => ?_) fun t ht => ?_
  · have hD := (burgers_noAlias h3).distinct
    have hp := parseval (fun _ : Unit => nx) S (gridVal (fun _ => nx) S (a ())) (a ())
    have e : ∀ k ∈ S, fftCoef (fun _ : Unit => nx) (gridVal (fun _ => nx) S (a ())) k = a () k := fun k hk => fft_grid (fun _ => by omega) hD _ hk
    have hre := congrArg Complex.re hp
    rw [sum_congr rfl fun k hk => by rw [e k hk, Complex.mul_conj, Complex.normSq_eq_norm_sq]] at hre
    simp only [gmean, Complex.mul_conj, Complex.normSq_eq_norm_sq, ← Complex.ofReal_sum, ← Complex.ofReal_natCast, ← Complex.ofReal_prod,
      ← Complex.ofReal_div, Complex.ofReal_re] at hre
    simp only [quad, gridEnergy, Finset.univ_unique, Finset.sum_singleton, ← mul_sum, hre]
    ring
  · refine (hf.eq t ht k hk).congr_deriv ?_
    have := (C57_burgers (by omega) (burgers_noAlias h3) δ (u t) (burgers_kept hn h3 hk)).1
    simp only [tendBurgers, Bool.false_eq_true, if_false, this, add_zero]
  · have := (Burgers.C51_conserved_partial hn δ (hf.real t ht).1 h3).2
    simp only [rate] at this
    simp only [Finset.univ_unique, Finset.sum_singleton, ← mul_sum, tendBurgers, Bool.false_eq_true, if_false, this, mul_zero]

/-- C101 (sw1l.modified): the energy saved by `spatial_means` (the sum of the kinetic and potential energies, `C59_msw_injection`). -/
theorem C101_energy_sw1l_modified {p : Sw1l.Par} (h : p.Ok) {n : Fin 2 → ℕ} (hn : ∀ d, 0 < n d) {S : Finset (Fin 2 → ℤ)} (hS : NoAlias n S)
    {nu : Dissip.Nu} (hnu : Nu.Ok nu) {u0 : Fin 3 → Fld (Fin 2)} (h0 : ∀ v, RealField S (u0 v)) {T : ℝ} (hT : 0 ≤ T)
    (fd fdHypo : (Fin 2 → ℤ) → ℝ) (dt : ℝ) (F : Sw) {G : Finset (Fin 2 → ℤ)} (hG : S ⊆ G) {c : Scheme × ℕ} (hc : c ∈ orders)
    (ps pa pb : ℕ → Arr (Fin 3 × G)) (heap : Heap (Fin 3 × G)) (g1 g2 : Arr (Fin 3 × G)) (cfl : Bool) :
    let M := fun u : Fin 3 → Fld (Fin 2) => mswMeans S p.δ p.c2 fd fdHypo dt ⟨u 0, u 1, u 2⟩ F
    AlongRuns c.2 T cfl
      (states c.1 (onArrays G (tendModified p n S)) (freqDiss G p.δ nu) (truncated G S) ps pa pb heap g1 g2 cfl (array G u0))
      fun a ε => Decays nu (M (fields G a)).E (M u0).E ε := by
  intro M
  have hz : RealField S (fun _ => 0) := ⟨fun k hk => ⟨((h0 0).1 k hk).1, by simp⟩, fun _ _ => rfl⟩
  obtain ⟨u, e0, hf, -, hconv⟩ := C87_sw1l_modified (n := n) h hn hS hnu (F := fun _ _ => 0) (fun _ => hz) h0 hT
  have hconv := hconv G hG c hc ps pa pb heap g1 g2 cfl
  rw [forced_zero] at hconv
  subst e0
  refine quad_along hG (δ := p.δ) (Q := fun a => (M a).E) (w := fun v _ => ![1 / 2, 1 / 2, p.c2 / 2] v)
    (fun v _ => by have := h.2.le; fin_cases v <;> simp; linarith)
    (fun a => ?_) hconv hnu (tend := tendModified p n S) (fun t ht v k hk => ?_) fun t ht => ?_
  · simp only [M, mswMeans, quad, Fin.sum_univ_three, ← sum_add_distrib]
    refine sum_congr rfl fun k _ => ?_
    simp only [Matrix.cons_val_zero, Matrix.cons_val_one, Matrix.cons_val]
    ring
  · have hv := (velocity2_ux2 h.1 _ : RotationalPart S p.δ (u t 0) (u t 1) _ _)
    obtain ⟨h1, h2, h3⟩ := modified_eqs hn hS h.1 nu (fun _ _ => 0) (u t) hv hk
    rw [forced_zero] at h1 h2 h3
    fin_cases v
    · exact (hf.eqx t ht _ _ hv k hk).congr_deriv h1.symm
    · exact (hf.eqy t ht _ _ hv k hk).congr_deriv h2.symm
    · exact (hf.eqeta t ht _ _ hv k hk).congr_deriv h3.symm
  · have := Sw1l.C54_energy (p := p) hn (SpectBudget.triad_of_noAlias hS (h0 0).1) hS.distinct (uEta (u t)) (hf.real t ht 0).1
      (hf.real t ht 1).1 (hf.real t ht 2).1
    simp only [Sw1l.rateQuadratic, rate, mul_sum] at this
    simp only [Fin.sum_univ_three]
    simp only [Matrix.cons_val_zero, Matrix.cons_val_one, Matrix.cons_val, ← mul_sum]
    simp only [← mul_sum] at this
    have e : ∀ x y z c : ℝ, x + y + c * z = 0 → 1 / 2 * x + 1 / 2 * y + c / 2 * z = 0 := by intro x y z c h; linarith
    exact e _ _ _ _ this

/-- The values of a smooth function of the computed states are close to those of the solution. -/
theorem smooth_near {ι : Type*} [Fintype ι] {order : ℕ} {T : ℝ} {s : ℝ → Arr ι} {cfl : Bool} {u : (ℕ → ℝ) → ℕ → Arr ι}
    (hu : ConvergesWithOrder order T s cfl u) (hs : ContinuousOn s (Set.Icc 0 T)) {P : Arr ι → ℝ} (hP : ContDiff ℝ 1 P) :
    ∃ C h0 : ℝ, 0 < h0 ∧ ∀ (h : ℝ) (dt : ℕ → ℝ), h ≤ h0 → (∀ k, 0 < dt k ∧ dt k ≤ h) → (cfl = false → ∀ k, dt k = dt 0) →
      ∀ k : ℕ, elapsed dt k ≤ T → |P (u dt k) - P (s (elapsed dt k))| ≤ C * h ^ order := by
  obtain ⟨C, h0, hh0, hc⟩ := hu
  obtain ⟨M, hM⟩ := isCompact_Icc.exists_bound_of_continuousOn hs
  obtain ⟨K, hK⟩ := hP.contDiffOn.exists_lipschitzOnWith (s := Metric.closedBall (0 : Arr ι) (M + |C| * h0 ^ order)) one_ne_zero
    (convex_closedBall _ _) (isCompact_closedBall _ _)
  refine ⟨K * C, h0, hh0, fun h dt hh hdt hfix k hk => ?_⟩
  have hpos : 0 < h := (hdt 0).1.trans_le (hdt 0).2
  have ht : elapsed dt k ∈ Set.Icc 0 T := ⟨sum_nonneg fun j _ => (hdt j).1.le, hk⟩
  have he := hc h dt hh hdt hfix k hk
  have hm := hM _ ht
  have hle : C * h ^ order ≤ |C| * h0 ^ order :=
    mul_le_mul (le_abs_self C) (pow_le_pow_left₀ hpos.le hh _) (by positivity) (abs_nonneg C)
  have h1 : u dt k ∈ Metric.closedBall (0 : Arr ι) (M + |C| * h0 ^ order) := by
    rw [mem_closedBall_zero_iff]
    calc ‖u dt k‖ = ‖s (elapsed dt k) + (u dt k - s (elapsed dt k))‖ := by rw [add_sub_cancel]
      _ ≤ _ := (norm_add_le _ _).trans (add_le_add hm (he.trans hle))
  have h2 : s (elapsed dt k) ∈ Metric.closedBall (0 : Arr ι) (M + |C| * h0 ^ order) := by
    rw [mem_closedBall_zero_iff]
    have : 0 ≤ |C| * h0 ^ order := by positivity
    linarith
  have := hK.dist_le_mul _ h1 _ h2
  rw [Real.dist_eq, dist_eq_norm] at this
  rw [mul_assoc]
  exact this.trans (mul_le_mul_of_nonneg_left he K.2)

theorem plateE_smooth (n : Fin 2 → ℕ) (δ : Fin 2 → ℝ) (S H : Finset (Fin 2 → ℤ)) (G : Finset (Fin 2 → ℤ)) :
    ContDiff ℝ 1 fun a : Arr (Fin 2 × G) => plateEnergy δ S H (fields G a 0) (fields G a 1) (chiFft n δ S (fields G a 1)) := by
  have hf := fun v => cd_fields (V := Fin 2) G 1 v
  have hsq : ∀ {f : Arr (Fin 2 × G) → ℂ}, ContDiff ℝ ((1 : ℕ) : WithTop ℕ∞) f → ContDiff ℝ ((1 : ℕ) : WithTop ℕ∞) fun a => ‖f a‖ ^ 2 :=
    fun hf => hf.norm_sq ℝ
  have : ContDiff ℝ ((1 : ℕ) : WithTop ℕ∞) fun a : Arr (Fin 2 × G) =>
      plateEnergy δ S H (fields G a 0) (fields G a 1) (chiFft n δ S (fields G a 1)) := by
    unfold plateEnergy
    exact ((contDiff_const.mul (ContDiff.sum fun k _ => hsq (hf 0 k))).add
      (contDiff_const.mul (ContDiff.sum fun k _ => contDiff_const.mul (hsq (hf 1 k))))).add
      (contDiff_const.mul (ContDiff.sum fun k _ => contDiff_const.mul (hsq (cd_chi (hf 1) n δ S k))))
  exact this

/-- C101 (plate2d with `coef_dealiasing <= 1/2`): the energy saved by `spatial_means`, the sum of the kinetic energy and of the two elastic
energies (`C59_plate_energies`). -/
theorem C101_energy_plate2d {n : Fin 2 → ℕ} (hn : ∀ d, 0 < n d) {S H : Finset (Fin 2 → ℤ)} (hS4 : ∀ k ∈ S, ∀ d, 4 * |k d| < n d)
    (hH2 : ∀ k ∈ H, ∀ d, 2 * |k d| ≤ n d) (hH : ∀ k ∈ H, -k ∈ H) (hSH : ∀ p ∈ S, ∀ q ∈ S, p + q ∈ H) {δ : Fin 2 → ℝ} (hδ : ∀ d, δ d ≠ 0)
    {nu : Dissip.Nu} (hnu : Nu.Ok nu) {w0 z0 : Fld (Fin 2)} (hw0 : RealField S w0) (hz0 : RealField S z0) {T : ℝ} (hT : 0 ≤ T)
    (fd fdHypo : (Fin 2 → ℤ) → ℝ) (dt0 : ℝ) (F : Fld (Fin 2)) {G : Finset (Fin 2 → ℤ)} (hG : S ⊆ G) {c : Scheme × ℕ} (hc : c ∈ orders)
    (ps pa pb : ℕ → Arr (Fin 2 × G)) (heap : Heap (Fin 2 × G)) (g1 g2 : Arr (Fin 2 × G)) (cfl : Bool) :
    let M := fun u : Fin 2 → Fld (Fin 2) => plateMeans n δ S H fd fdHypo dt0 (u 0) (u 1) F
    AlongRuns c.2 T cfl
      (states c.1 (onArrays G (tendPlate n S H δ)) (array G (freqPlate δ nu)) (truncated G S) ps pa pb heap g1 g2 cfl (array G ![w0, z0]))
      fun a ε => Decays nu (M (fields G a)).E (M ![w0, z0]).E ε := by
  intro M
  have hz : RealField S (fun _ => 0) := ⟨fun k hk => ⟨(hw0.1 k hk).1, by simp⟩, fun _ _ => rfl⟩
  obtain ⟨w, z, e0, ez0, hf, -, hconv⟩ := C87_plate2d hn hS4 hH2 hSH hδ hnu hz hw0 hz0 hT
  have hconv := hconv G hG c hc ps pa pb heap g1 g2 cfl
  have e : (![fun _ => 0, 0] : Fin 2 → Fld (Fin 2)) = fun _ _ => 0 := by
    funext v; fin_cases v <;> rfl
  rw [e, forced_zero] at hconv
  subst e0 ez0
  have hE : ∀ u, (M u).E = plateEnergy δ S H (u 0) (u 1) (chiFft n δ S (u 1)) := fun u =>
    (C59_plate_energies n δ S H fd fdHypo dt0 (u 0) (u 1) F).1
  have hw : ∀ t ∈ Set.Icc 0 T, SpectBudget.Evolves S w (fun k => (plate2d n δ S H (w t) (z t)).1 k + (fun _ => 0) k)
      (fun k => damping δ nu k + 0) t := by
    intro t ht k hk
    obtain ⟨chi, hchi⟩ := airy_exists hδ S (z t)
    refine (hf.eqw t ht chi hchi k hk).congr_deriv ?_
    simp only [(C57_plate2d_partial hn hS4 hH2 hSH hδ (w := w t) hchi hk).1, dissipation, add_zero, damping, fd_eq hnu, waveSq]
  have hzd : ∀ t ∈ Set.Icc 0 T, ∀ k ∈ S, HasDerivAt (fun s => z s k) ((plate2d n δ S H (w t) (z t)).2 k) t := by
    intro t ht k hk
    obtain ⟨chi, hchi⟩ := airy_exists hδ S (z t)
    rw [(C57_plate2d_partial hn hS4 hH2 hSH hδ (w := w t) hchi hk).2]
    exact hf.eqz t ht k hk
  have hzero : ∀ t ∈ Set.Icc 0 T, ∀ v k, k ∉ S → (![w t, z t] : Fin 2 → Fld (Fin 2)) v k = 0 := by
    intro t ht v k hk
    fin_cases v
    · exact (hf.real t ht).1.2 k hk
    · exact (hf.real t ht).2.2 k hk
  have hl := fun t ht => ((C59_plate_budget hn hδ (damping δ nu) (fun _ => 0) dt0 w z (fun _ => 0) t (hw t ht) (hzd t ht)).2.2 hH
    (hf.real t ht).1.1 (hf.real t ht).2.1 (fun p hp q hq m hm hdvd d => by
      refine dvd_small (hdvd d) ?_
      have h1 := hS4 p hp d
      have h2 := hS4 q hq d
      have h3 := hH2 m hm d
      have := abs_add_le (p d + q d) (m d)
      have := abs_add_le (p d) (q d)
      omega)).2
  have hcont : ContinuousOn (fun t => array G ![w t, z t]) (Set.Icc 0 T) := by
    refine continuousOn_pi.2 fun ⟨v, k, hk⟩ => ?_
    by_cases hkS : k ∈ S
    · intro t ht
      fin_cases v
      · exact (hw t ht k hkS).continuousAt.continuousWithinAt
      · exact (hzd t ht k hkS).continuousAt.continuousWithinAt
    · exact (continuousOn_const (c := (0 : ℂ))).congr fun t ht => hzero t ht v k hkS
  have hnear := smooth_near hconv hcont (plateE_smooth n δ S H G)
  have h0 : (M ![w 0, z 0]).E = (plateMeans n δ S H (damping δ nu) (fun _ => 0) dt0 (w 0) (z 0) fun _ => 0).E := rfl
  rw [h0]
  refine along_of_near (P := fun a => (M (fields G a)).E) (q := fun t => (plateMeans n δ S H (damping δ nu) (fun _ => 0) dt0 (w t) (z t) fun _ => 0).E)
    ?_ (eps := fun t => (diss S (damping δ nu) (fun _ => 0) fun k => 0.5 * ‖w t k‖ ^ 2).tot) (fun t ht => (hl t ht).congr_deriv ?_)
    (fun t => diss_nonneg S δ hnu fun k => by positivity) fun a b c t => diss_zero S δ hnu _ a b c
  · obtain ⟨C, h0, hh0, hc⟩ := hnear
    refine ⟨C, h0, hh0, fun h dt hh hdt hfix k hk => ?_⟩
    have ht : elapsed dt k ∈ Set.Icc 0 T := ⟨sum_nonneg fun j _ => (hdt j).1.le, hk⟩
    have := hc h dt hh hdt hfix k hk
    rw [fields_array hG (hzero _ ht)] at this
    have e1 := (C59_plate_energies n δ S H (damping δ nu) (fun _ => 0) dt0 (w (elapsed dt k)) (z (elapsed dt k)) fun _ => 0).1
    rw [hE, e1]
    exact this
  · simp [plateMeans, SpectBudget.innerProd]

/-- Runs which meet the hypotheses. -/
example : (∀ k ∈ ({fun _ => -1, fun _ => 0, fun _ => 1} : Finset (Unit → ℤ)), 3 * |k ()| < ((4 : ℕ) : ℤ)) ∧
    RealField ({fun _ => -1, fun _ => 0, fun _ => 1} : Finset (Unit → ℤ)) (fun k => if k () = -1 ∨ k () = 1 then 1 else 0) ∧
    Sw1l.Par.Ok ⟨fun _ => 1, 1, 20⟩ ∧ (∀ k ∈ (EndToEnd.box : Finset (Fin 2 → ℤ)), ∀ d, 4 * |k d| < ((5 : ℕ) : ℤ)) ∧
    (Scheme.RK4, 4) ∈ orders :=
  ⟨fun k hk => by
      simp only [mem_insert, mem_singleton] at hk
      rcases hk with rfl | rfl | rfl <;> norm_num, one_mode_real, ⟨fun _ => one_ne_zero, by norm_num⟩, fun k hk d => by
      simp only [EndToEnd.box, Fintype.mem_piFinset, mem_insert, mem_singleton] at hk
      rcases hk d with h | h | h <;> rw [h] <;> norm_num, by simp [orders]⟩

end

end Verif.Invariants
