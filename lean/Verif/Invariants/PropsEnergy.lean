import Verif.Invariants.SpecEnergy
import Verif.BudgetCurves.PropsFlow
import Verif.EndToEnd.PropsStrat
import Verif.SpatialMeans.Props3dStrat
import Mathlib.Analysis.Calculus.Deriv.MeanValue

/-!
# C101: what the simulations conserve: the energies

Without force and without viscosity, the energies saved by the output `spatial_means` do not change during a run, up to an error smaller than
a constant times a power of the time step, the order of the time scheme; with viscosities they do not increase, up to this error.
-/

set_option linter.unusedSectionVars false

namespace Verif.Invariants

open Verif.Fourier Verif.Energy Verif.Vectors Verif.Galerkin Verif.Schemes Verif.EndToEnd Verif.Convergence Verif.SpatialMeans Verif.BudgetCurves
  Finset

noncomputable section

/-- A quadratic quantity: `Σ w |u|²`. -/
def quad {D V : Type*} [Fintype V] (S : Finset (D → ℤ)) (w : V → (D → ℤ) → ℝ) (u : V → Fld D) : ℝ := ∑ v, ∑ k ∈ S, w v k * ‖u v k‖ ^ 2

theorem sq_near (a b : ℂ) : |‖a‖ ^ 2 - ‖b‖ ^ 2| ≤ ‖a - b‖ * (2 * ‖b‖ + ‖a - b‖) := by
  have h := abs_norm_sub_norm_le a b
  have e : ‖a‖ ^ 2 - ‖b‖ ^ 2 = (‖a‖ - ‖b‖) * (2 * ‖b‖ + (‖a‖ - ‖b‖)) := by ring
  have hb := norm_nonneg b
  rw [e, abs_mul]
  refine mul_le_mul h ((abs_add_le _ _).trans ?_) (abs_nonneg _) (norm_nonneg _)
  rw [abs_of_nonneg (by positivity)]
  linarith

variable {D V : Type*} [DecidableEq (D → ℤ)] [Fintype V]

/-- The quadratic quantities of the computed states are close to those of the solution. -/
theorem quad_near {G S : Finset (D → ℤ)} (hG : S ⊆ G) (w : V → (D → ℤ) → ℝ) {order : ℕ} {T : ℝ} {s : ℝ → V → Fld D} {cfl : Bool}
    {u : (ℕ → ℝ) → ℕ → Arr (V × G)} (hu : ConvergesWithOrder order T (fun t => array G (s t)) cfl u)
    (hs : ∀ v, ∀ k ∈ S, ContinuousOn (fun t => s t v k) (Set.Icc 0 T)) :
    ∃ C h0 : ℝ, 0 < h0 ∧ ∀ (h : ℝ) (dt : ℕ → ℝ), h ≤ h0 → (∀ k, 0 < dt k ∧ dt k ≤ h) → (cfl = false → ∀ k, dt k = dt 0) →
      ∀ k : ℕ, elapsed dt k ≤ T → |quad S w (fields G (u dt k)) - quad S w (s (elapsed dt k))| ≤ C * h ^ order := by
  obtain ⟨C, h0, hh0, hc⟩ := hu
  have hb : ∀ v k, ∃ M, k ∈ S → ∀ t ∈ Set.Icc 0 T, ‖s t v k‖ ≤ M := by
    intro v k
    by_cases hk : k ∈ S
    · obtain ⟨M, hM⟩ := isCompact_Icc.exists_bound_of_continuousOn (hs v k hk)
      exact ⟨M, fun _ => hM⟩
    · exact ⟨0, fun h => absurd h hk⟩
  choose M hM using hb
  refine ⟨∑ v, ∑ k ∈ S, |w v k| * (C * (2 * M v k + C * h0 ^ order)), h0, hh0, fun h dt hh hdt hfix k hk => ?_⟩
  have hpos : 0 < h := (hdt 0).1.trans_le (hdt 0).2
  have ht : elapsed dt k ∈ Set.Icc 0 T := ⟨sum_nonneg fun j _ => (hdt j).1.le, hk⟩
  have he := hc h dt hh hdt hfix k hk
  have h1 : 0 ≤ C * h ^ order := (norm_nonneg _).trans he
  have hC : 0 ≤ C := nonneg_of_mul_nonneg_left h1 (by positivity)
  have hle : C * h ^ order ≤ C * h0 ^ order := mul_le_mul_of_nonneg_left (pow_le_pow_left₀ hpos.le hh _) hC
  simp only [quad, ← sum_sub_distrib, sum_mul]
  refine (abs_sum_le_sum_abs _ _).trans (sum_le_sum fun v _ => (abs_sum_le_sum_abs _ _).trans (sum_le_sum fun q hq => ?_))
  rw [← mul_sub, abs_mul, mul_assoc]
  refine mul_le_mul_of_nonneg_left ((sq_near _ _).trans ?_) (abs_nonneg _)
  have hd : ‖fields G (u dt k) v q - s (elapsed dt k) v q‖ ≤ C * h ^ order := by
    have := norm_le_pi_norm (u dt k - array G (s (elapsed dt k))) (v, ⟨q, hG hq⟩)
    simp only [fields, hG hq, dif_pos]
    exact this.trans he
  have hm := hM v q hq _ ht
  have h3 : (0 : ℝ) ≤ ‖fields G (u dt k) v q - s (elapsed dt k) v q‖ := norm_nonneg _
  have h4 := norm_nonneg (s (elapsed dt k) v q)
  calc _ ≤ (C * h ^ order) * (2 * M v q + C * h0 ^ order) := by
        refine mul_le_mul hd ?_ (by positivity) h1
        linarith
    _ = _ := by ring

/-- A quantity of the solution with the rate of change `-ε(t)`, where `ε` is positive and is zero without viscosity. -/
theorem along_of_near {ι : Type*} {order : ℕ} {T : ℝ} {cfl : Bool} {u : (ℕ → ℝ) → ℕ → Arr ι} {P : Arr ι → ℝ} {q : ℝ → ℝ}
    (hnear : ∃ C h0 : ℝ, 0 < h0 ∧ ∀ (h : ℝ) (dt : ℕ → ℝ), h ≤ h0 → (∀ k, 0 < dt k ∧ dt k ≤ h) → (cfl = false → ∀ k, dt k = dt 0) →
      ∀ k : ℕ, elapsed dt k ≤ T → |P (u dt k) - q (elapsed dt k)| ≤ C * h ^ order)
    {nu : Dissip.Nu} {eps : ℝ → ℝ} (hd : ∀ t ∈ Set.Icc 0 T, HasDerivAt q (-eps t) t) (he : ∀ t, 0 ≤ eps t)
    (h0 : nu.nu2 = 0 → nu.nu4 = 0 → nu.nu8 = 0 → ∀ t, eps t = 0) :
    AlongRuns order T cfl u fun a ε => Decays nu (P a) (q 0) ε := by
  obtain ⟨C, h0', hh0, hc⟩ := hnear
  refine ⟨C, h0', hh0, fun h dt hh hdt hfix k hk => ?_⟩
  have ht : elapsed dt k ∈ Set.Icc 0 T := ⟨sum_nonneg fun j _ => (hdt j).1.le, hk⟩
  have hT : (0 : ℝ) ≤ T := ht.1.trans ht.2
  have h1 := hc h dt hh hdt hfix k hk
  have hcont : ContinuousOn q (Set.Icc 0 T) := fun t ht => (hd t ht).continuousAt.continuousWithinAt
  have hdiff : DifferentiableOn ℝ q (interior (Set.Icc 0 T)) := fun t ht =>
    (hd t (interior_subset ht)).differentiableAt.differentiableWithinAt
  have hmono : q (elapsed dt k) ≤ q 0 :=
    antitoneOn_of_deriv_nonpos (convex_Icc 0 T) hcont hdiff
      (fun t ht => by rw [(hd t (interior_subset ht)).deriv]; linarith [he t]) ⟨le_rfl, hT⟩ ht ht.1
  refine ⟨by linarith [(abs_le.1 h1).2], fun a b c => ?_⟩
  have hinc : q 0 ≤ q (elapsed dt k) :=
    monotoneOn_of_deriv_nonneg (convex_Icc 0 T) hcont hdiff
      (fun t ht => by rw [(hd t (interior_subset ht)).deriv, h0 a b c]; simp) ⟨le_rfl, hT⟩ ht ht.1
  rwa [le_antisymm hmono hinc] at h1

/-- A quadratic quantity. -/
theorem along_runs {G S : Finset (D → ℤ)} (hG : S ⊆ G) {Q : (V → Fld D) → ℝ} {w : V → (D → ℤ) → ℝ} (hQ : ∀ u, Q u = quad S w u) {order : ℕ}
    {T : ℝ} {s : ℝ → V → Fld D} {cfl : Bool} {u : (ℕ → ℝ) → ℕ → Arr (V × G)}
    (hu : ConvergesWithOrder order T (fun t => array G (s t)) cfl u) (hs : ∀ v, ∀ k ∈ S, ContinuousOn (fun t => s t v k) (Set.Icc 0 T))
    {nu : Dissip.Nu} {eps : ℝ → ℝ} (hd : ∀ t ∈ Set.Icc 0 T, HasDerivAt (fun t => Q (s t)) (-eps t) t) (he : ∀ t, 0 ≤ eps t)
    (h0 : nu.nu2 = 0 → nu.nu4 = 0 → nu.nu8 = 0 → ∀ t, eps t = 0) :
    AlongRuns order T cfl u fun a ε => Decays nu (Q (fields G a)) (Q (s 0)) ε := by
  refine along_of_near (P := fun a => Q (fields G a)) (q := fun t => Q (s t)) ?_ hd he h0
  simp only [hQ]
  exact quad_near hG w hu hs

theorem diss_nonneg {D : Type*} [Fintype D] (S : Finset (D → ℤ)) (δ : D → ℝ) {nu : Dissip.Nu} (hnu : Nu.Ok nu) {e : (D → ℤ) → ℝ}
    (he : ∀ k, 0 ≤ e k) : 0 ≤ (diss S (damping δ nu) (fun _ => 0) e).tot := by
  obtain ⟨h2, h4, h8, -⟩ := id hnu
  simp only [diss, zero_mul, sum_const_zero, add_zero]
  refine sum_nonneg fun k _ => ?_
  have : 0 ≤ damping δ nu k := by
    rw [damping, fd_eq hnu]
    have : 0 ≤ waveSq δ k := sum_nonneg fun d _ => sq_nonneg _
    positivity
  have := he k
  positivity

theorem diss_zero {D : Type*} [Fintype D] (S : Finset (D → ℤ)) (δ : D → ℝ) {nu : Dissip.Nu} (hnu : Nu.Ok nu) (e : (D → ℤ) → ℝ)
    (h2 : nu.nu2 = 0) (h4 : nu.nu4 = 0) (h8 : nu.nu8 = 0) : (diss S (damping δ nu) (fun _ => 0) e).tot = 0 := by
  simp [diss, damping, fd_eq hnu, h2, h4, h8]

theorem forced_zero {D V : Type*} (tend : (V → Fld D) → V → Fld D) : forced (fun _ _ => 0) tend = tend := by
  funext u v k
  simp [forced]

theorem ux2_mul (δ : Fin 2 → ℝ) (rot : Fld (Fin 2)) (k : Fin 2 → ℤ) : ux2 δ rot k = ux2 δ (fun _ => 1) k * rot k := by
  simp only [ux2, Forcing.vecFromRot]
  ring

theorem uy2_mul (δ : Fin 2 → ℝ) (rot : Fld (Fin 2)) (k : Fin 2 → ℤ) : uy2 δ rot k = uy2 δ (fun _ => 1) k * rot k := by
  simp only [uy2, Forcing.vecFromRot]
  ring

theorem energy2_quad (δ : Fin 2 → ℝ) (rot : Fld (Fin 2)) (k : Fin 2 → ℤ) :
    energy2 δ rot k = (‖ux2 δ (fun _ => 1) k‖ ^ 2 + ‖uy2 δ (fun _ => 1) k‖ ^ 2) / 2 * ‖rot k‖ ^ 2 := by
  rw [energy2, ux2_mul, uy2_mul, norm_mul, norm_mul]
  ring

/-- C101 (ns2d): the energy and the enstrophy saved by `spatial_means` (their meaning is `C59_ns2d_means`). -/
theorem C101_energy_ns2d {n : Fin 2 → ℕ} (hn : ∀ d, 0 < n d) {S : Finset (Fin 2 → ℤ)} (hS : NoAlias n S) {δ : Fin 2 → ℝ} (hδ : ∀ d, δ d ≠ 0)
    (beta : ℝ) {nu : Dissip.Nu} (hnu : Nu.Ok nu) {rot0 : Fld (Fin 2)} (h0 : RealField S rot0) {T : ℝ} (hT : 0 ≤ T)
    (fd fdHypo : (Fin 2 → ℤ) → ℝ) (dt : ℝ) (F : Fld (Fin 2)) {G : Finset (Fin 2 → ℤ)} (hG : S ⊆ G) {c : Scheme × ℕ} (hc : c ∈ orders)
    (ps pa pb : ℕ → Arr (Unit × G)) (heap : Heap (Unit × G)) (g1 g2 : Arr (Unit × G)) (cfl : Bool) :
    let M := fun u : Unit → Fld (Fin 2) => ns2dMeans S δ fd fdHypo dt (u ()) F
    let sim := states c.1 (onArrays G (tend2d n S δ beta)) (freqDiss G δ nu) (truncated G S) ps pa pb heap g1 g2 cfl (array G fun _ => rot0)
    AlongRuns c.2 T cfl sim (fun a ε => Decays nu (M (fields G a)).E (M fun _ => rot0).E ε) ∧
      AlongRuns c.2 T cfl sim fun a ε => Decays nu (M (fields G a)).Z (M fun _ => rot0).Z ε := by
  intro M sim
  obtain ⟨rot, e0, hf, -, hconv⟩ := C87_ns2d hn hS hδ beta hnu (F := fun _ => 0) ⟨fun k hk => ⟨(h0.1 k hk).1, by simp⟩, fun _ _ => rfl⟩ h0 hT
  have hconv := hconv G hG c hc ps pa pb heap g1 g2 cfl
  rw [forced_zero] at hconv
  subst e0
  have hl := fun t ht => C59_ns2d_budget hn (SpectBudget.triad_of_noAlias hS (hf.real t ht).1) hS.distinct hδ beta (damping δ nu) (fun _ => 0) dt rot
    (fun _ => 0) t (hf.real t ht).1 (flow2_evolves hn hS hδ hnu hf ht)
  have hcont : ∀ (v : Unit), ∀ k ∈ S, ContinuousOn (fun t => (fun (_ : Unit) => rot t) v k) (Set.Icc 0 T) := fun _ k hk =>
    flow2_continuous hn hS hδ hnu hf hk
  have z : ∀ k, ux2 δ (fun _ => 0) k = 0 ∧ uy2 δ (fun _ => 0) k = 0 := fun k => by simp [ux2, uy2, Forcing.vecFromRot]
  constructor
  · refine along_runs hG (Q := fun u => (M u).E) (w := fun _ k => (‖ux2 δ (fun _ => 1) k‖ ^ 2 + ‖uy2 δ (fun _ => 1) k‖ ^ 2) / 2)
      (fun u => by simp [M, ns2dMeans, quad, energy2_quad]) hconv hcont
      (eps := fun t => (diss S (damping δ nu) (fun _ => 0) (energy2 δ (rot t))).tot)
      (fun t ht => (hl t ht).1.congr_deriv ?_) (fun t => diss_nonneg S δ hnu fun k => by rw [energy2]; positivity)
      fun a b c t => diss_zero S δ hnu _ a b c
    simp [ns2dMeans, z]
  · refine along_runs hG (Q := fun u => (M u).Z) (w := fun _ k => 1 / 2)
      (fun u => by simp [M, ns2dMeans, quad, enstrophy2, div_eq_inv_mul]) hconv hcont
      (eps := fun t => (diss S (damping δ nu) (fun _ => 0) (enstrophy2 (rot t))).tot)
      (fun t ht => (hl t ht).2.congr_deriv ?_) (fun t => diss_nonneg S δ hnu fun k => by rw [enstrophy2]; positivity)
      fun a b c t => diss_zero S δ hnu _ a b c
    simp [ns2dMeans, SpectBudget.innerProd]

/-- C101 (ns2d.strat): the sum of the kinetic and available potential energies. -/
theorem C101_energy_ns2d_strat {n : Fin 2 → ℕ} (hn : ∀ d, 0 < n d) {S : Finset (Fin 2 → ℤ)} (hS : NoAlias n S) {δ : Fin 2 → ℝ}
    (hδ : ∀ d, δ d ≠ 0) {N : ℝ} (hN : N ≠ 0) {nu : Dissip.Nu} (hnu : Nu.Ok nu) {rot0 b0 : Fld (Fin 2)} (h0 : RealField S rot0)
    (hb0 : RealField S b0) {T : ℝ} (hT : 0 ≤ T) (fd fdHypo : (Fin 2 → ℤ) → ℝ) (dt : ℝ) (F H : Fld (Fin 2)) {G : Finset (Fin 2 → ℤ)}
    (hG : S ⊆ G) {c : Scheme × ℕ} (hc : c ∈ orders) (ps pa pb : ℕ → Arr (Fin 2 × G)) (heap : Heap (Fin 2 × G)) (g1 g2 : Arr (Fin 2 × G))
    (cfl : Bool) :
    let M := fun u : Fin 2 → Fld (Fin 2) => stratMeans S δ N fd fdHypo dt (u 0) (u 1) F H
    AlongRuns c.2 T cfl
      (states c.1 (onArrays G (tendStrat n S δ N)) (freqDiss G δ nu) (truncated G S) ps pa pb heap g1 g2 cfl (array G ![rot0, b0]))
      fun a ε => Decays nu (M (fields G a)).E (M ![rot0, b0]).E ε := by
  intro M
  have hz : RealField S (fun _ => 0) := ⟨fun k hk => ⟨(h0.1 k hk).1, by simp⟩, fun _ _ => rfl⟩
  obtain ⟨rot, b, e0, eb0, hf, -, hconv⟩ := C87_ns2d_strat hn hS hδ N hnu hz hz h0 hb0 hT
  have hconv := hconv G hG c hc ps pa pb heap g1 g2 cfl
  have e : (![fun _ => 0, fun _ => 0] : Fin 2 → Fld (Fin 2)) = fun _ _ => 0 := by
    funext v; fin_cases v <;> rfl
  rw [e, forced_zero] at hconv
  subst e0 eb0
  have hv := fun t => velocity2_ux2 (S := S) hδ (rot t)
  have hev : ∀ t ∈ Set.Icc 0 T, SpectBudget.Evolves S rot (fun k => (ns2dStrat n S δ N (rot t) (b t)).1 k + (fun _ => 0) k)
      (fun k => damping δ nu k + 0) t := by
    intro t ht k hk
    refine (hf.eq t ht _ _ (hv t) k hk).1.congr_deriv ?_
    simp only [(C57_ns2d_strat hn hS hδ N (b t) (hv t) hk).1, dissipation, add_zero, damping, fd_eq hnu, waveSq]
  have hevb : ∀ t ∈ Set.Icc 0 T, SpectBudget.Evolves S b (fun k => (ns2dStrat n S δ N (rot t) (b t)).2 k + (fun _ => 0) k)
      (fun k => damping δ nu k + 0) t := by
    intro t ht k hk
    refine (hf.eq t ht _ _ (hv t) k hk).2.congr_deriv ?_
    simp only [(C57_ns2d_strat hn hS hδ N (b t) (hv t) hk).2, dissipation, add_zero, damping, fd_eq hnu, waveSq]
  have hl := fun t ht => C59_strat_budget hn (SpectBudget.triad_of_noAlias hS (hf.real t ht).1.1) hS.distinct hδ hN (damping δ nu) (fun _ => 0) dt
    rot b (fun _ => 0) (fun _ => 0) t (hf.real t ht).1.1 (hf.real t ht).2.1 (hev t ht) (hevb t ht)
  have hcont : ∀ (v : Fin 2), ∀ k ∈ S, ContinuousOn (fun t => (![rot t, b t] : Fin 2 → Fld (Fin 2)) v k) (Set.Icc 0 T) := by
    intro v k hk t ht
    fin_cases v
    · exact (hev t ht k hk).continuousAt.continuousWithinAt
    · exact (hevb t ht k hk).continuousAt.continuousWithinAt
  have hA : ∀ c : Fld (Fin 2), ∀ k, energyA2 N c k = 1 / 2 / N ^ 2 * ‖c k‖ ^ 2 := by
    intro c k; rw [energyA2, if_neg hN, div_pow]; ring
  have z : ∀ k, ux2 δ (fun _ => 0) k = 0 ∧ uy2 δ (fun _ => 0) k = 0 := fun k => by simp [ux2, uy2, Forcing.vecFromRot]
  refine along_runs hG (Q := fun u => (M u).E)
    (w := ![fun k => (‖ux2 δ (fun _ => 1) k‖ ^ 2 + ‖uy2 δ (fun _ => 1) k‖ ^ 2) / 2, fun _ => 1 / 2 / N ^ 2])
    (fun u => by simp only [M, stratMeans, quad, energy2_quad, hA, Fin.sum_univ_two, sum_add_distrib]; rfl) hconv hcont
    (eps := fun t => (diss S (damping δ nu) (fun _ => 0) (energy2 δ (rot t))).tot + (diss S (damping δ nu) (fun _ => 0) (energyA2 N (b t))).tot)
    (fun t ht => (hl t ht).congr_deriv ?_)
    (fun t => add_nonneg (diss_nonneg S δ hnu fun k => by rw [energy2]; positivity) (diss_nonneg S δ hnu fun k => by rw [hA]; positivity))
    fun a b' c t => by rw [diss_zero S δ hnu _ a b' c, diss_zero S δ hnu _ a b' c, add_zero]
  simp [stratMeans, z, SpectBudget.innerProd]
  ring

/-- C101 (ns3d): the energy, for all rotation rates and projections. -/
theorem C101_energy_ns3d {n : Fin 3 → ℕ} (hn : ∀ d, 0 < n d) {S : Finset (Fin 3 → ℤ)} (hS : NoAlias n S) (δ : Fin 3 → ℝ) (f : Option ℝ)
    (p : Projection) (noVz : Bool) {nu : Dissip.Nu} (hnu : Nu.Ok nu) {v0 : Fin 3 → Fld (Fin 3)} (h0 : Admissible S δ p noVz v0) {T : ℝ}
    (hT : 0 ≤ T) (nu4 nu8 : ℝ) (fd fdHypo : (Fin 3 → ℤ) → ℝ) (dt : ℝ) (F : (Fin 3 → ℤ) → V3) {G : Finset (Fin 3 → ℤ)} (hG : S ⊆ G)
    {c : Scheme × ℕ} (hc : c ∈ orders) (ps pa pb : ℕ → Arr (Fin 3 × G)) (heap : Heap (Fin 3 × G)) (g1 g2 : Arr (Fin 3 × G)) (cfl : Bool) :
    let M := fun u : Fin 3 → Fld (Fin 3) => ns3dMeans S δ nu4 nu8 fd fdHypo dt (vec u) F
    AlongRuns c.2 T cfl
      (fun dt k => (simulation3d (project3d G δ p noVz) c.1 (onArrays G (tend3d n S δ f p noVz)) (freqDiss G δ nu) (truncated G S) ps pa pb
        heap g1 g2 cfl (array G v0) dt k).heap .state)
      fun a ε => Decays nu (M (fields G a)).E (M v0).E ε := by
  intro M
  have hF : Admissible S δ p noVz fun _ _ => 0 :=
    ⟨fun c => ⟨fun k hk => ⟨((h0.1 c).1 k hk).1, by simp⟩, fun _ _ => rfl⟩, fun k _ => EndToEnd.projV_zero _ _ _⟩
  obtain ⟨v, e0, hf, -, hconv⟩ := C87_ns3d hn hS δ f p noVz hnu hF h0 hT
  have hconv := hconv G hG c hc ps pa pb heap g1 g2 cfl
  rw [forced_zero] at hconv
  subst e0
  have hl := fun t ht => C59_ns3d_budget n S δ f p noVz nu.nu4 nu.nu8 (damping δ nu) (fun _ => 0) dt (fun s => vec (v s)) (vec fun _ _ => 0) t
    ⟨((hf.adm t ht).1 0).1, ((hf.adm t ht).1 1).1, ((hf.adm t ht).1 2).1⟩
    (fun k hk => by
      have h1 : (projectState p noVz (wave3 δ k) ⟨vec (v t) k, none⟩).b = none := by
        simp only [projectState]
        split_ifs <;> rfl
      have h2 := (projectState_v p noVz (wave3 δ k) (vec (v t) k) none).trans ((hf.adm t ht).2 k hk)
      cases h : projectState p noVz (wave3 δ k) ⟨vec (v t) k, none⟩ with
      | mk a b =>
        rw [h] at h1 h2
        simp only at h1 h2
        rw [h1, h2])
    (flow3_evolves hn hS hnu hf ht)
  refine along_runs hG (Q := fun u => (M u).E) (w := fun _ _ => 1 / 2)
    (fun u => by simp only [M, ns3dMeans, quad, energy1, vec, Fin.sum_univ_three]) hconv
    (fun c k hk t ht => (hf.eq t ht c k hk).continuousAt.continuousWithinAt)
    (eps := fun t => (diss S (damping δ nu) (fun _ => 0) fun k => energy1 (v t 0 k) + energy1 (v t 1 k) + energy1 (v t 2 k)).tot)
    (fun t ht => (hl t ht).congr_deriv ?_) (fun t => diss_nonneg S δ hnu fun k => by simp only [energy1]; positivity)
    fun a b c t => diss_zero S δ hnu _ a b c
  simp [ns3dMeans, vec]

/-- C101 (ns3d.strat): the sum of the kinetic and available potential energies. -/
theorem C101_energy_ns3d_strat {n : Fin 3 → ℕ} (hn : ∀ d, 0 < n d) {S : Finset (Fin 3 → ℤ)} (hS : NoAlias n S) {δ : Fin 3 → ℝ}
    (hδ : ∀ d, δ d ≠ 0) (f : Option ℝ) {N : ℝ} (hN : N ≠ 0) (p : Projection) {nu : Dissip.Nu} (hnu : Nu.Ok nu) {u0 : Fin 4 → Fld (Fin 3)}
    (h0 : Admissible S δ p false (velocity u0) ∧ RealField S (u0 3)) {T : ℝ} (hT : 0 ≤ T) (fd fdHypo : (Fin 3 → ℤ) → ℝ) (dt : ℝ)
    (F : (Fin 3 → ℤ) → V3) (Fb : Fld (Fin 3)) {G : Finset (Fin 3 → ℤ)} (hG : S ⊆ G) {c : Scheme × ℕ} (hc : c ∈ orders)
    (ps pa pb : ℕ → Arr (Fin 4 × G)) (heap : Heap (Fin 4 × G)) (g1 g2 : Arr (Fin 4 × G)) (cfl : Bool) :
    let M := fun u : Fin 4 → Fld (Fin 3) => ns3dStratMeans S δ N fd fdHypo dt (fun k => (modeState u k).v) F (u 3) Fb
    AlongRuns c.2 T cfl
      (fun dt k => (simulation3d (project3dStrat G δ p false) c.1 (onArrays G (tend3dStrat n S δ f N p false)) (freqDiss G δ nu) (truncated G S)
        ps pa pb heap g1 g2 cfl (array G u0) dt k).heap .state)
      fun a ε => Decays nu (M (fields G a)).E (M u0).E ε := by
  intro M
  have hz : RealField S (fun _ => 0) := ⟨fun k hk => ⟨(h0.2.1 k hk).1, by simp⟩, fun _ _ => rfl⟩
  have ez : velocity (fun _ _ => 0) = fun _ _ => 0 := by funext v k; fin_cases v <;> rfl
  have hF : Admissible S δ p false (velocity fun _ _ => 0) ∧ RealField S (fun _ => 0) := by
    rw [ez]
    exact ⟨⟨fun c => hz, fun k _ => EndToEnd.projV_zero _ _ _⟩, hz⟩
  obtain ⟨u, e0, hf, -, hconv⟩ := C87_ns3d_strat hn hS δ f N p hnu (F := fun _ _ => 0) hF h0 hT
  have hconv := hconv G hG c hc ps pa pb heap g1 g2 cfl
  rw [forced_zero] at hconv
  subst e0
  have hmv : ∀ t k, (modeState (u t) k).v = vec (velocity (u t)) k := fun t k => rfl
  have hpr : ∀ t ∈ Set.Icc 0 T, ∀ k ∈ S, projector p (wave3 δ k) (modeState (u t) k).v = (modeState (u t) k).v := by
    intro t ht k hk
    have := (hf.adm t ht).1.2 k hk
    simp only [projV, Bool.false_eq_true, false_and, if_false] at this
    exact this
  have hdiv : ∀ t ∈ Set.Icc 0 T, ∀ k ∈ S, kdot (wave3 δ k) (modeState (u t) k).v = 0 := by
    intro t ht k hk
    rw [← hpr t ht k hk]
    exact (projected_manifold p _ _).1
  have hT := fun t ht k hk => C57_ns3d_strat hn hS δ f N p (fun k => (modeState (u t) k).v) (u t 3) (hdiv t ht) (k := k) hk
  have key : ∀ t ∈ Set.Icc 0 T, ∀ c, ∀ k ∈ S, HasDerivAt (fun s => velocity (u s) c k)
      (components (fun k => (ns3dStrat n S δ f N p false (fun k => (modeState (u t) k).v) (u t 3) k).v) c k + 0
        - ((damping δ nu k + 0 : ℝ) : ℂ) * velocity (u t) c k) t := by
    intro t ht c k hk
    refine (hf.eqv t ht c k hk).congr_deriv ?_
    have e2 : components (fun k => (ns3dStrat n S δ f N p false (fun k => (modeState (u t) k).v) (u t 3) k).v) c k
        = components (fun k => projector p (wave3 δ k) (add (navierStokes S δ (f.getD 0) (vec (velocity (u t))) k) ⟨0, 0, u t 3 k⟩)) c k := by
      fin_cases c <;> simp only [components, (hT t ht k hk).1] <;> rfl
    rw [e2, ez]
    simp only [dissipation, add_zero, damping, fd_eq hnu, waveSq]
  have keyb : ∀ t ∈ Set.Icc 0 T, SpectBudget.Evolves S (fun s => u s 3)
      (fun k => (ns3dStrat n S δ f N p false (fun k => (modeState (u t) k).v) (u t 3) k).b.getD 0 + (fun _ => 0) k)
      (fun k => damping δ nu k + 0) t := by
    intro t ht k hk
    refine (hf.eqb t ht k hk).congr_deriv ?_
    have ev : velocity (u t) = comp fun k => (modeState (u t) k).v := by funext v k; fin_cases v <;> rfl
    simp only [(hT t ht k hk).2, Option.getD_some, dissipation, add_zero, damping, fd_eq hnu, waveSq, ev]
    rfl
  have hl := fun t ht => C59_ns3dstrat_budget hn (SpectBudget.triad_of_noAlias hS (hf.adm t ht).2.1) hδ f hN p false (damping δ nu) (fun _ => 0) dt
    (fun s k => (modeState (u s) k).v) (fun s => u s 3) (fun _ => ⟨0, 0, 0⟩) (fun _ => 0) t
    ⟨((hf.adm t ht).1.1 0).1, ((hf.adm t ht).1.1 1).1, ((hf.adm t ht).1.1 2).1⟩ (hf.adm t ht).2.1
    (fun k hk => by simp only [projectState, hpr t ht k hk, Bool.false_eq_true, false_and, if_false])
    ⟨fun k hk => key t ht 0 k hk, fun k hk => key t ht 1 k hk, fun k hk => key t ht 2 k hk⟩ (keyb t ht)
  refine along_runs hG (Q := fun u => (M u).E) (w := ![fun _ => 1 / 2, fun _ => 1 / 2, fun _ => 1 / 2, fun _ => 1 / 2 / N ^ 2])
    (fun u => ?_) hconv (fun c k hk t ht => ?_)
    (eps := fun t => (diss S (damping δ nu) (fun _ => 0) fun k => energy1 (u t 0 k) + energy1 (u t 1 k) + energy1 (u t 2 k)).tot
      + (diss S (damping δ nu) (fun _ => 0) fun k => 1 / N ^ 2 / 2 * ‖u t 3 k‖ ^ 2).tot)
    (fun t ht => (hl t ht).congr_deriv ?_)
    (fun t => add_nonneg (diss_nonneg S δ hnu fun k => by simp only [energy1]; positivity) (diss_nonneg S δ hnu fun k => by positivity))
    fun a b' c t => by rw [diss_zero S δ hnu _ a b' c, diss_zero S δ hnu _ a b' c, add_zero]
  · refine (C59_ns3dstrat_energies hδ N fd fdHypo dt (fun k => (modeState u k).v) F (u 3) Fb).1.trans ?_
    simp only [quad, Fin.sum_univ_four, modeState, ← sum_add_distrib]
    refine sum_congr rfl fun k _ => ?_
    simp only [Matrix.cons_val_zero, Matrix.cons_val_one, Matrix.cons_val]
    ring
  · fin_cases c
    · exact (key t ht 0 k hk).continuousAt.continuousWithinAt
    · exact (key t ht 1 k hk).continuousAt.continuousWithinAt
    · exact (key t ht 2 k hk).continuousAt.continuousWithinAt
    · exact (keyb t ht k hk).continuousAt.continuousWithinAt
  · have eK := fun k => eK_eq δ (fun k => (modeState (u t) k).v) k
    simp only [ns3dStratMeans, eK]
    simp [diss, SpectBudget.innerProd, modeState]

/-- A run which meets the hypotheses: `ζ` with all the coefficients 1 on the modes of a box, with a viscosity and RK4. -/
example : NoAlias (fun _ : Fin 2 => 4) EndToEnd.box ∧ RealField (D := Fin 2) EndToEnd.box (fun k => if k ∈ EndToEnd.box then 1 else 0) ∧
    Nu.Ok ⟨1, 0, 1, 0⟩ ∧ (Scheme.RK4, 4) ∈ orders :=
  ⟨box_noAlias, box_real, ⟨by norm_num, by norm_num, by norm_num, rfl⟩, by simp [orders]⟩

end

end Verif.Invariants
