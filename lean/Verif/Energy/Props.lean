import Verif.Energy.Lemmas
import Mathlib.Analysis.Calculus.MeanValue
import Mathlib.Analysis.Calculus.Deriv.Star
import Mathlib.Analysis.Calculus.Deriv.Mul

/-!
# C37: the nonlinear terms of the 3D solvers conserve energy
-/

namespace Verif.Energy

open Verif.Fourier Verif.Vectors Finset

noncomputable section

/-- C37: whatever the grid, the truncation (no condition: aliasing is harmless here), the Coriolis
parameter, the projection and the state (real, left unchanged by `sim.project_state_spect`), the
tendencies of ns3d do no work on the state. -/
theorem C37_energy (n : Fin 3 → ℕ) (S : Finset (Fin 3 → ℤ)) (δ : Fin 3 → ℝ) (f : Option ℝ)
    (p : Projection) (noVzKz0 : Bool) (v : (Fin 3 → ℤ) → V3) (hreal : RealVecOn S v)
    (hproj : ∀ k ∈ S, projectState p noVzKz0 (wave3 δ k) ⟨v k, none⟩ = ⟨v k, none⟩) :
    rateV S v (ns3d n S δ f p noVzKz0 v) = 0 := by
  have h1 : ∑ k ∈ S, inner (ns3d n S δ f p noVzKz0 v k) (v k)
      = ∑ k ∈ S, inner (lamb n S δ f v k) (v k) := by
    refine sum_congr rfl fun k hk => ?_
    rw [ns3d, if_pos hk]
    exact projectState_inner (hproj k hk) _ _
  rw [rateV, ← Complex.re_sum, h1]
  simp only [lamb]
  rw [sum_inner n _ hreal]
  have h2 : ∀ v w : V3, (cross v w).x * v.x + (cross v w).y * v.y + (cross v w).z * v.z = 0 := by
    intro v w; simp only [cross]; ring
  simp only [h2, gmean, sum_const_zero, zero_div, Complex.zero_re]

/-- C37 with the default parameters (`projection = None`, `no_vz_kz0 = False`): every real and
divergence-free state. -/
theorem C37_energy_default (n : Fin 3 → ℕ) (S : Finset (Fin 3 → ℤ)) (δ : Fin 3 → ℝ) (f : Option ℝ)
    (v : (Fin 3 → ℤ) → V3) (hreal : RealVecOn S v) (hdiv : ∀ k ∈ S, kdot (wave3 δ k) (v k) = 0) :
    rateV S v (ns3d n S δ f .none false v) = 0 := by
  refine C37_energy n S δ f .none false v hreal fun k hk => ?_
  simp [projectState, projector, C28_divergence_free_unchanged _ _ (hdiv k hk)]

/-- C37: the tendencies are divergence free and truncated. -/
theorem C37_tendency_admissible (n : Fin 3 → ℕ) (S : Finset (Fin 3 → ℤ)) (δ : Fin 3 → ℝ)
    (f : Option ℝ) (v : (Fin 3 → ℤ) → V3) (k : Fin 3 → ℤ) :
    kdot (wave3 δ k) (ns3d n S δ f .none false v k) = 0 ∧
      (k ∉ S → ns3d n S δ f .none false v k = ⟨0, 0, 0⟩) := by
  constructor
  · by_cases hk : k ∈ S
    · simp only [ns3d, if_pos hk, projectState, projector]
      simpa using C28_orthogonal _ _
    · simp [ns3d, if_neg hk, kdot]
  · intro hk; simp [ns3d, hk]

/-- C37 along exact solutions: if the state follows `dv/dt = tendencies_nonlin(v)` (no viscosity),
the energy `1/2 Σ |v|²` is constant. -/
theorem C37_energy_constant (n : Fin 3 → ℕ) (S : Finset (Fin 3 → ℤ)) (δ : Fin 3 → ℝ) (f : Option ℝ)
    (p : Projection) (noVzKz0 : Bool) (v : ℝ → (Fin 3 → ℤ) → V3)
    (hreal : ∀ t, RealVecOn S (v t))
    (hproj : ∀ t, ∀ k ∈ S, projectState p noVzKz0 (wave3 δ k) ⟨v t k, none⟩ = ⟨v t k, none⟩)
    (hx : ∀ t, ∀ k ∈ S, HasDerivAt (fun t => (v t k).x) (ns3d n S δ f p noVzKz0 (v t) k).x t)
    (hy : ∀ t, ∀ k ∈ S, HasDerivAt (fun t => (v t k).y) (ns3d n S δ f p noVzKz0 (v t) k).y t)
    (hz : ∀ t, ∀ k ∈ S, HasDerivAt (fun t => (v t k).z) (ns3d n S δ f p noVzKz0 (v t) k).z t)
    (t t' : ℝ) :
    1 / 2 * ∑ k ∈ S, (inner (v t k) (v t k)).re = 1 / 2 * ∑ k ∈ S, (inner (v t' k) (v t' k)).re := by
  have hsq : ∀ (g : ℝ → ℂ) (g' : ℂ) (s : ℝ), HasDerivAt g g' s →
      HasDerivAt (fun s => (g s * (starRingEnd ℂ) (g s)).re) (2 * (g' * (starRingEnd ℂ) (g s)).re) s := by
    intro g g' s hg
    have h1 : HasDerivAt (fun s => g s * (starRingEnd ℂ) (g s))
        (g' * (starRingEnd ℂ) (g s) + g s * (starRingEnd ℂ) g') s := hg.mul hg.star
    have h2 : HasDerivAt (fun s => (g s * (starRingEnd ℂ) (g s)).re)
        (g' * (starRingEnd ℂ) (g s) + g s * (starRingEnd ℂ) g').re s :=
      (Complex.reCLM.hasFDerivAt.comp_hasDerivAt s h1)
    convert h2 using 1
    simp only [Complex.add_re, Complex.mul_re, Complex.conj_re, Complex.conj_im]
    ring
  have key : ∀ s, HasDerivAt (fun s => 1 / 2 * ∑ k ∈ S, (inner (v s k) (v s k)).re)
      (rateV S (v s) (ns3d n S δ f p noVzKz0 (v s))) s := by
    intro s
    have : HasDerivAt (fun s => ∑ k ∈ S, (inner (v s k) (v s k)).re)
        (∑ k ∈ S, 2 * (inner (ns3d n S δ f p noVzKz0 (v s) k) (v s k)).re) s := by
      refine HasDerivAt.fun_sum fun k hk => ?_
      have h := ((hsq _ _ s (hx s k hk)).fun_add (hsq _ _ s (hy s k hk))).fun_add
        (hsq _ _ s (hz s k hk))
      simp only [inner, Complex.add_re]
      exact h.congr_deriv (by ring)
    refine (this.const_mul (1 / 2 : ℝ)).congr_deriv ?_
    rw [rateV, ← mul_sum]; ring
  have hd : Differentiable ℝ (fun s => 1 / 2 * ∑ k ∈ S, (inner (v s k) (v s k)).re) :=
    fun s => (key s).differentiableAt
  refine is_const_of_deriv_eq_zero hd (fun s => ?_) t t'
  rw [(key s).deriv]
  exact C37_energy n S δ f p noVzKz0 (v s) (hreal s) (hproj s)

theorem kdot_curl (k : K3) (v : V3) : kdot k (curl k v) = 0 := by
  simp only [kdot, curl]; ring

/-- C37: without rotation the helicity `Σ v · omega` is conserved as well (half of its rate is
`Σ Re conj(omega) · T`). -/
theorem C37_helicity (n : Fin 3 → ℕ) (S : Finset (Fin 3 → ℤ)) (δ : Fin 3 → ℝ)
    (v : (Fin 3 → ℤ) → V3) (hreal : RealVecOn S v) :
    rateV S (fun k => curl (wave3 δ k) (v k)) (ns3d n S δ none .none false v) = 0 := by
  set w : (Fin 3 → ℤ) → V3 := fun k => curl (wave3 δ k) (v k) with hw
  have hwreal : RealVecOn S w := by
    refine ⟨fun k hk => ?_, fun k hk => ?_, fun k hk => ?_⟩ <;>
      refine ⟨(hreal.1 k hk).1, ?_⟩ <;>
      simp only [hw, curl, wave3, (hreal.1 k hk).2, (hreal.2.1 k hk).2, (hreal.2.2 k hk).2, map_mul,
        map_sub, Complex.conj_I, Complex.conj_ofReal, Pi.neg_apply] <;> push_cast <;> ring
  have h1 : ∑ k ∈ S, inner (ns3d n S δ none .none false v k) (w k)
      = ∑ k ∈ S, inner (lamb n S δ none v k) (w k) := by
    refine sum_congr rfl fun k hk => ?_
    rw [ns3d, if_pos hk]
    have : (projectState .none false (wave3 δ k) ⟨lamb n S δ none v k, none⟩).v
        = perpk (wave3 δ k) (lamb n S δ none v k) := by simp [projectState, projector]
    rw [this, perpk_selfadjoint, C28_divergence_free_unchanged _ _ (kdot_curl _ _)]
  -- the grid values of the vorticity
  have hz : w 0 = ⟨0, 0, 0⟩ := by simp [hw, curl, wave3]
  have hom : omegaFft δ none v = w := by
    funext k; simp [omegaFft, hw]
  have hins : ∀ j : Pt n, gridVec n (insert 0 S) w j = gridVec n S w j := by
    intro j
    by_cases h0 : (0 : Fin 3 → ℤ) ∈ S
    · rw [insert_eq_of_mem h0]
    · simp only [gridVec, gridVal, sum_insert h0, hz]; simp
  rw [rateV, ← Complex.re_sum, h1]
  simp only [lamb, hom, hins]
  rw [sum_inner n _ hwreal]
  have h2 : ∀ v w : V3, (cross v w).x * w.x + (cross v w).y * w.y + (cross v w).z * w.z = 0 := by
    intro v w; simp only [cross]; ring
  simp only [h2, gmean, sum_const_zero, zero_div, Complex.zero_re]

/-! ### stratified and Boussinesq solvers -/

/-- A state unchanged by `project_state_spect` is divergence free, and without buoyancy at `kz = 0`
if `no_vz_kz0`. -/
theorem fixed_state {p : Projection} {noVz : Bool} {k : K3} {v : V3} {b : ℂ}
    (hv : projectState p noVz k ⟨v, some b⟩ = ⟨v, some b⟩) :
    kdot k v = 0 ∧ (noVz = true → |k.z| = 0 → b = 0) := by
  by_cases h : noVz ∧ |k.z| = 0
  · have h1 : projectState p noVz k ⟨v, some b⟩
        = ⟨⟨(projector p k v).x, (projector p k v).y, 0⟩, some 0⟩ := by
      simp only [projectState, if_pos h, Option.map]
    rw [h1] at hv
    injection hv with h2 h3
    refine ⟨?_, fun _ _ => by injection h3 with h4; exact h4.symm⟩
    have hk := (projected_manifold p k v).1
    have hkz : k.z = 0 := abs_eq_zero.1 h.2
    rw [← h2]
    simp only [kdot, hkz] at hk ⊢
    simpa using hk
  · have h1 : projectState p noVz k ⟨v, some b⟩ = ⟨projector p k v, some b⟩ := by
      simp only [projectState, if_neg h]
    rw [h1] at hv
    injection hv with h2
    refine ⟨?_, fun h3 h4 => absurd ⟨h3, h4⟩ h⟩
    rw [← h2]; exact (projected_manifold p k v).1

/-- The advection of the buoyancy does no work on it (no aliasing). -/
theorem divVb_work {n : Fin 3 → ℕ} (hn : ∀ d, 0 < n d) {S : Finset (Fin 3 → ℤ)}
    (hS : TriadExact n S) (δ : Fin 3 → ℝ) {v : (Fin 3 → ℤ) → V3}
    (hdiv : ∀ k ∈ S, kdot (wave3 δ k) (v k) = 0) {b : Fld (Fin 3)} (hb : RealOn S b) :
    ∑ k ∈ S, divVb n S δ v b k * (starRingEnd ℂ) (b k) = 0 := by
  have e1 : ∀ k, divVb n S δ v b k * (starRingEnd ℂ) (b k)
      = -(fftCoef n (fun j => gridVal n S (fun k => (v k).x) j * gridVal n S b j) k
            * (starRingEnd ℂ) (deriv δ 0 b k)
          + fftCoef n (fun j => gridVal n S (fun k => (v k).y) j * gridVal n S b j) k
            * (starRingEnd ℂ) (deriv δ 1 b k)
          + fftCoef n (fun j => gridVal n S (fun k => (v k).z) j * gridVal n S b j) k
            * (starRingEnd ℂ) (deriv δ 2 b k)) := by
    intro k
    simp only [divVb, fftVec, gridVec, wave3, deriv, map_mul, Complex.conj_I, Complex.conj_ofReal]
    ring
  simp only [e1, sum_neg_distrib, sum_add_distrib]
  rw [parseval_real n _ (hb.deriv δ 0), parseval_real n _ (hb.deriv δ 1),
    parseval_real n _ (hb.deriv δ 2)]
  have l0 := leibniz hn hS δ 0 (fun k => (v k).x) b b
  have l1 := leibniz hn hS δ 1 (fun k => (v k).y) b b
  have l2 := leibniz hn hS δ 2 (fun k => (v k).z) b b
  have hd : gmean n (fun j => gridVal n S (deriv δ 0 fun k => (v k).x) j * gridVal n S b j
        * gridVal n S b j)
      + gmean n (fun j => gridVal n S (deriv δ 1 fun k => (v k).y) j * gridVal n S b j
        * gridVal n S b j)
      + gmean n (fun j => gridVal n S (deriv δ 2 fun k => (v k).z) j * gridVal n S b j
        * gridVal n S b j) = 0 := by
    rw [← gmean_add, ← gmean_add]
    have : ∀ j, gridVal n S (deriv δ 0 fun k => (v k).x) j * gridVal n S b j * gridVal n S b j
        + gridVal n S (deriv δ 1 fun k => (v k).y) j * gridVal n S b j * gridVal n S b j
        + gridVal n S (deriv δ 2 fun k => (v k).z) j * gridVal n S b j * gridVal n S b j = 0 := by
      intro j
      have h0 : gridVal n S (deriv δ 0 fun k => (v k).x) j + gridVal n S (deriv δ 1 fun k => (v k).y) j
          + gridVal n S (deriv δ 2 fun k => (v k).z) j = 0 := by
        simp only [gridVal, ← sum_add_distrib]
        refine sum_eq_zero fun k hk => ?_
        have := hdiv k hk
        simp only [kdot, wave3] at this
        simp only [deriv]
        linear_combination (Complex.I * chi n k j) * this
      linear_combination (gridVal n S b j * gridVal n S b j) * h0
    simp only [this, gmean, sum_const_zero, zero_div]
  have s0 : gmean n (fun j => gridVal n S (fun k => (v k).x) j * gridVal n S (deriv δ 0 b) j
      * gridVal n S b j) = gmean n (fun j => gridVal n S (fun k => (v k).x) j * gridVal n S b j
      * gridVal n S (deriv δ 0 b) j) := gmean_congr n fun j => by ring
  have s1 : gmean n (fun j => gridVal n S (fun k => (v k).y) j * gridVal n S (deriv δ 1 b) j
      * gridVal n S b j) = gmean n (fun j => gridVal n S (fun k => (v k).y) j * gridVal n S b j
      * gridVal n S (deriv δ 1 b) j) := gmean_congr n fun j => by ring
  have s2 : gmean n (fun j => gridVal n S (fun k => (v k).z) j * gridVal n S (deriv δ 2 b) j
      * gridVal n S b j) = gmean n (fun j => gridVal n S (fun k => (v k).z) j * gridVal n S b j
      * gridVal n S (deriv δ 2 b) j) := gmean_congr n fun j => by ring
  rw [s0] at l0; rw [s1] at l1; rw [s2] at l2
  linear_combination (-1 / 2 : ℂ) * (l0 + l1 + l2 - hd)

/-- The work on the velocity is the buoyancy flux. -/
theorem strat_velocity_work (n : Fin 3 → ℕ) (S : Finset (Fin 3 → ℤ)) (δ : Fin 3 → ℝ) (f : Option ℝ)
    (N : ℝ) (p : Projection) (noVzKz0 : Bool) (v : (Fin 3 → ℤ) → V3) (b : Fld (Fin 3))
    (hreal : RealVecOn S v)
    (hproj : ∀ k ∈ S, projectState p noVzKz0 (wave3 δ k) ⟨v k, some (b k)⟩ = ⟨v k, some (b k)⟩) :
    rateV S v (fun k => (ns3dStrat n S δ f N p noVzKz0 v b k).v)
      = ∑ k ∈ S, (b k * (starRingEnd ℂ) (v k).z).re := by
  have h1 : ∑ k ∈ S, inner (ns3dStrat n S δ f N p noVzKz0 v b k).v (v k)
      = ∑ k ∈ S, inner (lamb n S δ f v k) (v k) + ∑ k ∈ S, b k * (starRingEnd ℂ) (v k).z := by
    rw [← sum_add_distrib]
    refine sum_congr rfl fun k hk => ?_
    rw [ns3dStrat, if_pos hk]
    simp only []
    rw [projectState_inner (hproj k hk)]
    simp only [inner]; ring
  rw [rateV, ← Complex.re_sum, h1, Complex.add_re, Complex.re_sum S fun k => b k * _]
  have h0 : ∑ k ∈ S, inner (lamb n S δ f v k) (v k) = 0 := by
    simp only [lamb]
    rw [sum_inner n _ hreal]
    have h2 : ∀ v w : V3, (cross v w).x * v.x + (cross v w).y * v.y + (cross v w).z * v.z = 0 := by
      intro v w; simp only [cross]; ring
    simp only [h2, gmean, sum_const_zero, zero_div]
  rw [h0, Complex.zero_re, zero_add]

/-- The work on the buoyancy is minus `N²` times the buoyancy flux. -/
theorem strat_buoyancy_work {n : Fin 3 → ℕ} (hn : ∀ d, 0 < n d) {S : Finset (Fin 3 → ℤ)}
    (hS : TriadExact n S) (δ : Fin 3 → ℝ) (f : Option ℝ)
    (N : ℝ) (p : Projection) (noVzKz0 : Bool) (v : (Fin 3 → ℤ) → V3) (b : Fld (Fin 3))
    (hb : RealOn S b)
    (hproj : ∀ k ∈ S, projectState p noVzKz0 (wave3 δ k) ⟨v k, some (b k)⟩ = ⟨v k, some (b k)⟩) :
    rate S b (fun k => (ns3dStrat n S δ f N p noVzKz0 v b k).b.getD 0)
      = -N ^ 2 * ∑ k ∈ S, (b k * (starRingEnd ℂ) (v k).z).re := by
  have h1 : ∀ k ∈ S, (ns3dStrat n S δ f N p noVzKz0 v b k).b.getD 0 * (starRingEnd ℂ) (b k)
      = -(divVb n S δ v b k * (starRingEnd ℂ) (b k)) - N ^ 2 * ((v k).z * (starRingEnd ℂ) (b k)) := by
    intro k hk
    rw [ns3dStrat, if_pos hk]
    simp only [projectState]
    split
    · rename_i h
      have hb0 := (fixed_state (hproj k hk)).2 h.1 h.2
      simp [hb0]
    · simp only [Option.getD_some]; ring
  have h2 := divVb_work hn hS δ (fun k hk => (fixed_state (hproj k hk)).1) hb
  rw [rate, ← Complex.re_sum, sum_congr rfl h1, sum_sub_distrib, sum_neg_distrib, h2, neg_zero, zero_sub,
    ← mul_sum, Complex.neg_re]
  have h3 : ((N : ℂ) ^ 2) = ((N ^ 2 : ℝ) : ℂ) := by push_cast; rfl
  rw [h3, Complex.re_ofReal_mul, Complex.re_sum, neg_mul]
  congr 2
  refine sum_congr rfl fun k _ => ?_
  simp only [Complex.mul_re, Complex.conj_re, Complex.conj_im]
  ring

/-- C37 for ns3d.strat: with an alias-free truncation, the tendencies conserve
`1/2 Σ |v|² + 1/2 Σ |b|²/N²`, whatever the projection and the rotation. -/
theorem C37_strat {n : Fin 3 → ℕ} (hn : ∀ d, 0 < n d) {S : Finset (Fin 3 → ℤ)}
    (hS : TriadExact n S) (δ : Fin 3 → ℝ) (f : Option ℝ) {N : ℝ} (hN : N ≠ 0) (p : Projection)
    (noVzKz0 : Bool) (v : (Fin 3 → ℤ) → V3) (b : Fld (Fin 3)) (hreal : RealVecOn S v)
    (hb : RealOn S b)
    (hproj : ∀ k ∈ S, projectState p noVzKz0 (wave3 δ k) ⟨v k, some (b k)⟩ = ⟨v k, some (b k)⟩) :
    rateV S v (fun k => (ns3dStrat n S δ f N p noVzKz0 v b k).v)
      + rate S b (fun k => (ns3dStrat n S δ f N p noVzKz0 v b k).b.getD 0) / N ^ 2 = 0 := by
  rw [strat_velocity_work n S δ f N p noVzKz0 v b hreal hproj,
    strat_buoyancy_work hn hS δ f N p noVzKz0 v b hb hproj]
  field_simp
  ring

/-- C37 for ns3d.bouss: the variance of the buoyancy is conserved and the kinetic energy changes by
the buoyancy flux only. -/
theorem C37_bouss {n : Fin 3 → ℕ} (hn : ∀ d, 0 < n d) {S : Finset (Fin 3 → ℤ)}
    (hS : TriadExact n S) (δ : Fin 3 → ℝ) (f : Option ℝ) (p : Projection)
    (noVzKz0 : Bool) (v : (Fin 3 → ℤ) → V3) (b : Fld (Fin 3)) (hreal : RealVecOn S v)
    (hb : RealOn S b)
    (hproj : ∀ k ∈ S, projectState p noVzKz0 (wave3 δ k) ⟨v k, some (b k)⟩ = ⟨v k, some (b k)⟩) :
    rate S b (fun k => (ns3dStrat n S δ f 0 p noVzKz0 v b k).b.getD 0) = 0 ∧
      rateV S v (fun k => (ns3dStrat n S δ f 0 p noVzKz0 v b k).v)
        = ∑ k ∈ S, (b k * (starRingEnd ℂ) (v k).z).re := by
  refine ⟨?_, strat_velocity_work n S δ f 0 p noVzKz0 v b hreal hproj⟩
  rw [strat_buoyancy_work hn hS δ f 0 p noVzKz0 v b hb hproj]
  simp

/-- The truncations that keep only the modes with `3 |k| < n` in each direction are alias free (the
default 2/3 spherical truncation, see C07). -/
theorem C37_truncation {D : Type*} [Fintype D] [DecidableEq D] (n : D → ℕ) (S : Finset (D → ℤ))
    (h : ∀ k ∈ S, ∀ d, 3 * |k d| < n d) : TriadExact n S ∧ Distinct n S := by
  constructor
  · intro p hp q hq m hm hdvd d
    refine dvd_small (hdvd d) ?_
    have h1 := h p hp d; have h2 := h q hq d; have h3 := h m hm d
    have a1 := abs_add_le (p d + q d) (m d)
    have a2 := abs_add_le (p d) (q d)
    omega
  · intro p hp q hq hdvd
    funext d
    have h1 := h p hp d; have h2 := h q hq d
    have a1 := abs_sub (p d) (q d)
    have := dvd_small (hdvd d) (by omega)
    omega

/-- Modes, velocity and buoyancy of the examples. -/
def exS : Finset (Fin 3 → ℤ) := {![1, 0, 0], ![-1, 0, 0], ![0, 1, 0], ![0, -1, 0]}

def exV : (Fin 3 → ℤ) → V3 := fun k => if k 0 = 0 then ⟨1, 0, 2⟩ else ⟨0, 3, 1⟩

/-- The hypotheses are met by a flow with two velocity components varying in two directions. -/
example : RealVecOn exS exV ∧ (∀ k ∈ exS, kdot (wave3 (fun _ => 1) k) (exV k) = 0) ∧
    RealOn exS (fun _ => 1) ∧ (∀ k ∈ exS, ∀ d, 3 * |k d| < ((fun _ => 4 : Fin 3 → ℕ) d : ℤ)) := by
  have hneg : ∀ k ∈ exS, -k ∈ exS := by decide
  refine ⟨⟨?_, ?_, ?_⟩, ?_, ?_, by decide⟩
  · intro k hk
    refine ⟨hneg k hk, ?_⟩
    simp only [exV, Pi.neg_apply, neg_eq_zero]
    split <;> simp
  · intro k hk
    refine ⟨hneg k hk, ?_⟩
    simp only [exV, Pi.neg_apply, neg_eq_zero]
    split <;> simp [Complex.conj_ofNat]
  · intro k hk
    refine ⟨hneg k hk, ?_⟩
    simp only [exV, Pi.neg_apply, neg_eq_zero]
    split <;> simp [Complex.conj_ofNat]
  · intro k hk
    simp only [exS, mem_insert, mem_singleton] at hk
    rcases hk with rfl | rfl | rfl | rfl <;> simp [kdot, wave3, exV]
  · intro k hk
    exact ⟨hneg k hk, by simp⟩

end

end Verif.Energy
