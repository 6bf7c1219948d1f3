import Verif.Symmetry.Spec
import Verif.Symmetry.Lemmas
import Verif.Symmetry.Exact

/-! # C95: the tendencies with another origin and other units -/

set_option linter.unusedSectionVars false

namespace Verif.Symmetry

open Verif.Fourier Verif.Vectors Verif.Energy Verif.Galerkin Verif.EndToEnd Finset

noncomputable section

variable {D V : Type*} [Fintype D] [DecidableEq D]

/-- The factor of a translation. -/
def phase (δ s : D → ℝ) (k : D → ℤ) : ℂ := Complex.exp (Complex.I * ((∑ d, δ d * k d * s d : ℝ) : ℂ))

theorem phase_add (δ s : D → ℝ) (p q : D → ℤ) : phase δ s (p + q) = phase δ s p * phase δ s q := by
  rw [phase, phase, phase, ← Complex.exp_add]
  congr 1
  rw [← mul_add]
  congr 1
  rw [← Complex.ofReal_add]
  congr 1
  rw [← sum_add_distrib]
  refine sum_congr rfl fun d _ => ?_
  simp only [Pi.add_apply]
  push_cast
  ring

/-- The transformation as a map of modes. -/
def unitsMap (δ s : D → ℝ) (a : V → ℝ) : Map V D V D := ⟨fun v k => some (v, k), fun v k => (a v : ℂ) * phase δ s k⟩

theorem unitsMap_app (δ s : D → ℝ) (a : V → ℝ) (u : V → Fld D) : (unitsMap δ s a).app u = transformed δ s a u := rfl

theorem exact_transformed (S : Finset (D → ℤ)) (δ s : D → ℝ) (a b : ℂ) (u v : Fld D) (k : D → ℤ) :
    exactProduct S (fun p => a * phase δ s p * u p) (fun p => b * phase δ s p * v p) k = a * b * phase δ s k * exactProduct S u v k := by
  simp only [exactProduct, mul_sum]
  refine sum_congr rfl fun p _ => sum_congr rfl fun q _ => ?_
  split
  · rename_i h
    rw [← h, phase_add]; ring
  · ring

theorem pd_transformed {ℓ : ℝ} (δ s : D → ℝ) (d : D) (a : ℂ) (u : Fld D) :
    pd (fun d => δ d / ℓ) d (fun p => a * phase δ s p * u p) = fun p => a / ℓ * phase δ s p * pd δ d u p := by
  funext p
  simp only [pd]
  push_cast
  ring

theorem k2not0_units {ℓ : ℝ} (hℓ : ℓ ≠ 0) (x y : ℝ) (c : ℂ) :
    (((x / ℓ : ℝ) : ℂ) / (Forcing.k2not0 (x / ℓ) (y / ℓ) : ℂ) = ℓ * ((x : ℂ) / Forcing.k2not0 x y)) ∧
      (((y / ℓ : ℝ) : ℂ) / (Forcing.k2not0 (x / ℓ) (y / ℓ) : ℂ) = ℓ * ((y : ℂ) / Forcing.k2not0 x y)) := by
  have hc : (ℓ : ℂ) ≠ 0 := by exact_mod_cast hℓ
  by_cases h : x ^ 2 + y ^ 2 = 0
  · have h0 : x = 0 := by nlinarith [sq_nonneg x, sq_nonneg y]
    have h1 : y = 0 := by nlinarith [sq_nonneg x, sq_nonneg y]
    simp [h0, h1]
  · have h' : (x / ℓ) ^ 2 + (y / ℓ) ^ 2 ≠ 0 := by
      rw [div_pow, div_pow, ← add_div]
      exact div_ne_zero h (pow_ne_zero 2 hℓ)
    rw [Forcing.k2not0, if_neg h', Forcing.k2not0, if_neg h]
    have e : ((x / ℓ) ^ 2 + (y / ℓ) ^ 2 : ℝ) = (x ^ 2 + y ^ 2) / ℓ ^ 2 := by ring
    rw [e]
    have h2 : ((x ^ 2 + y ^ 2 : ℝ) : ℂ) ≠ 0 := by exact_mod_cast h
    constructor <;>
    · rw [Complex.ofReal_div, Complex.ofReal_div]
      push_cast at h2 ⊢
      field_simp

theorem ux2_transformed {ℓ : ℝ} (hℓ : ℓ ≠ 0) (δ s : Fin 2 → ℝ) (a : ℂ) (u : Fld (Fin 2)) :
    ux2 (fun d => δ d / ℓ) (fun p => a * phase δ s p * u p) = (fun p => ℓ * a * phase δ s p * ux2 δ u p) ∧
      uy2 (fun d => δ d / ℓ) (fun p => a * phase δ s p * u p) = fun p => ℓ * a * phase δ s p * uy2 δ u p := by
  constructor
  · funext p
    have := (k2not0_units hℓ (δ 0 * p 0) (δ 1 * p 1) 0).2
    simp only [ux2, Forcing.vecFromRot]
    rw [div_mul_eq_mul_div (δ 0), div_mul_eq_mul_div (δ 1), mul_div_assoc, this]
    ring
  · funext p
    have := (k2not0_units hℓ (δ 0 * p 0) (δ 1 * p 1) 0).1
    simp only [uy2, Forcing.vecFromRot]
    rw [div_mul_eq_mul_div (δ 0), div_mul_eq_mul_div (δ 1), mul_div_assoc, this]
    ring

theorem fd_units {ℓ τ : ℝ} (hℓ : 0 < ℓ) (hτ : 0 < τ) (nu : Dissip.Nu) (δ : D → ℝ) (k : D → ℤ) :
    τ * Dissip.fd (newNu ℓ τ nu) (waveSq (fun d => δ d / ℓ) k) = Dissip.fd nu (waveSq δ k) := by
  have e : waveSq (fun d => δ d / ℓ) k = waveSq δ k / ℓ ^ 2 := by
    simp only [waveSq, sum_div]
    exact sum_congr rfl fun d _ => by ring
  rw [e]
  have h2 : nu.nu2 * ℓ ^ 2 / τ > 0 ↔ nu.nu2 > 0 := by
    rw [gt_iff_lt, div_pos_iff_of_pos_right hτ, mul_pos_iff_of_pos_right (by positivity)]
  have h4 : nu.nu4 * ℓ ^ 4 / τ > 0 ↔ nu.nu4 > 0 := by
    rw [gt_iff_lt, div_pos_iff_of_pos_right hτ, mul_pos_iff_of_pos_right (by positivity)]
  have h8 : nu.nu8 * ℓ ^ 8 / τ > 0 ↔ nu.nu8 > 0 := by
    rw [gt_iff_lt, div_pos_iff_of_pos_right hτ, mul_pos_iff_of_pos_right (by positivity)]
  simp only [Dissip.fd, newNu, h2, h4, h8]
  have a2 : ∀ x : ℝ, τ * (nu.nu2 * ℓ ^ 2 / τ * (x / ℓ ^ 2)) = nu.nu2 * x := fun x => by field_simp
  have a4 : ∀ x : ℝ, τ * (nu.nu4 * ℓ ^ 4 / τ * (x / ℓ ^ 2) ^ 2) = nu.nu4 * x ^ 2 := fun x => by field_simp
  have a8 : ∀ x : ℝ, τ * (nu.nu8 * ℓ ^ 8 / τ * ((x / ℓ ^ 2) ^ 2) ^ 2) = nu.nu8 * (x ^ 2) ^ 2 := fun x => by field_simp
  split <;> split <;> split <;> simp only [mul_add, a2, a4, a8, mul_zero]

theorem tend2d_units {n : Fin 2 → ℕ} (hn : ∀ d, 0 < n d) {S : Finset (Fin 2 → ℤ)} (hS : NoAlias n S) (δ s : Fin 2 → ℝ) {ℓ τ : ℝ}
    (hℓ : ℓ ≠ 0) (hτ : τ ≠ 0) (beta : ℝ) (u : Unit → Fld (Fin 2)) (v : Unit) (k : Fin 2 → ℤ) :
    τ * tend2d n S (fun d => δ d / ℓ) (beta / (ℓ * τ)) (transformed δ s (fun _ => 1 / τ) u) v k
      = transformed δ s (fun _ => 1 / τ) (tend2d n S δ beta u) v k := by
  have hc : (τ : ℂ) ≠ 0 := by exact_mod_cast hτ
  have hl : (ℓ : ℂ) ≠ 0 := by exact_mod_cast hℓ
  change _ = ((1 / τ : ℝ) : ℂ) * phase δ s k * _
  by_cases hk : k ∈ S
  · have e : transformed δ s (fun _ => 1 / τ) u () = fun p => ((1 / τ : ℝ) : ℂ) * phase δ s p * u () p := rfl
    simp only [tend2d]
    rw [e, ns2d_exact hn hS _ _ _ hk, ns2d_exact hn hS _ _ _ hk]
    obtain ⟨e1, e2⟩ := ux2_transformed hℓ δ s ((1 / τ : ℝ) : ℂ) (u ())
    rw [e1, e2, pd_transformed, pd_transformed, exact_transformed, exact_transformed]
    push_cast
    field_simp
  · simp [tend2d, ns2d, hk]

theorem tendStrat_units {n : Fin 2 → ℕ} (hn : ∀ d, 0 < n d) {S : Finset (Fin 2 → ℤ)} (hS : NoAlias n S) (δ s : Fin 2 → ℝ) {ℓ τ : ℝ}
    (hℓ : ℓ ≠ 0) (hτ : τ ≠ 0) (N : ℝ) (u : Fin 2 → Fld (Fin 2)) (v : Fin 2) (k : Fin 2 → ℤ) :
    τ * tendStrat n S (fun d => δ d / ℓ) (N / τ) (transformed δ s ![1 / τ, ℓ / τ ^ 2] u) v k
      = transformed δ s ![1 / τ, ℓ / τ ^ 2] (tendStrat n S δ N u) v k := by
  have hc : (τ : ℂ) ≠ 0 := by exact_mod_cast hτ
  have hl : (ℓ : ℂ) ≠ 0 := by exact_mod_cast hℓ
  change _ = ((![1 / τ, ℓ / τ ^ 2] v : ℝ) : ℂ) * phase δ s k * _
  by_cases hk : k ∈ S
  · have e : transformed δ s ![1 / τ, ℓ / τ ^ 2] u 0 = fun p => ((1 / τ : ℝ) : ℂ) * phase δ s p * u 0 p := rfl
    have e' : transformed δ s ![1 / τ, ℓ / τ ^ 2] u 1 = fun p => ((ℓ / τ ^ 2 : ℝ) : ℂ) * phase δ s p * u 1 p := rfl
    obtain ⟨e1, e2⟩ := ux2_transformed hℓ δ s ((1 / τ : ℝ) : ℂ) (u 0)
    simp only [tendStrat, e, e']
    fin_cases v
    · simp only [Fin.zero_eta, if_true]
      rw [(ns2dStrat_exact hn hS _ _ _ _ hk).1, (ns2dStrat_exact hn hS _ _ _ _ hk).1, e1, e2]
      simp only [pd_transformed, exact_transformed, Matrix.cons_val_zero]
      push_cast
      field_simp
    · simp only [Fin.mk_one, one_ne_zero, if_false]
      rw [(ns2dStrat_exact hn hS _ _ _ _ hk).2, (ns2dStrat_exact hn hS _ _ _ _ hk).2, e1, e2]
      simp only [pd_transformed, exact_transformed, Matrix.cons_val_one, Matrix.cons_val_fin_one]
      push_cast
      field_simp
  · fin_cases v <;> simp [tendStrat, ns2dStrat, hk]

/-! ### three dimensions -/

theorem nozero_units {ℓ : ℝ} (hℓ : 0 < ℓ) {a : ℝ} (ha : a ≠ 0) : nozero (a / ℓ ^ 2) = nozero a / ℓ ^ 2 := by
  rw [nozero, nozero, if_neg ha, if_neg (div_ne_zero ha (by positivity))]

theorem wave3_units (δ : Fin 3 → ℝ) (ℓ : ℝ) (k : Fin 3 → ℤ) :
    wave3 (fun d => δ d / ℓ) k = ⟨(wave3 δ k).x / ℓ, (wave3 δ k).y / ℓ, (wave3 δ k).z / ℓ⟩ := by
  simp only [wave3, K3.mk.injEq]
  refine ⟨?_, ?_, ?_⟩ <;> ring

theorem sqrt_units {ℓ : ℝ} (hℓ : 0 < ℓ) (a : ℝ) : √(1 / (a / ℓ ^ 2)) = ℓ * √(1 / a) := by
  rw [one_div_div, div_eq_mul_one_div, Real.sqrt_mul (by positivity), Real.sqrt_sq hℓ.le]

theorem projector_units {ℓ : ℝ} (hℓ : 0 < ℓ) (p : Projection) (k : K3) (v : V3) :
    projector p ⟨k.x / ℓ, k.y / ℓ, k.z / ℓ⟩ v = projector p k v := by
  have hc : (ℓ : ℂ) ≠ 0 := by exact_mod_cast hℓ.ne'
  have e2 : k2 ⟨k.x / ℓ, k.y / ℓ, k.z / ℓ⟩ = k2 k / ℓ ^ 2 := by simp only [k2, kh2]; ring
  have eh : kh2 ⟨k.x / ℓ, k.y / ℓ, k.z / ℓ⟩ = kh2 k / ℓ ^ 2 := by simp only [kh2]; ring
  have hsq : ∀ a : ℝ, √((a / ℓ) ^ 2) = √(a ^ 2) / ℓ := fun a => by rw [Real.sqrt_sq_eq_abs, Real.sqrt_sq_eq_abs, abs_div, abs_of_pos hℓ]
  have hphi : cosPhi ⟨k.x / ℓ, k.y / ℓ, k.z / ℓ⟩ = cosPhi k ∧ sinPhi ⟨k.x / ℓ, k.y / ℓ, k.z / ℓ⟩ = sinPhi k := by
    by_cases h : kh2 k = 0
    · have hx : k.x = 0 := by simp only [kh2] at h; nlinarith [sq_nonneg k.x, sq_nonneg k.y]
      have hy : k.y = 0 := by simp only [kh2] at h; nlinarith [sq_nonneg k.x, sq_nonneg k.y]
      simp [cosPhi, sinPhi, hx, hy]
    · simp only [cosPhi, sinPhi, eh]
      rw [nozero_units hℓ h, sqrt_units hℓ]
      constructor <;> field_simp
  by_cases h : k2 k = 0
  · have hx : k.x = 0 := by simp only [k2, kh2] at h; nlinarith [sq_nonneg k.x, sq_nonneg k.y, sq_nonneg k.z]
    have hy : k.y = 0 := by simp only [k2, kh2] at h; nlinarith [sq_nonneg k.x, sq_nonneg k.y, sq_nonneg k.z]
    have hz : k.z = 0 := by simp only [k2, kh2] at h; nlinarith [sq_nonneg k.x, sq_nonneg k.y, sq_nonneg k.z]
    have : (⟨k.x / ℓ, k.y / ℓ, k.z / ℓ⟩ : K3) = k := by cases k; simp_all
    rw [this]
  · have hth : cosTheta ⟨k.x / ℓ, k.y / ℓ, k.z / ℓ⟩ = cosTheta k ∧ sinTheta ⟨k.x / ℓ, k.y / ℓ, k.z / ℓ⟩ = sinTheta k := by
      simp only [cosTheta, sinTheta, eh, e2]
      rw [nozero_units hℓ h]
      constructor
      · rw [sqrt_units hℓ]; field_simp
      · congr 1; field_simp
    cases p
    · simp only [projector, perpk, kradial, e2]
      rw [nozero_units hℓ h]
      have hn : (nozero (k2 k) : ℂ) ≠ 0 := by
        rw [nozero, if_neg h]; exact_mod_cast h
      simp only [V3.mk.injEq]
      push_cast
      refine ⟨?_, ?_, ?_⟩ <;> field_simp
    · simp only [projector, toroidal, hphi]
    · simp only [projector, poloidal, hphi, hth]

theorem projV_units {ℓ : ℝ} (hℓ : 0 < ℓ) (p : Projection) (noVz : Bool) (δ : Fin 3 → ℝ) (k : Fin 3 → ℤ) (v : V3) :
    projV p noVz (wave3 (fun d => δ d / ℓ) k) v = projV p noVz (wave3 δ k) v := by
  rw [wave3_units]
  simp only [projV, projector_units hℓ, div_eq_zero_iff, hℓ.ne', or_false]

theorem projV_mul (p : Projection) (noVz : Bool) (k : K3) (a : ℂ) (v : V3) :
    projV p noVz k ⟨a * v.x, a * v.y, a * v.z⟩
      = ⟨a * (projV p noVz k v).x, a * (projV p noVz k v).y, a * (projV p noVz k v).z⟩ := by
  have := projV_linear p noVz k a 0 v v
  simpa using this

theorem navierStokes_units (S : Finset (Fin 3 → ℤ)) (δ s : Fin 3 → ℝ) {ℓ τ : ℝ} (hℓ : ℓ ≠ 0) (hτ : τ ≠ 0) (f : ℝ)
    (v : (Fin 3 → ℤ) → V3) (k : Fin 3 → ℤ) :
    navierStokes S (fun d => δ d / ℓ) (f / τ) (fun k => ⟨((ℓ / τ : ℝ) : ℂ) * phase δ s k * (v k).x, ((ℓ / τ : ℝ) : ℂ) * phase δ s k * (v k).y,
        ((ℓ / τ : ℝ) : ℂ) * phase δ s k * (v k).z⟩) k
      = ⟨((ℓ / τ ^ 2 : ℝ) : ℂ) * phase δ s k * (navierStokes S δ f v k).x, ((ℓ / τ ^ 2 : ℝ) : ℂ) * phase δ s k * (navierStokes S δ f v k).y,
        ((ℓ / τ ^ 2 : ℝ) : ℂ) * phase δ s k * (navierStokes S δ f v k).z⟩ := by
  have hc : (τ : ℂ) ≠ 0 := by exact_mod_cast hτ
  have hl : (ℓ : ℂ) ≠ 0 := by exact_mod_cast hℓ
  simp only [navierStokes, advect, Fin.sum_univ_three, comp, pd_transformed, exact_transformed, V3.mk.injEq]
  push_cast
  refine ⟨?_, ?_, ?_⟩ <;> field_simp

theorem tend3d_units {n : Fin 3 → ℕ} (hn : ∀ d, 0 < n d) {S : Finset (Fin 3 → ℤ)} (hS : NoAlias n S) (δ s : Fin 3 → ℝ) {ℓ τ : ℝ}
    (hℓ : 0 < ℓ) (hτ : τ ≠ 0) (f : Option ℝ) (p : Projection) (noVz : Bool) (u : Fin 3 → Fld (Fin 3)) (v : Fin 3) (k : Fin 3 → ℤ) :
    τ * tend3d n S (fun d => δ d / ℓ) (f.map (· / τ)) p noVz (transformed δ s (fun _ => ℓ / τ) u) v k
      = transformed δ s (fun _ => ℓ / τ) (tend3d n S δ f p noVz u) v k := by
  have hc : (τ : ℂ) ≠ 0 := by exact_mod_cast hτ
  change _ = ((ℓ / τ : ℝ) : ℂ) * phase δ s k * _
  have hf : (f.map (· / τ)).getD 0 = f.getD 0 / τ := by cases f <;> simp
  by_cases hk : k ∈ S
  · have e : ns3d n S (fun d => δ d / ℓ) (f.map (· / τ)) p noVz (vec (transformed δ s (fun _ => ℓ / τ) u)) k
        = ⟨((ℓ / τ ^ 2 : ℝ) : ℂ) * phase δ s k * (ns3d n S δ f p noVz (vec u) k).x,
          ((ℓ / τ ^ 2 : ℝ) : ℂ) * phase δ s k * (ns3d n S δ f p noVz (vec u) k).y,
          ((ℓ / τ ^ 2 : ℝ) : ℂ) * phase δ s k * (ns3d n S δ f p noVz (vec u) k).z⟩ := by
      rw [ns3d_exact hn hS _ _ _ _ _ hk, ns3d_exact hn hS _ _ _ _ _ hk, hf, projV_units hℓ, ← projV_mul]
      congr 1
      exact navierStokes_units S δ s hℓ.ne' hτ _ (vec u) k
    fin_cases v <;> simp only [tend3d, components, Fin.zero_eta, Fin.mk_one, Fin.reduceFinMk, e] <;> push_cast <;> field_simp
  · fin_cases v <;> simp [tend3d, components, ns3d, hk]

theorem tend3dStrat_units {n : Fin 3 → ℕ} (hn : ∀ d, 0 < n d) {S : Finset (Fin 3 → ℤ)} (hS : NoAlias n S) (δ s : Fin 3 → ℝ) {ℓ τ : ℝ}
    (hℓ : 0 < ℓ) (hτ : τ ≠ 0) (f : Option ℝ) (N : ℝ) (p : Projection) (noVz : Bool) (u : Fin 4 → Fld (Fin 3)) (v : Fin 4)
    (k : Fin 3 → ℤ) :
    τ * tend3dStrat n S (fun d => δ d / ℓ) (f.map (· / τ)) (N / τ) p noVz
        (transformed δ s ![ℓ / τ, ℓ / τ, ℓ / τ, ℓ / τ ^ 2] u) v k
      = transformed δ s ![ℓ / τ, ℓ / τ, ℓ / τ, ℓ / τ ^ 2] (tend3dStrat n S δ f N p noVz u) v k := by
  have hc : (τ : ℂ) ≠ 0 := by exact_mod_cast hτ
  have hl : (ℓ : ℂ) ≠ 0 := by exact_mod_cast hℓ.ne'
  change _ = ((![ℓ / τ, ℓ / τ, ℓ / τ, ℓ / τ ^ 2] v : ℝ) : ℂ) * phase δ s k * _
  have hf : (f.map (· / τ)).getD 0 = f.getD 0 / τ := by cases f <;> simp
  set u' := transformed δ s ![ℓ / τ, ℓ / τ, ℓ / τ, ℓ / τ ^ 2] u with hu'
  have e3 : u' 3 = fun p => ((ℓ / τ ^ 2 : ℝ) : ℂ) * phase δ s p * u 3 p := rfl
  have ev : (fun k => (modeState u' k).v) = fun k => ⟨((ℓ / τ : ℝ) : ℂ) * phase δ s k * (modeState u k).v.x,
      ((ℓ / τ : ℝ) : ℂ) * phase δ s k * (modeState u k).v.y, ((ℓ / τ : ℝ) : ℂ) * phase δ s k * (modeState u k).v.z⟩ := rfl
  by_cases hk : k ∈ S
  · obtain ⟨e1, e2⟩ := ns3dStrat_exact hn hS (fun d => δ d / ℓ) (f.map (· / τ)) (N / τ) p noVz (fun k => (modeState u' k).v) (u' 3) hk
    obtain ⟨d1, d2⟩ := ns3dStrat_exact hn hS δ f N p noVz (fun k => (modeState u k).v) (u 3) hk
    have hv : (ns3dStrat n S (fun d => δ d / ℓ) (f.map (· / τ)) (N / τ) p noVz (fun k => (modeState u' k).v) (u' 3) k).v
        = ⟨((ℓ / τ ^ 2 : ℝ) : ℂ) * phase δ s k * (ns3dStrat n S δ f N p noVz (fun k => (modeState u k).v) (u 3) k).v.x,
          ((ℓ / τ ^ 2 : ℝ) : ℂ) * phase δ s k * (ns3dStrat n S δ f N p noVz (fun k => (modeState u k).v) (u 3) k).v.y,
          ((ℓ / τ ^ 2 : ℝ) : ℂ) * phase δ s k * (ns3dStrat n S δ f N p noVz (fun k => (modeState u k).v) (u 3) k).v.z⟩ := by
      rw [e1, d1, hf, projV_units hℓ, ← projV_mul, ev, navierStokes_units S δ s hℓ.ne' hτ, e3]
      congr 1
      simp only [add, V3.mk.injEq]
      refine ⟨?_, ?_, ?_⟩ <;> ring
    have hb : (ns3dStrat n S (fun d => δ d / ℓ) (f.map (· / τ)) (N / τ) p noVz (fun k => (modeState u' k).v) (u' 3) k).b.getD 0
        = ((ℓ / τ ^ 3 : ℝ) : ℂ) * phase δ s k * (ns3dStrat n S δ f N p noVz (fun k => (modeState u k).v) (u 3) k).b.getD 0 := by
      have hz : (wave3 (fun d => δ d / ℓ) k).z = 0 ↔ (wave3 δ k).z = 0 := by rw [wave3_units]; simp [hℓ.ne']
      have hx : ∀ d, exactProduct S (comp (fun k => (modeState u' k).v) d) (u' 3) k
          = ((ℓ / τ : ℝ) : ℂ) * ((ℓ / τ ^ 2 : ℝ) : ℂ) * phase δ s k * exactProduct S (comp (fun k => (modeState u k).v) d) (u 3) k := by
        intro d
        rw [ev, e3, ← exact_transformed]
        fin_cases d <;> rfl
      rw [e2, d2]
      simp only [Option.getD_some, hz]
      split
      · ring
      · have hz' : (modeState u' k).v.z = ((ℓ / τ : ℝ) : ℂ) * phase δ s k * (modeState u k).v.z := rfl
        simp only [hx, Fin.sum_univ_three, hz']
        push_cast
        field_simp
    fin_cases v <;> simp only [tend3dStrat, components4, Fin.zero_eta, Fin.mk_one, Fin.reduceFinMk, hv, hb, Matrix.cons_val] <;>
      push_cast <;> field_simp
  · fin_cases v <;> simp [tend3dStrat, components4, ns3dStrat, hk]

end

end Verif.Symmetry
