import Verif.SpatialMeans.Props

/-! # C59: spatial means of ns3d.strat and plate2d -/

namespace Verif.SpatialMeans

open Verif.Fourier Verif.Energy Verif.Vectors Verif.SpectBudget Verif.Galerkin Finset

set_option linter.unusedSectionVars false

noncomputable section

/-! ### ns3d.strat -/

theorem sq_mul4 (a : ℝ) (b : ℝ) (c r : ℂ) (hc : ‖c‖ = 1) :
    ‖c * (a : ℂ) * (b : ℂ) * r‖ ^ 2 = a ^ 2 * b ^ 2 * ‖r‖ ^ 2 := by
  simp only [norm_mul, hc, Complex.norm_real, Real.norm_eq_abs, one_mul, mul_pow, sq_abs]

/-- Squares of the two parts of the horizontal velocity of a mode which is not a shear mode. -/
theorem urud_sq {k : K3} (h : ¬ Shear k) (vx vy : ℂ) :
    ‖(urud k vx vy).1.1‖ ^ 2 + ‖(urud k vx vy).1.2‖ ^ 2 = ‖rotz k vx vy‖ ^ 2 / kh2 k ∧
      ‖(urud k vx vy).2.1‖ ^ 2 + ‖(urud k vx vy).2.2‖ ^ 2 = ‖divh k vx vy‖ ^ 2 / kh2 k ∧
      ‖rotz k vx vy‖ ^ 2 / kh2 k + ‖divh k vx vy‖ ^ 2 / kh2 k = ‖vx‖ ^ 2 + ‖vy‖ ^ 2 := by
  obtain ⟨-, -, -, -, -, hq⟩ := C29_urud k vx vy
  obtain ⟨h1, h2⟩ := hq h
  have hp := (kh2_pos h).ne'
  have e : k.x ^ 2 + k.y ^ 2 = kh2 k := rfl
  have hi : nozero (kh2 k) = kh2 k := nozero_of_ne hp
  refine ⟨?_, ?_, ?_⟩
  · rw [h1]
    simp only [vxvyFromRotz, hi]
    rw [sq_mul4 _ _ _ _ (by simp), sq_mul4 _ _ _ _ (by simp), ← e]
    rw [← e] at hp
    field_simp
    ring
  · rw [h2]
    simp only [vxvyFromDivh, hi]
    rw [sq_mul4 _ _ _ _ (by simp), sq_mul4 _ _ _ _ (by simp), ← e]
    rw [← e] at hp
    field_simp
    try ring
  · rw [← add_div, div_eq_iff hp, ← e]
    simp only [rotz, divh, ← Complex.normSq_eq_norm_sq, Complex.normSq_apply, Complex.mul_re,
      Complex.mul_im, Complex.add_re, Complex.add_im, Complex.sub_re, Complex.sub_im,
      Complex.I_re, Complex.I_im, Complex.ofReal_re, Complex.ofReal_im]
    ring

theorem urud_shear {k : K3} (h : Shear k) (vx vy : ℂ) :
    (urud k vx vy).1 = (vx, vy) ∧ (urud k vx vy).2 = (0, 0) := by
  obtain ⟨h1, h2, -, -, h3, -⟩ := C29_urud k vx vy
  have := h3 h
  rw [this] at h1 h2
  refine ⟨Prod.ext ?_ ?_, this⟩
  · simpa using h1
  · simpa using h2

/-- The modes which do not depend on `x` and `y`. -/
def shearModes (S : Finset (Fin 3 → ℤ)) : Finset (Fin 3 → ℤ) := S.filter fun k => k 0 = 0 ∧ k 1 = 0

theorem shear_iff {δ : Fin 3 → ℝ} (hδ : ∀ d, δ d ≠ 0) (k : Fin 3 → ℤ) :
    Shear (wave3 δ k) ↔ k 0 = 0 ∧ k 1 = 0 := by
  have : ∀ d, δ d * (k d : ℝ) = 0 ↔ k d = 0 := fun d => by
    rw [mul_eq_zero, or_iff_right (hδ d)]; exact_mod_cast Iff.rfl
  simp only [Shear, wave3, this]

theorem cond_iff {δ : Fin 3 → ℝ} (hδ : ∀ d, δ d ≠ 0) (k : Fin 3 → ℤ) :
    (δ 0 * (k 0 : ℝ)) ^ 2 + (δ 1 * (k 1 : ℝ)) ^ 2 = 0 ↔ k 0 = 0 ∧ k 1 = 0 := by
  have : ∀ d, δ d * (k d : ℝ) = 0 ↔ k d = 0 := fun d => by
    rw [mul_eq_zero, or_iff_right (hδ d)]; exact_mod_cast Iff.rfl
  rw [← this, ← this]
  constructor
  · intro h
    constructor <;> nlinarith [sq_nonneg (δ 0 * (k 0 : ℝ)), sq_nonneg (δ 1 * (k 1 : ℝ))]
  · rintro ⟨h1, h2⟩; rw [h1, h2]; ring

theorem mode_sq {δ : Fin 3 → ℝ} (k : Fin 3 → ℤ) (vx vy : ℂ) :
    ‖(urud (wave3 δ k) vx vy).1.1‖ ^ 2 + ‖(urud (wave3 δ k) vx vy).1.2‖ ^ 2
      + (‖(urud (wave3 δ k) vx vy).2.1‖ ^ 2 + ‖(urud (wave3 δ k) vx vy).2.2‖ ^ 2)
      = ‖vx‖ ^ 2 + ‖vy‖ ^ 2 := by
  by_cases h : Shear (wave3 δ k)
  · obtain ⟨h1, h2⟩ := urud_shear h vx vy
    rw [h1, h2]; simp
  · obtain ⟨h1, h2, h3⟩ := urud_sq h vx vy
    rw [h1, h2, h3]

/-- C59 (ns3d.strat): the saved energies. `E` is the total energy; the shear energies are those of the
modes which do not depend on `x` and `y`; `EKhr` and `EKhd` are the energies of the rotational and
divergent parts of the horizontal velocity of the other modes, from the vertical vorticity and the
horizontal divergence. -/
theorem C59_ns3dstrat_energies {S : Finset (Fin 3 → ℤ)} {δ : Fin 3 → ℝ} (hδ : ∀ d, δ d ≠ 0) (N : ℝ)
    (fd fdHypo : (Fin 3 → ℤ) → ℝ) (dt : ℝ) (v F : (Fin 3 → ℤ) → V3) (b Fb : Fld (Fin 3)) :
    let M := ns3dStratMeans S δ N fd fdHypo dt v F b Fb
    M.E = ∑ k ∈ S, ((‖(v k).x‖ ^ 2 + ‖(v k).y‖ ^ 2 + ‖(v k).z‖ ^ 2) / 2 + ‖b k‖ ^ 2 / 2 / N ^ 2) ∧
      M.EA = (∑ k ∈ S, ‖b k‖ ^ 2 / 2) / N ^ 2 ∧
      M.EKz = ∑ k ∈ S, ‖(v k).z‖ ^ 2 / 2 ∧
      M.EKhs = ∑ k ∈ shearModes S, (‖(v k).x‖ ^ 2 + ‖(v k).y‖ ^ 2) / 2 ∧
      M.EAs = (∑ k ∈ shearModes S, ‖b k‖ ^ 2 / 2) / N ^ 2 ∧
      M.EKhr = ∑ k ∈ S \ shearModes S,
        ‖rotz (wave3 δ k) (v k).x (v k).y‖ ^ 2 / kh2 (wave3 δ k) / 2 ∧
      M.EKhd = ∑ k ∈ S \ shearModes S,
        ‖divh (wave3 δ k) (v k).x (v k).y‖ ^ 2 / kh2 (wave3 δ k) / 2 := by
  intro M
  have hind : ∀ f : (Fin 3 → ℤ) → ℝ, ∑ k ∈ S, f k * (if (δ 0 * (k 0 : ℝ)) ^ 2
      + (δ 1 * (k 1 : ℝ)) ^ 2 = 0 then (1 : ℝ) else 0) = ∑ k ∈ shearModes S, f k := by
    intro f
    rw [shearModes, sum_filter]
    refine sum_congr rfl fun k _ => ?_
    simp only [cond_iff hδ k]
    split <;> simp
  have hsplit : ∀ f : (Fin 3 → ℤ) → ℝ, ∑ k ∈ S, f k
      = ∑ k ∈ S \ shearModes S, f k + ∑ k ∈ shearModes S, f k := by
    intro f
    exact (sum_sdiff (filter_subset _ _ : shearModes S ⊆ S)).symm
  have hsh : ∀ k ∈ shearModes S, Shear (wave3 δ k) := fun k hk =>
    (shear_iff hδ k).2 (mem_filter.1 hk).2
  have hnsh : ∀ k ∈ S \ shearModes S, ¬ Shear (wave3 δ k) := fun k hk h => by
    rw [mem_sdiff] at hk
    exact hk.2 (mem_filter.2 ⟨hk.1, (shear_iff hδ k).1 h⟩)
  have hKhs : M.EKhs = ∑ k ∈ shearModes S, (‖(v k).x‖ ^ 2 + ‖(v k).y‖ ^ 2) / 2 := by
    refine (hind _).trans (sum_congr rfl fun k hk => ?_)
    simp only [(urud_shear (hsh k hk) (v k).x (v k).y).1]
    ring
  have hKhd : M.EKhd = ∑ k ∈ S \ shearModes S,
        ‖divh (wave3 δ k) (v k).x (v k).y‖ ^ 2 / kh2 (wave3 δ k) / 2 := by
    refine (hsplit _).trans ?_
    rw [sum_eq_zero (s := shearModes S), add_zero]
    · refine sum_congr rfl fun k hk => ?_
      simp only [(urud_sq (hnsh k hk) (v k).x (v k).y).2.1]
      ring
    · intro k hk
      simp [(urud_shear (hsh k hk) (v k).x (v k).y).2]
  have hKhr : M.EKhr = ∑ k ∈ S \ shearModes S,
        ‖rotz (wave3 δ k) (v k).x (v k).y‖ ^ 2 / kh2 (wave3 δ k) / 2 := by
    have : M.EKhr = ∑ k ∈ S, 1 / 2 * (‖(urud (wave3 δ k) (v k).x (v k).y).1.1‖ ^ 2
        + ‖(urud (wave3 δ k) (v k).x (v k).y).1.2‖ ^ 2) - M.EKhs := rfl
    rw [this, hsplit, hKhs]
    have e2 : ∑ k ∈ shearModes S, 1 / 2 * (‖(urud (wave3 δ k) (v k).x (v k).y).1.1‖ ^ 2
        + ‖(urud (wave3 δ k) (v k).x (v k).y).1.2‖ ^ 2)
        = ∑ k ∈ shearModes S, (‖(v k).x‖ ^ 2 + ‖(v k).y‖ ^ 2) / 2 := by
      refine sum_congr rfl fun k hk => ?_
      simp only [(urud_shear (hsh k hk) (v k).x (v k).y).1]; ring
    rw [e2, add_sub_cancel_right]
    refine sum_congr rfl fun k hk => ?_
    simp only [(urud_sq (hnsh k hk) (v k).x (v k).y).1]; ring
  have hA : M.EA = (∑ k ∈ S, ‖b k‖ ^ 2 / 2) / N ^ 2 := by
    simp only [M, ns3dStratMeans, sum_div]
    exact sum_congr rfl fun k _ => by ring
  have hKz : M.EKz = ∑ k ∈ S, ‖(v k).z‖ ^ 2 / 2 := by
    simp only [M, ns3dStratMeans, energy1]
    exact sum_congr rfl fun k _ => by ring
  refine ⟨?_, hA, hKz, hKhs, ?_, hKhr, hKhd⟩
  · have : M.E = M.EA + M.EKz + M.EKhr + M.EKhd + M.EKhs := rfl
    rw [this, hA, hKz, hKhs, hKhr, hKhd, sum_add_distrib]
    have e1 : ∑ k ∈ S, (‖(v k).x‖ ^ 2 + ‖(v k).y‖ ^ 2 + ‖(v k).z‖ ^ 2) / 2
        = ∑ k ∈ S \ shearModes S, (‖(v k).x‖ ^ 2 + ‖(v k).y‖ ^ 2) / 2
          + ∑ k ∈ shearModes S, (‖(v k).x‖ ^ 2 + ‖(v k).y‖ ^ 2) / 2
          + ∑ k ∈ S, ‖(v k).z‖ ^ 2 / 2 := by
      rw [← hsplit, ← sum_add_distrib]
      exact sum_congr rfl fun k _ => by ring
    have e2 : ∑ k ∈ S \ shearModes S, (‖(v k).x‖ ^ 2 + ‖(v k).y‖ ^ 2) / 2
        = ∑ k ∈ S \ shearModes S, ‖rotz (wave3 δ k) (v k).x (v k).y‖ ^ 2 / kh2 (wave3 δ k) / 2
        + ∑ k ∈ S \ shearModes S, ‖divh (wave3 δ k) (v k).x (v k).y‖ ^ 2 / kh2 (wave3 δ k) / 2 := by
      rw [← sum_add_distrib]
      refine sum_congr rfl fun k hk => ?_
      rw [← (urud_sq (hnsh k hk) (v k).x (v k).y).2.2]; ring
    rw [e1, e2, sum_div]
    ring
  · refine (hind _).trans ?_
    rw [sum_div]
    exact sum_congr rfl fun k _ => by ring

theorem eK_eq (δ : Fin 3 → ℝ) (v : (Fin 3 → ℤ) → V3) (k : Fin 3 → ℤ) :
    energy1 (v k).z
      + 1 / 2 * (‖(urud (wave3 δ k) (v k).x (v k).y).1.1‖ ^ 2
        + ‖(urud (wave3 δ k) (v k).x (v k).y).1.2‖ ^ 2)
      + 1 / 2 * (‖(urud (wave3 δ k) (v k).x (v k).y).2.1‖ ^ 2
        + ‖(urud (wave3 δ k) (v k).x (v k).y).2.2‖ ^ 2)
      = energy1 (v k).x + energy1 (v k).y + energy1 (v k).z := by
  have := mode_sq (δ := δ) k (v k).x (v k).y
  simp only [energy1]
  linear_combination this / 2

/-- C59 (ns3d.strat): the energies given by the forcing in one time step. -/
theorem C59_ns3dstrat_injection {S : Finset (Fin 3 → ℤ)} {δ : Fin 3 → ℝ} (hδ : ∀ d, δ d ≠ 0) (N : ℝ)
    (fd fdHypo : (Fin 3 → ℤ) → ℝ) (dt : ℝ) (v F : (Fin 3 → ℤ) → V3) (b Fb : Fld (Fin 3)) :
    let M := fun v b => ns3dStratMeans S δ N fd fdHypo dt v F b Fb
    (M (kickV dt v F) b).E - (M v b).E = dt * (M v b).PK.tot ∧
      (M v (kick dt b Fb)).EA - (M v b).EA = dt * (M v b).PA.tot ∧
      (M v b).PK.tot = (M v b).PK.p1 + (M v b).PK.p2 ∧
      (M v b).PA.tot = (M v b).PA.p1 + (M v b).PA.p2 := by
  refine ⟨?_, ?_, rfl, rfl⟩
  · show (ns3dStratMeans S δ N fd fdHypo dt _ F b Fb).E - (ns3dStratMeans S δ N fd fdHypo dt v F b Fb).E = _
    rw [(C59_ns3dstrat_energies hδ N fd fdHypo dt (kickV dt v F) F b Fb).1,
      (C59_ns3dstrat_energies hδ N fd fdHypo dt v F b Fb).1, ← sum_sub_distrib]
    simp only [ns3dStratMeans]
    rw [mul_add, mul_sum, sum_mul, sum_div, mul_sum, ← sum_add_distrib]
    refine sum_congr rfl fun k _ => ?_
    have := energy_kick3 dt v F k
    simp only [energy1] at this
    linear_combination this
  · simp only [ns3dStratMeans]
    rw [← sum_sub_distrib, mul_add, sum_mul, sum_mul, sum_div, sum_mul, mul_sum, mul_sum,
      ← sum_add_distrib]
    refine sum_congr rfl fun k _ => ?_
    rw [kick, sq_kick]; ring

/-- C59 (ns3d.strat): the budget: the rate of change of the saved energy is
`PK1 + PA1 - eps_tot`. -/
theorem C59_ns3dstrat_budget {n : Fin 3 → ℕ} (hn : ∀ d, 0 < n d) {S : Finset (Fin 3 → ℤ)}
    (hS : TriadExact n S) {δ : Fin 3 → ℝ} (hδ : ∀ d, δ d ≠ 0) (f : Option ℝ) {N : ℝ} (hN : N ≠ 0)
    (p : Projection) (noVzKz0 : Bool) (fd fdHypo : (Fin 3 → ℤ) → ℝ) (dt : ℝ)
    (v : ℝ → (Fin 3 → ℤ) → V3) (b : ℝ → Fld (Fin 3)) (F : (Fin 3 → ℤ) → V3) (Fb : Fld (Fin 3)) (t : ℝ)
    (hreal : RealVecOn S (v t)) (hb : RealOn S (b t))
    (hproj : ∀ k ∈ S, projectState p noVzKz0 (wave3 δ k) ⟨v t k, some (b t k)⟩
      = ⟨v t k, some (b t k)⟩)
    (hev : EvolvesV S v (fun k => add (ns3dStrat n S δ f N p noVzKz0 (v t) (b t) k).v (F k))
      (fun k => fd k + fdHypo k) t)
    (hevb : Evolves S b (fun k => (ns3dStrat n S δ f N p noVzKz0 (v t) (b t) k).b.getD 0 + Fb k)
      (fun k => fd k + fdHypo k) t) :
    let M := fun s => ns3dStratMeans S δ N fd fdHypo dt (v s) F (b s) Fb
    HasDerivAt (fun s => (M s).E) ((M t).PK.p1 + (M t).PA.p1 - (M t).epsTot) t := by
  intro M
  have e : (fun s => (M s).E)
      = fun s => ∑ k ∈ S, (energy1 (v s k).x + energy1 (v s k).y + energy1 (v s k).z)
        + (∑ k ∈ S, ‖b s k‖ ^ 2 / 2) / N ^ 2 := by
    funext s
    refine (C59_ns3dstrat_energies hδ N fd fdHypo dt (v s) F (b s) Fb).1.trans ?_
    rw [sum_add_distrib, sum_div]
    congr 1
    exact sum_congr rfl fun k _ => by simp only [energy1]; ring
  rw [e]
  refine ((energyV_deriv hev).fun_add ((sumSq_deriv hevb).div_const (N ^ 2))).congr_deriv ?_
  have hc := C37_strat hn hS δ f hN p noVzKz0 (v t) (b t) hreal hb hproj
  have hK : (M t).epsK + (M t).epsKhypo = (diss S fd fdHypo fun k =>
        energy1 (v t k).x + energy1 (v t k).y + energy1 (v t k).z).tot := by
    simp only [M, ns3dStratMeans, eK_eq]
    rfl
  have hA : (M t).epsA + (M t).epsAhypo = (∑ k ∈ S, (fd k + fdHypo k) * ‖b t k‖ ^ 2) / N ^ 2 := by
    have : (M t).epsA + (M t).epsAhypo
        = (diss S fd fdHypo fun k => 1 / N ^ 2 / 2 * ‖b t k‖ ^ 2).tot := rfl
    rw [this, diss_tot, sum_div]
    exact sum_congr rfl fun k _ => by ring
  have hT : (M t).epsTot = ((M t).epsK + (M t).epsKhypo) + ((M t).epsA + (M t).epsAhypo) := by
    simp only [M, ns3dStratMeans]; ring
  have hPK : (M t).PK.p1 = rateV S (v t) F := sum_inner3 S (v t) F
  have hPA : (M t).PA.p1 = (∑ k ∈ S, innerProd (b t k) (Fb k)) / N ^ 2 := by
    simp only [M, ns3dStratMeans]; ring
  rw [hT, hK, hA, hPK, hPA, rateV_add, rate_inner, rate_add]
  linear_combination hc

/-! ### plate2d -/

theorem plate_T2 {n : Fin 2 → ℕ} {δ : Fin 2 → ℝ} {S G : Finset (Fin 2 → ℤ)} {w z : Fld (Fin 2)}
    (j : Pt n) :
    mongeAmpere n δ S S (plate2d n δ S G w z).2 z j = mongeAmpere n δ S S w z j := by
  have h : ∀ c : (Fin 2 → ℤ) → ℂ, gridVal n S (fun k => -(plate2d n δ S G w z).2 k * c k) j
      = gridVal n S (fun k => -w k * c k) j := by
    intro c
    simp only [gridVal]
    refine sum_congr rfl fun k hk => ?_
    simp only [plate2d, if_pos hk]
  simp only [mongeAmpere]
  rw [h, h, h]

theorem plateEe (n : Fin 2 → ℕ) (δ : Fin 2 → ℝ) (S G : Finset (Fin 2 → ℤ))
    (fd fdHypo : (Fin 2 → ℤ) → ℝ) (dt : ℝ) (w z Fw : Fld (Fin 2)) :
    (plateMeans n δ S G fd fdHypo dt w z Fw).Ee
      = 1 / 4 * ∑ k ∈ G, ((δ 0 * k 0) ^ 2 + (δ 1 * k 1) ^ 2) ^ 2 * ‖chiFft n δ S z k‖ ^ 2 := by
  simp only [plateMeans, mul_sum]
  refine sum_congr rfl fun k _ => ?_
  rw [norm_mul, norm_mul, Complex.norm_real, Complex.norm_real, Real.norm_eq_abs, Real.norm_eq_abs,
    abs_of_nonneg (by positivity), abs_of_nonneg (by positivity)]
  norm_num

theorem plateEl (n : Fin 2 → ℕ) (δ : Fin 2 → ℝ) (S G : Finset (Fin 2 → ℤ))
    (fd fdHypo : (Fin 2 → ℤ) → ℝ) (dt : ℝ) (w z Fw : Fld (Fin 2)) :
    (plateMeans n δ S G fd fdHypo dt w z Fw).El
      = 1 / 2 * ∑ k ∈ S, ((δ 0 * k 0) ^ 2 + (δ 1 * k 1) ^ 2) ^ 2 * ‖z k‖ ^ 2 := by
  simp only [plateMeans, mul_sum]
  refine sum_congr rfl fun k _ => ?_
  rw [abs_of_nonneg (by positivity)]
  norm_num
  ring

/-- C59 (plate2d): the saved energy is the documented energy of the plate (C41), and its parts are
nonnegative. -/
theorem C59_plate_energies (n : Fin 2 → ℕ) (δ : Fin 2 → ℝ) (S G : Finset (Fin 2 → ℤ))
    (fd fdHypo : (Fin 2 → ℤ) → ℝ) (dt : ℝ) (w z Fw : Fld (Fin 2)) :
    let M := plateMeans n δ S G fd fdHypo dt w z Fw
    M.E = plateEnergy δ S G w z (chiFft n δ S z) ∧ M.E = M.Ek + M.El + M.Ee ∧
      M.Ek = 1 / 2 * ∑ k ∈ S, ‖w k‖ ^ 2 ∧ 0 ≤ M.Ek ∧ 0 ≤ M.El ∧ 0 ≤ M.Ee := by
  intro M
  have hk : M.Ek = 1 / 2 * ∑ k ∈ S, ‖w k‖ ^ 2 := by
    simp only [M, plateMeans, mul_sum]
    exact sum_congr rfl fun k _ => by norm_num
  have hE : M.E = M.Ek + M.El + M.Ee := rfl
  have hl := plateEl n δ S G fd fdHypo dt w z Fw
  have he := plateEe n δ S G fd fdHypo dt w z Fw
  refine ⟨?_, hE, hk, ?_, ?_, ?_⟩
  · rw [hE, hk]
    change _ + (plateMeans n δ S G fd fdHypo dt w z Fw).El
      + (plateMeans n δ S G fd fdHypo dt w z Fw).Ee = _
    rw [hl, he]; rfl
  · rw [hk]; positivity
  · change 0 ≤ (plateMeans n δ S G fd fdHypo dt w z Fw).El
    rw [hl]; positivity
  · change 0 ≤ (plateMeans n δ S G fd fdHypo dt w z Fw).Ee
    rw [he]; positivity

/-- C59 (plate2d): the energy given by the forcing of `w` in one time step. -/
theorem C59_plate_injection (n : Fin 2 → ℕ) (δ : Fin 2 → ℝ) (S G : Finset (Fin 2 → ℤ))
    (fd fdHypo : (Fin 2 → ℤ) → ℝ) (dt : ℝ) (w z Fw : Fld (Fin 2)) :
    let M := fun w => plateMeans n δ S G fd fdHypo dt w z Fw
    (M (kick dt w Fw)).E - (M w).E = dt * (M w).P.tot ∧ (M w).P.tot = (M w).P.p1 + (M w).P.p2 := by
  refine ⟨?_, rfl⟩
  simp only [plateMeans]
  rw [add_sub_add_right_eq_sub, add_sub_add_right_eq_sub, ← sum_sub_distrib, ← sum_add_distrib, mul_sum]
  refine sum_congr rfl fun k _ => ?_
  rw [kick, sq_kick]; ring

/-- C59 (plate2d): the conversions. Along the solutions, the rates of change of `E_l` and of `E_e` are
the saved `conv_k_to_l` and `conv_l_to_e`; and when the products are exact (C41), the rate of change of
`E` is `P1 - epsK_tot` and that of `E_k` is `P1 - epsK_tot - conv_k_to_l - conv_l_to_e`. -/
theorem C59_plate_budget {n : Fin 2 → ℕ} (hn : ∀ d, 0 < n d) {δ : Fin 2 → ℝ} (hδ : ∀ d, δ d ≠ 0)
    {S G : Finset (Fin 2 → ℤ)} (fd fdHypo : (Fin 2 → ℤ) → ℝ) (dt : ℝ) (w z : ℝ → Fld (Fin 2))
    (Fw : Fld (Fin 2)) (t : ℝ)
    (hw : Evolves S w (fun k => (plate2d n δ S G (w t) (z t)).1 k + Fw k) (fun k => fd k + fdHypo k) t)
    (hz : ∀ k ∈ S, HasDerivAt (fun s => z s k) ((plate2d n δ S G (w t) (z t)).2 k) t) :
    let M := fun s => plateMeans n δ S G fd fdHypo dt (w s) (z s) Fw
    HasDerivAt (fun s => (M s).El) (M t).convKL t ∧
      HasDerivAt (fun s => (M s).Ee) (M t).convLE t ∧
      ((∀ k ∈ G, -k ∈ G) → RealOn S (w t) → RealOn S (z t) →
        (∀ p ∈ S, ∀ q ∈ S, ∀ m ∈ G, (∀ d, (n d : ℤ) ∣ p d + q d + m d) → ∀ d, p d + q d + m d = 0) →
        HasDerivAt (fun s => (M s).Ek)
            ((M t).P.p1 - (M t).epsK.tot - (M t).convKL - (M t).convLE) t ∧
          HasDerivAt (fun s => (M s).E) ((M t).P.p1 - (M t).epsK.tot) t) := by
  intro M
  have hEl : (fun s => (M s).El)
      = fun s => 1 / 2 * ∑ k ∈ S, ((δ 0 * k 0) ^ 2 + (δ 1 * k 1) ^ 2) ^ 2 * ‖z s k‖ ^ 2 := by
    funext s; exact plateEl n δ S G fd fdHypo dt (w s) (z s) Fw
  have hEe : (fun s => (M s).Ee) = fun s => 1 / 4 * ∑ k ∈ G, ((δ 0 * k 0) ^ 2
      + (δ 1 * k 1) ^ 2) ^ 2 * ‖chiFft n δ S (z s) k‖ ^ 2 := by
    funext s; exact plateEe n δ S G fd fdHypo dt (w s) (z s) Fw
  have hKL : (M t).convKL
      = ∑ k ∈ S, k4 δ k * ((plate2d n δ S G (w t) (z t)).2 k * (starRingEnd ℂ) (z t k)).re := by
    simp only [M, plateMeans]
    refine sum_congr rfl fun k hk => ?_
    simp only [plate2d, if_pos hk, k4, mul_assoc, Complex.re_ofReal_mul]
  have hLE : (M t).convLE
      = ∑ k ∈ G, -(fftCoef n (mongeAmpere n δ S S (plate2d n δ S G (w t) (z t)).2 (z t)) k
        * (starRingEnd ℂ) (chiFft n δ S (z t) k)).re := by
    have : mongeAmpere n δ S S (plate2d n δ S G (w t) (z t)).2 (z t) = mongeAmpere n δ S S (w t) (z t) :=
      funext fun j => plate_T2 j
    rw [this]
    rfl
  -- the derivative of the two elastic energies is in the proof of C41
  have h2 : HasDerivAt (fun s => (M s).El) (M t).convKL t := by
    rw [hEl, hKL]
    refine ((HasDerivAt.fun_sum fun k hk => (sq_hasDeriv (hz k hk)).const_mul
      (((δ 0 * k 0) ^ 2 + (δ 1 * k 1) ^ 2) ^ 2)).const_mul (1 / 2)).congr_deriv ?_
    rw [mul_sum]
    refine sum_congr rfl fun k _ => ?_
    simp only [k4]; ring
  have h3 : HasDerivAt (fun s => (M s).Ee) (M t).convLE t := by
    rw [hEe, hLE]
    set w' := w t with hw'
    -- a free plate with the same velocity: only `z` matters
    let wf : ℝ → Fld (Fin 2) := fun s k => w t k + ((s - t : ℝ) : ℂ) * (plate2d n δ S G (w t) (z t)).1 k
    have hwft : wf t = w t := by funext k; simp [wf]
    have hwf : ∀ k ∈ S, HasDerivAt (fun s => wf s k) ((plate2d n δ S G (wf t) (z t)).1 k) t := by
      intro k _
      rw [hwft]
      have h0 : HasDerivAt (fun s : ℝ => ((s - t : ℝ) : ℂ)) 1 t := by
        have := (hasDerivAt_id t).sub_const t
        simpa using this.ofReal_comp
      have := (h0.mul_const ((plate2d n δ S G (w t) (z t)).1 k)).const_add (w t k)
      exact this.congr_deriv (one_mul _)
    have hzf : ∀ k ∈ S, HasDerivAt (fun s => z s k) ((plate2d n δ S G (wf t) (z t)).2 k) t := by
      rw [hwft]; exact hz
    have hall := C41_rate_of_energy n hδ S G wf z t hwf hzf
    have ha : HasDerivAt (fun s => 1 / 2 * ∑ k ∈ S, ‖wf s k‖ ^ 2)
        (∑ k ∈ S, ((plate2d n δ S G (wf t) (z t)).1 k * (starRingEnd ℂ) (wf t k)).re) t := by
      refine ((HasDerivAt.fun_sum fun k hk => sq_hasDeriv (hwf k hk)).const_mul (1 / 2)).congr_deriv ?_
      rw [← mul_sum]; ring
    have hb := h2
    rw [hEl, hKL] at hb
    have hsub := (hall.fun_sub ha).fun_sub hb
    rw [plateRate, hwft] at hsub
    have e : (fun s => plateEnergy δ S G (wf s) (z s) (chiFft n δ S (z s))
        - 1 / 2 * ∑ k ∈ S, ‖wf s k‖ ^ 2
        - 1 / 2 * ∑ k ∈ S, ((δ 0 * k 0) ^ 2 + (δ 1 * k 1) ^ 2) ^ 2 * ‖z s k‖ ^ 2)
        = fun s => 1 / 4 * ∑ k ∈ G, ((δ 0 * k 0) ^ 2 + (δ 1 * k 1) ^ 2) ^ 2
          * ‖chiFft n δ S (z s) k‖ ^ 2 := by
      funext s; rw [plateEnergy]; ring
    rw [e] at hsub
    refine hsub.congr_deriv ?_
    ring
  refine ⟨h2, h3, fun hG hwr hzr hSG => ?_⟩
  have hrate := C41_energy_partial hn δ hG hSG hwr hzr
  have h1 : HasDerivAt (fun s => (M s).Ek)
      ((M t).P.p1 - (M t).epsK.tot - (M t).convKL - (M t).convLE) t := by
    have e : (fun s => (M s).Ek) = fun s => ∑ k ∈ S, ‖w s k‖ ^ 2 / 2 := by
      funext s
      simp only [M, plateMeans]
      exact sum_congr rfl fun k _ => by norm_num; ring
    rw [e]
    refine (sumSq_deriv hw).congr_deriv ?_
    rw [rate_inner, rate_add]
    have hr : rate S (w t) (plate2d n δ S G (w t) (z t)).1 + (M t).convKL + (M t).convLE = 0 := by
      rw [hKL, hLE]; exact hrate
    have hP : (M t).P.p1 = ∑ k ∈ S, innerProd (w t k) (Fw k) := rfl
    have hd : (M t).epsK.tot = ∑ k ∈ S, (fd k + fdHypo k) * ‖w t k‖ ^ 2 := by
      have : (M t).epsK.tot = (diss S fd fdHypo fun k => 0.5 * ‖w t k‖ ^ 2).tot := rfl
      rw [this, diss_tot]
      exact sum_congr rfl fun k _ => by ring
    rw [hP, hd]
    have e2 : rate S (w t) (fun k => (plate2d n δ S G (w t) (z t)).1 k)
      = rate S (w t) (plate2d n δ S G (w t) (z t)).1 := rfl
    linear_combination hr
  refine ⟨h1, ?_⟩
  have e : (fun s => (M s).E) = fun s => (M s).Ek + (M s).El + (M s).Ee := rfl
  rw [e]
  refine ((h1.fun_add h2).fun_add h3).congr_deriv ?_
  ring

/-! ### the hypotheses are met -/

/-- A forced and damped flow of ns3d.strat. -/
example : TriadExact (fun _ => 4) exS ∧ RealVecOn exS exV ∧ RealOn exS (fun _ => 1) ∧
    ∃ (v : ℝ → (Fin 3 → ℤ) → V3) (b : ℝ → Fld (Fin 3)), v 0 = exV ∧ b 0 = (fun _ => 1) ∧
    (∀ k ∈ exS, projectState .none false (wave3 (fun _ => 1) k) ⟨v 0 k, some (b 0 k)⟩
      = ⟨v 0 k, some (b 0 k)⟩) ∧
    EvolvesV exS v (fun k => add
      (ns3dStrat (fun _ => 4) exS (fun _ => 1) (some 2) 3 .none false (v 0) (b 0) k).v ⟨1, 2, 3⟩)
      (fun _ => 3 + 1) 0 ∧
    Evolves exS b (fun k =>
      (ns3dStrat (fun _ => 4) exS (fun _ => 1) (some 2) 3 .none false (v 0) (b 0) k).b.getD 0 + 5)
      (fun _ => 3 + 1) 0 := by
  have hneg : ∀ k ∈ exS, -k ∈ exS := by decide
  refine ⟨(C37_truncation (fun _ => 4) exS (by decide)).1, exV_ok.1, fun k hk => ⟨hneg k hk, by simp⟩, ?_⟩
  set X := ns3dStrat (fun _ => 4) exS (fun _ => 1) (some 2) 3 .none false exV (fun _ => 1) with hX
  obtain ⟨v, h0, h⟩ := evolvesV_exists exS exV (fun k => add (X k).v ⟨1, 2, 3⟩) (fun _ => 3 + 1)
  set T : Fld (Fin 3) := fun k => (X k).b.getD 0 + 5 with hT
  have h1 : (fun k => (1 : ℂ) + ((0 : ℝ) : ℂ) * (T k - ((3 + 1 : ℝ) : ℂ) * 1)) = fun _ => 1 := by
    funext k; simp
  refine ⟨v, fun s k => 1 + s * (T k - ((3 + 1 : ℝ) : ℂ) * 1), h0, h1, ?_, ?_, ?_⟩
  · intro k hk; rw [h0]; exact exV_ok.2 _ k hk
  · simp only [h1]; rw [h0]; exact h
  · simp only [h1]; rw [h0]
    exact evolves_exists exS (fun _ => 1) T (fun _ => 3 + 1)

/-- A forced and damped plate on an 8 x 8 grid, with modes for which the products are exact. -/
example : (∀ k ∈ exS4, -k ∈ exS4) ∧ RealOn exS4 (fun _ => 1) ∧ RealOn exS4 (fun _ => 2) ∧
    (∀ p ∈ exS4, ∀ q ∈ exS4, ∀ m ∈ exS4, (∀ d, (((fun _ => 8) : Fin 2 → ℕ) d : ℤ) ∣ p d + q d + m d) →
      ∀ d, p d + q d + m d = 0) ∧
    ∃ w z : ℝ → Fld (Fin 2), w 0 = (fun _ => 1) ∧ z 0 = (fun _ => 2) ∧
      Evolves exS4 w (fun k => (plate2d (fun _ => 8) (fun _ => 1) exS4 exS4 (w 0) (z 0)).1 k + 5)
        (fun _ => 3 + 1) 0 ∧
      ∀ k ∈ exS4, HasDerivAt (fun s => z s k)
        ((plate2d (fun _ => 8) (fun _ => 1) exS4 exS4 (w 0) (z 0)).2 k) 0 := by
  have hneg : ∀ k ∈ exS4, -k ∈ exS4 := by decide
  refine ⟨hneg, fun k hk => ⟨hneg k hk, by simp⟩, fun k hk => ⟨hneg k hk, by simp [Complex.conj_ofNat]⟩,
    (C37_truncation (fun _ => 8) exS4 (by decide)).1, ?_⟩
  set X := plate2d (fun _ => 8) (fun _ => 1) exS4 exS4 (fun _ => 1) (fun _ => 2) with hX
  set T : Fld (Fin 2) := fun k => X.1 k + 5 with hT
  have h1 : (fun k => (1 : ℂ) + ((0 : ℝ) : ℂ) * (T k - ((3 + 1 : ℝ) : ℂ) * 1)) = fun _ => 1 := by
    funext k; simp
  have h2 : (fun k => (2 : ℂ) + ((0 : ℝ) : ℂ) * (X.2 k - ((0 : ℝ) : ℂ) * 2)) = fun _ => 2 := by
    funext k; simp
  refine ⟨fun s k => 1 + s * (T k - ((3 + 1 : ℝ) : ℂ) * 1),
    fun s k => 2 + s * (X.2 k - ((0 : ℝ) : ℂ) * 2), h1, h2, ?_, ?_⟩
  · simp only [h1, h2]
    exact evolves_exists exS4 (fun _ => 1) T (fun _ => 3 + 1)
  · simp only [h1, h2]
    intro k hk
    have := evolves_exists exS4 (fun _ => 2) X.2 (fun _ => 0) k hk
    simpa using this

end

end Verif.SpatialMeans
