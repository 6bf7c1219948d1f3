import Verif.SpatialMeans.Props3dStrat
import Verif.SpatialMeans.PropsSw1l

/-! # C59: the two parts of the dissipation, the columns which are absent, the rotational energy -/

namespace Verif.SpatialMeans

open Verif.Fourier Verif.Energy Verif.Vectors Verif.SpectBudget Verif.Galerkin Finset

set_option linter.unusedSectionVars false

noncomputable section

/-- `a`, with the two frequencies of the dissipation, has for first column the total dissipation that there would be
without the second frequency, and for second column the one without the first. -/
def Parts {ι : Type} (a : (ι → ℝ) → (ι → ℝ) → Diss) : Prop :=
  ∀ f g, (a f g).eps = (a f fun _ => 0).tot ∧ (a f g).hypo = (a (fun _ => 0) g).tot ∧
    (a f g).tot = (a f g).eps + (a f g).hypo

theorem parts_diss {D : Type} (S : Finset (D → ℤ)) (e : (D → ℤ) → ℝ) : Parts fun f g => diss S f g e := by
  intro f g
  simp [diss]

/-- C59: in all the solvers the columns `eps..` and `eps.._hypo` are the dissipations by the two kinds of terms: what is
dissipated without the other one (the total is stated by the budgets). -/
theorem C59_dissipation_parts (n : Fin 2 → ℕ) (S G : Finset (Fin 2 → ℤ)) (δ : Fin 2 → ℝ) (N c2 dt : ℝ)
    (rot b Frot Fb w z Fw : Fld (Fin 2)) (s F : Sw) (S3 : Finset (Fin 3 → ℤ)) (δ3 : Fin 3 → ℝ) (nu4 nu8 : ℝ)
    (v F3 : (Fin 3 → ℤ) → V3) (b3 Fb3 : Fld (Fin 3)) :
    (Parts fun f g => (ns2dMeans S δ f g dt rot Frot).epsK) ∧ (Parts fun f g => (ns2dMeans S δ f g dt rot Frot).epsZ) ∧
    (Parts fun f g => (stratMeans S δ N f g dt rot b Frot Fb).epsK) ∧
    (Parts fun f g => (stratMeans S δ N f g dt rot b Frot Fb).epsA) ∧
    (Parts fun f g => (stratMeans S δ N f g dt rot b Frot Fb).epsZ) ∧
    (Parts fun f g => (ns3dMeans S3 δ3 nu4 nu8 f g dt v F3).epsK) ∧
    (Parts fun f g => (plateMeans n δ S G f g dt w z Fw).epsK) ∧
    (Parts fun f g => (mswMeans S δ c2 f g dt s F).epsK) ∧ (Parts fun f g => (mswMeans S δ c2 f g dt s F).epsA) ∧
    (Parts fun f g => (swMeans n S δ c2 f g dt s F).epsK) ∧ (Parts fun f g => (swMeans n S δ c2 f g dt s F).epsA) ∧
    ∀ f g, let M := fun f g => ns3dStratMeans S3 δ3 N f g dt v F3 b3 Fb3
      (M f g).epsK = (M f fun _ => 0).epsK ∧ (M (fun _ => 0) g).epsK = 0 ∧
      (M f g).epsA = (M f fun _ => 0).epsA ∧ (M (fun _ => 0) g).epsA = 0 ∧
      (M f g).epsKhypo = (M (fun _ => 0) g).epsKhypo ∧ (M f fun _ => 0).epsKhypo = 0 ∧
      (M f g).epsAhypo = (M (fun _ => 0) g).epsAhypo ∧ (M f fun _ => 0).epsAhypo = 0 ∧
      (M f g).epsTot = (M f g).epsK + (M f g).epsKhypo + (M f g).epsA + (M f g).epsAhypo := by
  refine ⟨parts_diss S _, parts_diss S _, parts_diss S _, parts_diss S _, parts_diss S _, parts_diss S3 _,
    parts_diss S _, parts_diss S _, parts_diss S _, ?_, parts_diss S _, ?_⟩
  · intro f g
    simp [swMeans, diss]
  · intro f g
    simp [ns3dStratMeans, diss]

/-- C59 (ns3d): the columns of `nu_4` and `nu_8` are in the file if and only if these viscosities are used. -/
theorem C59_ns3d_hyper_columns (S : Finset (Fin 3 → ℤ)) (δ : Fin 3 → ℝ) (nu4 nu8 : ℝ) (fd fdHypo : (Fin 3 → ℤ) → ℝ)
    (dt : ℝ) (v F : (Fin 3 → ℤ) → V3) :
    let M := ns3dMeans S δ nu4 nu8 fd fdHypo dt v F
    (M.epsK4.isSome ↔ 0 < nu4) ∧ (M.epsK8.isSome ↔ 0 < nu8) := by
  have h : ∀ nu K e, (hyper S nu K e).isSome ↔ 0 < nu := by
    intro nu K e
    simp only [hyper]
    split
    · simpa
    · rename_i hh; simpa using not_lt.mp hh
  exact ⟨h _ _ _, h _ _ _⟩

section rotational
variable {n : Fin 2 → ℕ} {S : Finset (Fin 2 → ℤ)} {δ : Fin 2 → ℝ}

theorem rotational_eq (hδ : ∀ d, δ d ≠ 0) {ax ay ur vr : Fld (Fin 2)}
    (h : Velocity2 S δ (fun k => pd δ 0 ay k - pd δ 1 ax k) ur vr) {k : Fin 2 → ℤ} (hk : k ∈ S) :
    rotational δ ax ay k = (ur k, vr k) := by
  obtain ⟨h1, h2⟩ := velocity_unique hδ h hk
  have : Forcing.rotFromVec (δ 0 * k 0) (δ 1 * k 1) (ax k) (ay k) = pd δ 0 ay k - pd δ 1 ax k := by
    simp only [Forcing.rotFromVec, pd]; ring
  rw [← h1, ← h2, rotational, this]
  rfl

theorem rotational_s (p q : ℝ) (x y : ℂ) :
    Forcing.vecFromRot p q (Forcing.rotFromVec p q x y)
      = (q * ((q * x - p * y) / Forcing.k2not0 p q), -p * ((q * x - p * y) / Forcing.k2not0 p q)) := by
  have hI := Complex.I_mul_I
  simp only [Forcing.vecFromRot, Forcing.rotFromVec]
  refine Prod.ext ?_ ?_
  · simp only [div_eq_mul_inv]
    linear_combination ((q : ℂ) * (p * y - q * x) * (Forcing.k2not0 p q : ℂ)⁻¹) * hI
  · simp only [div_eq_mul_inv]
    linear_combination (-(p : ℂ) * (p * y - q * x) * (Forcing.k2not0 p q : ℂ)⁻¹) * hI

theorem k2not0_cancel {p q : ℝ} (h : p ≠ 0 ∨ q ≠ 0) :
    (p : ℂ) ^ 2 + (q : ℂ) ^ 2 = Forcing.k2not0 p q ∧ (Forcing.k2not0 p q : ℂ) ≠ 0 := by
  have h0 : p ^ 2 + q ^ 2 ≠ 0 := by
    rcases h with h | h
    · have := sq_pos_of_ne_zero h; nlinarith [sq_nonneg q]
    · have := sq_pos_of_ne_zero h; nlinarith [sq_nonneg p]
  rw [Forcing.k2not0, if_neg h0]
  exact ⟨by push_cast; rfl, by exact_mod_cast h0⟩

/-- The rotational part of a flux and a rotational velocity. -/
theorem rotational_inner (Jx Jy a b : Fld (Fin 2)) (k : Fin 2 → ℤ) :
    (starRingEnd ℂ) (rotational δ Jx Jy k).1 * (rotational δ a b k).1
      + (starRingEnd ℂ) (rotational δ Jx Jy k).2 * (rotational δ a b k).2
    = (starRingEnd ℂ) (Jx k) * (rotational δ a b k).1 + (starRingEnd ℂ) (Jy k) * (rotational δ a b k).2 := by
  simp only [rotational, rotational_s]
  generalize δ 0 * (k 0 : ℝ) = p
  generalize δ 1 * (k 1 : ℝ) = q
  by_cases h : p ≠ 0 ∨ q ≠ 0
  · obtain ⟨e, h0⟩ := k2not0_cancel h
    simp only [map_mul, map_div₀, map_sub, map_neg, Complex.conj_ofReal]
    set m := (Forcing.k2not0 p q : ℂ)
    field_simp
    rw [← e]; ring
  · push Not at h
    simp [h.1, h.2]

/-- C59 (modified sw1l): `EKr` is the mean over the grid of `(ux_r² + uy_r²) / 2`, where `(ux_r, uy_r)` is the
divergence-free velocity which has the vorticity of the flow; it is at most `EK`. -/
theorem C59_msw_rotational (hn : ∀ d, 0 < n d) (hD : Distinct n S) (hδ : ∀ d, δ d ≠ 0) (c2 : ℝ)
    (fd fdHypo : (Fin 2 → ℤ) → ℝ) (dt : ℝ) (s F : Sw) {ur vr : Fld (Fin 2)} (hr : RealOn S ur) (hv : RealOn S vr)
    (h : Velocity2 S δ (fun k => pd δ 0 s.uy k - pd δ 1 s.ux k) ur vr) :
    let M := mswMeans S δ c2 fd fdHypo dt s F
    M.EKr = gridMean n (fun j => (phys n S ur j ^ 2 + phys n S vr j ^ 2) / 2) ∧ M.EKr ≤ M.EK := by
  intro M
  have e : M.EKr = ∑ k ∈ S, (‖ur k‖ ^ 2 / 2 + ‖vr k‖ ^ 2 / 2) := by
    simp only [M, mswMeans]
    exact sum_congr rfl fun k hk => by rw [rotational_eq hδ h hk]
  constructor
  · rw [e, gridMean_div, gridMean_add, ← sumSq_mean hn hD hr, ← sumSq_mean hn hD hv, ← sum_add_distrib, sum_div]
    exact sum_congr rfl fun k _ => by ring
  · rw [e]
    refine sum_le_sum fun k hk => ?_
    have e2 := rotational_eq hδ h hk
    rw [rotational, rotational_s] at e2
    have e3 := congrArg Prod.fst e2
    have e4 := congrArg Prod.snd e2
    simp only at e3 e4
    rw [← e3, ← e4]
    generalize δ 0 * (k 0 : ℝ) = p
    generalize δ 1 * (k 1 : ℝ) = q
    simp only [norm_mul, norm_neg, mul_pow]
    by_cases h : p ≠ 0 ∨ q ≠ 0
    · have hm0 : p ^ 2 + q ^ 2 ≠ 0 := by
        rcases h with h | h
        · have := sq_pos_of_ne_zero h; nlinarith [sq_nonneg q]
        · have := sq_pos_of_ne_zero h; nlinarith [sq_nonneg p]
      have hm : 0 < p ^ 2 + q ^ 2 := lt_of_le_of_ne (by positivity) (Ne.symm hm0)
      rw [Forcing.k2not0, if_neg hm0, norm_div, div_pow, Complex.norm_real, Complex.norm_real, Complex.norm_real,
        Real.norm_eq_abs, Real.norm_eq_abs, Real.norm_eq_abs, sq_abs, sq_abs, sq_abs]
      have key : ‖(q : ℂ) * s.ux k - p * s.uy k‖ ^ 2 ≤ (p ^ 2 + q ^ 2) * (‖s.ux k‖ ^ 2 + ‖s.uy k‖ ^ 2) := by
        simp only [← Complex.normSq_eq_norm_sq, Complex.normSq_apply, Complex.sub_re, Complex.sub_im, Complex.mul_re,
          Complex.mul_im, Complex.ofReal_re, Complex.ofReal_im]
        nlinarith [sq_nonneg (p * (s.ux k).re + q * (s.uy k).re), sq_nonneg (p * (s.ux k).im + q * (s.uy k).im)]
      have : q ^ 2 * (‖(q : ℂ) * s.ux k - p * s.uy k‖ ^ 2 / (p ^ 2 + q ^ 2) ^ 2) / 2
          + p ^ 2 * (‖(q : ℂ) * s.ux k - p * s.uy k‖ ^ 2 / (p ^ 2 + q ^ 2) ^ 2) / 2
          = ‖(q : ℂ) * s.ux k - p * s.uy k‖ ^ 2 / (p ^ 2 + q ^ 2) / 2 := by field_simp; ring
      rw [this]
      have k2 : ‖(q : ℂ) * s.ux k - p * s.uy k‖ ^ 2 / (p ^ 2 + q ^ 2) ≤ ‖s.ux k‖ ^ 2 + ‖s.uy k‖ ^ 2 := by
        rw [div_le_iff₀ hm]; linarith
      linarith
    · push Not at h
      simp [h.1, h.2]
      positivity

/-- C59 (sw1l): the saved `EKr` is the mean over the grid of `(1 + eta) (ux ux_r + uy uy_r) / 2`: the work of the flux
on the rotational velocity. Missing: it is not the kinetic energy of the rotational velocity, see
`C59_sw1l_rotational_violated`. -/
theorem C59_sw1l_rotational_partial (hδ : ∀ d, δ d ≠ 0) (c2 : ℝ) (fd fdHypo : (Fin 2 → ℤ) → ℝ) (dt : ℝ) {s : Sw}
    (F : Sw) (hs : RealSw S s) {ur vr : Fld (Fin 2)}
    (h : Velocity2 S δ (fun k => pd δ 0 s.uy k - pd δ 1 s.ux k) ur vr) :
    (swMeans n S δ c2 fd fdHypo dt s F).EKr
      = gridMean n fun j => (1 + phys n S s.eta j)
        * (phys n S s.ux j * phys n S ur j + phys n S s.uy j * phys n S vr j) / 2 := by
  have h1 := sum_inner_fft' n S (fun j => flux_real hs.2.2 hs.1 j) ur
  have h2 := sum_inner_fft' n S (fun j => flux_real hs.2.2 hs.2.1 j) vr
  have : (swMeans n S δ c2 fd fdHypo dt s F).EKr
      = (∑ k ∈ S, innerProd (fluxFft n S s.eta s.ux k) (ur k)
        + ∑ k ∈ S, innerProd (fluxFft n S s.eta s.uy k) (vr k)) / 2 := by
    rw [← sum_add_distrib, sum_div]
    simp only [swMeans, innerProd]
    refine sum_congr rfl fun k hk => ?_
    rw [rotational_inner, rotational_eq hδ h hk, Complex.add_re]
  rw [this]
  simp only [fluxFft]
  rw [h1, h2, ← gridMean_add, ← gridMean_div]
  exact gridMean_congr n fun j => by ring

/-! A shallow water flow with a negative `EKr`: a 4 x 4 grid, `ux = 8 cos x + cos y`, `uy = 0`,
`eta = -cos x cos y / 2`. -/

/-- The values of the cosine on the grid. -/
def c4 : Fin 4 → ℝ := ![1, 0, -1, 0]

def n4 : Fin 2 → ℕ := fun _ => 4

def S8 : Finset (Fin 2 → ℤ) :=
  {![1, 0], ![-1, 0], ![0, 1], ![0, -1], ![1, 1], ![-1, -1], ![1, -1], ![-1, 1]}

/-- Coefficients: `a` for `2 cos x`, `b` for `2 cos y`, `c` for `4 cos x cos y`. -/
def f8 (a b c : ℝ) : Fld (Fin 2) := fun k =>
  if k 1 = 0 then (a : ℂ) else if k 0 = 0 then (b : ℂ) else (c : ℂ)

theorem exp4 (z : ℂ) (i : Fin 4) (h : z = Real.pi / 2 * (i : ℕ) * Complex.I) :
    Complex.exp z + Complex.exp (-z) = ((2 * c4 i : ℝ) : ℂ) := by
  have e : Complex.exp z + Complex.exp (-z) = 2 * Complex.cos (Real.pi / 2 * (i : ℕ)) := by
    rw [Complex.cos, h]
    ring_nf
  have hc : Real.cos (Real.pi / 2 * (i : ℕ)) = c4 i := by
    fin_cases i
    · simp [c4]
    · simp [c4]
    · simp only [c4]
      rw [show Real.pi / 2 * ((2 : ℕ) : ℝ) = Real.pi by push_cast; ring]
      simp
    · simp only [c4]
      rw [show Real.pi / 2 * ((3 : ℕ) : ℝ) = Real.pi / 2 + Real.pi by push_cast; ring, Real.cos_add_pi]
      simp
  rw [e, ← hc]
  push_cast
  rfl

theorem phys_f8 (a b c : ℝ) (j : Pt n4) :
    phys n4 S8 (f8 a b c) j = 2 * a * c4 (j 0) + 2 * b * c4 (j 1) + 4 * c * c4 (j 0) * c4 (j 1) := by
  have h := fun (x y : ℤ) => show chi n4 ![x, y] j
      = Complex.exp (x * (Real.pi / 2 * ((j 0 : Fin 4) : ℕ) * Complex.I)
        + y * (Real.pi / 2 * ((j 1 : Fin 4) : ℕ) * Complex.I)) by
    simp only [chi, Fin.sum_univ_two, n4]
    congr 1
    simp
    ring
  have e0 := exp4 _ (j 0) rfl
  have e1 := exp4 _ (j 1) rfl
  set z := (Real.pi / 2 * ((j 0 : Fin 4) : ℕ) * Complex.I : ℂ)
  set w := (Real.pi / 2 * ((j 1 : Fin 4) : ℕ) * Complex.I : ℂ)
  have : gridVal n4 S8 (f8 a b c) j
      = ((2 * a * c4 (j 0) + 2 * b * c4 (j 1) + 4 * c * c4 (j 0) * c4 (j 1) : ℝ) : ℂ) := by
    simp only [gridVal, S8]
    rw [sum_insert (by decide), sum_insert (by decide), sum_insert (by decide), sum_insert (by decide),
      sum_insert (by decide), sum_insert (by decide), sum_insert (by decide), sum_singleton]
    simp only [h, f8]
    simp
    simp only [Complex.exp_add, Complex.exp_neg] at e0 e1 ⊢
    push_cast at e0 e1
    linear_combination (a + c * (Complex.exp w + (Complex.exp w)⁻¹)) * e0 + (b + 2 * c * c4 (j 0)) * e1
  rw [phys, this, Complex.ofReal_re]

theorem f8_real (a b c : ℝ) : RealOn S8 (f8 a b c) := by
  have hneg : ∀ k ∈ S8, -k ∈ S8 := by decide
  intro k hk
  refine ⟨hneg k hk, ?_⟩
  simp only [f8, Pi.neg_apply, neg_eq_zero]
  split
  · simp
  · split <;> simp

theorem sum_n4 (g : Fin 4 → Fin 4 → ℝ) : ∑ j : Pt n4, g (j 0) (j 1) = ∑ x, ∑ y, g x y := by
  rw [← Fintype.sum_prod_type']
  exact Fintype.sum_equiv (piFinTwoEquiv fun _ => Fin 4) _ _ fun _ => rfl

/-- C59 is violated by sw1l: `EKr`, the energy of the rotational part of the velocity, can be negative although the
depth `1 + eta` is positive everywhere. -/
theorem C59_sw1l_rotational_violated :
    ∃ (n : Fin 2 → ℕ) (S : Finset (Fin 2 → ℤ)) (s : Sw), (∀ d, 0 < n d) ∧ RealSw S s ∧
      (∀ j : Pt n, 0 < 1 + phys n S s.eta j) ∧
      ∀ c2 fd fdHypo dt F, (swMeans n S (fun _ => 1) c2 fd fdHypo dt s F).EKr < 0 := by
  refine ⟨n4, S8, ⟨f8 4 (1 / 2) 0, f8 0 0 0, f8 0 0 (-1 / 8)⟩, fun _ => by norm_num [n4],
    ⟨f8_real _ _ _, f8_real _ _ _, f8_real _ _ _⟩, ?_, ?_⟩
  · intro j
    rw [phys_f8]
    have hb : ∀ i, |c4 i| ≤ 1 := by intro i; fin_cases i <;> simp [c4]
    have := abs_le.mp (show |c4 (j 0) * c4 (j 1)| ≤ 1 by
      rw [abs_mul]; exact mul_le_one₀ (hb _) (abs_nonneg _) (hb _))
    nlinarith
  · intro c2 fd fdHypo dt F
    have hv : Velocity2 S8 (fun _ => 1) (fun k => pd (fun _ => 1) 0 (f8 0 0 0) k - pd (fun _ => 1) 1 (f8 4 (1 / 2) 0) k)
        (fun k => if k 1 = 0 then 0 else f8 0 (1 / 2) 0 k) (f8 0 0 0) := by
      refine ⟨?_, ?_, by simp [f8]⟩
      · intro k hk
        simp only [pd, f8]
        split
        · simp
        · split <;> simp_all
      · intro k hk h0
        simp only [pd, f8]
        split
        · simp_all
        · simp
    have := C59_sw1l_rotational_partial (n := n4) (S := S8) (δ := fun _ => 1) (fun _ => one_ne_zero) c2 fd fdHypo dt
      (s := ⟨f8 4 (1 / 2) 0, f8 0 0 0, f8 0 0 (-1 / 8)⟩) F ⟨f8_real _ _ _, f8_real _ _ _, f8_real _ _ _⟩ hv
    have hu : (fun k : Fin 2 → ℤ => if k 1 = 0 then 0 else f8 0 (1 / 2) 0 k) = f8 0 (1 / 2) 0 := by
      funext k; simp only [f8]; split <;> simp
    rw [this, hu]
    simp only [phys_f8, gridMean]
    refine div_neg_of_neg_of_pos ?_ (by norm_num [n4])
    rw [sum_n4 fun x y => (1 + (2 * 0 * c4 x + 2 * 0 * c4 y + 4 * (-1 / 8) * c4 x * c4 y))
      * ((2 * 4 * c4 x + 2 * (1 / 2) * c4 y + 4 * 0 * c4 x * c4 y)
        * (2 * 0 * c4 x + 2 * (1 / 2) * c4 y + 4 * 0 * c4 x * c4 y)
        + (2 * 0 * c4 x + 2 * 0 * c4 y + 4 * 0 * c4 x * c4 y)
        * (2 * 0 * c4 x + 2 * 0 * c4 y + 4 * 0 * c4 x * c4 y)) / 2]
    simp only [Fin.sum_univ_four, c4]
    simp
    norm_num

/-- The flow of the finding meets the hypotheses of the partial theorem; a flow of the modified solver with a
rotational part. -/
example : RealOn S8 (f8 0 (1 / 2) 0) ∧ Distinct n4 S8 ∧
    Velocity2 S8 (fun _ => 1) (fun k => pd (fun _ => 1) 0 (f8 0 0 0) k - pd (fun _ => 1) 1 (f8 0 (1 / 2) 0) k)
      (f8 0 (1 / 2) 0) (f8 0 0 0) := by
  refine ⟨f8_real _ _ _, (noAlias_of_small n4 S8 (by decide)).2, ?_, ?_, ?_⟩
  · intro k _
    simp only [pd, f8]
    split
    · simp
    · split <;> simp_all
  · intro k _ _
    simp only [pd, f8]
  · simp [f8]

end rotational

end

end Verif.SpatialMeans
