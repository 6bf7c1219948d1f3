import Verif.Smagorinsky.Model
import Verif.Smagorinsky.Spec
import Verif.Energy.Props

/-!
# C52: the Smagorinsky model
-/

namespace Verif.Smagorinsky

open Verif.Fourier Verif.Vectors Verif.Energy Finset

noncomputable section

variable (n : Fin 3 → ℕ) (S : Finset (Fin 3 → ℤ)) (δ : Fin 3 → ℝ)

/-! ### link with the documented term -/

theorem dv_grad (v : (Fin 3 → ℤ) → V3) (a b : Fin 3) (j : Pt n) :
    Doc.dv n S δ v a b j = grad n S δ a (fun k => Doc.comp v b k) j := by
  simp only [Doc.dv, grad, gridVal, Energy.deriv]

theorem stress_strain (v : (Fin 3 → ℤ) → V3) (j : Pt n) :
    let s := computeStressTensor n S δ v j
    let d := fun a b => Doc.strain n S δ v a b j
    d 0 0 = s.xx ∧ d 1 1 = s.yy ∧ d 2 2 = s.zz ∧ d 0 1 = s.yx ∧ d 1 0 = s.yx ∧ d 0 2 = s.zx ∧
      d 2 0 = s.zx ∧ d 1 2 = s.zy ∧ d 2 1 = s.zy := by
  have h0 : (fun k => Doc.comp v 0 k) = fun k => (v k).x := rfl
  have h1 : (fun k => Doc.comp v 1 k) = fun k => (v k).y := rfl
  have h2 : (fun k => Doc.comp v 2 k) = fun k => (v k).z := rfl
  simp only [Doc.strain, dv_grad, computeStressTensor, h0, h1, h2]
  refine ⟨?_, ?_, ?_, ?_, ?_, ?_, ?_, ?_, ?_⟩ <;> ring

theorem strain2_eq (v : (Fin 3 → ℤ) → V3) (j : Pt n) :
    let s := computeStressTensor n S δ v j
    Doc.strain2 n S δ v j = s.xx ^ 2 + s.yy ^ 2 + s.zz ^ 2 + 2 * (s.yx ^ 2 + s.zx ^ 2 + s.zy ^ 2) := by
  obtain ⟨h1, h2, h3, h4, h5, h6, h7, h8, h9⟩ := stress_strain n S δ v j
  simp only at h1 h2 h3 h4 h5 h6 h7 h8 h9
  simp only [Doc.strain2, Fin.sum_univ_three, h1, h2, h3, h4, h5, h6, h7, h8, h9]
  ring

theorem nuT_eq (C Lx : ℝ) (v : (Fin 3 → ℤ) → V3) (j : Pt n) :
    Doc.nuT n S δ C Lx v j = cNuT C Lx (n 0) * computeNorm (computeStressTensor n S δ v j) := by
  rw [Doc.nuT, strain2_eq, Real.sqrt_mul (by norm_num), cNuT, computeNorm]
  ring

/-- C52 (finding): for every flow, the term of the code is twice the documented one (the factor 2 of
`2 ν_T S` is applied to `nu_T_2` and again in `2j * (...)`). -/
theorem C52_twice_documented (C Lx : ℝ) (v : (Fin 3 → ℤ) → V3) (k : Fin 3 → ℤ) :
    getForcing n S δ C Lx v k =
      ⟨2 * Doc.term n S δ C Lx v 0 k, 2 * Doc.term n S δ C Lx v 1 k, 2 * Doc.term n S δ C Lx v 2 k⟩ := by
  have h : ∀ (a b : Fin 3) (c : Stress → ℝ),
      (∀ j, Doc.strain n S δ v a b j = c (computeStressTensor n S δ v j)) →
      fftCoef n (fun j => ((2 * Doc.nuT n S δ C Lx v j * Doc.strain n S δ v a b j : ℝ) : ℂ)) k
        = nuT2Fft n S δ C Lx v c k := by
    intro a b c hc
    simp only [nuT2Fft, nuT_eq, hc, ← mul_assoc]
  have st := fun j => stress_strain n S δ v j
  simp only at st
  simp only [Doc.term, Fin.sum_univ_three,
    h 0 0 Stress.xx fun j => (st j).1, h 1 1 Stress.yy fun j => (st j).2.1,
    h 2 2 Stress.zz fun j => (st j).2.2.1, h 0 1 Stress.yx fun j => (st j).2.2.2.1,
    h 1 0 Stress.yx fun j => (st j).2.2.2.2.1, h 0 2 Stress.zx fun j => (st j).2.2.2.2.2.1,
    h 2 0 Stress.zx fun j => (st j).2.2.2.2.2.2.1, h 1 2 Stress.zy fun j => (st j).2.2.2.2.2.2.2.1,
    h 2 1 Stress.zy fun j => (st j).2.2.2.2.2.2.2.2, getForcing, wave3]
  ext <;> simp only <;> ring

/-! ### energy -/

/-- Work of one of the terms `2j * K_d * fft(a)`. -/
theorem term_work {n : Fin 3 → ℕ} {S : Finset (Fin 3 → ℤ)} (δ : Fin 3 → ℝ) (d : Fin 3)
    (a : Pt n → ℝ) {u : Fld (Fin 3)} (h : RealOn S u) :
    ∑ k ∈ S, 2 * Complex.I * ((δ d * k d : ℝ) : ℂ) * fftCoef n (fun j => ((a j : ℝ) : ℂ)) k
        * (starRingEnd ℂ) (u k)
      = ((-2 * (∑ j, a j * grad n S δ d u j) / ∏ d, (n d : ℝ) : ℝ) : ℂ) := by
  have h1 : ∀ k, 2 * Complex.I * ((δ d * k d : ℝ) : ℂ) * fftCoef n (fun j => ((a j : ℝ) : ℂ)) k
        * (starRingEnd ℂ) (u k)
      = -2 * (fftCoef n (fun j => ((a j : ℝ) : ℂ)) k * (starRingEnd ℂ) (Energy.deriv δ d u k)) := by
    intro k
    simp only [Energy.deriv, map_mul, Complex.conj_I, Complex.conj_ofReal]
    ring
  simp only [h1]
  rw [← mul_sum, parseval_real _ _ (h.deriv δ d)]
  have h2 : ∀ j : Pt n, ((a j : ℝ) : ℂ) * gridVal n S (Energy.deriv δ d u) j
      = ((a j * grad n S δ d u j : ℝ) : ℂ) := by
    intro j
    rw [grad, Complex.ofReal_mul, Complex.conj_eq_iff_re.mp (real_grid (h.deriv δ d) j)]
  rw [gmean_congr _ h2, gmean]
  push_cast
  ring

/-- The work of the term of the code: minus twice the documented dissipation. -/
theorem forcing_work {n : Fin 3 → ℕ} {S : Finset (Fin 3 → ℤ)} (δ : Fin 3 → ℝ) (C Lx : ℝ)
    {v : (Fin 3 → ℤ) → V3} (hreal : RealVecOn S v) :
    ∑ k ∈ S, inner (getForcing n S δ C Lx v k) (v k)
      = ((-2 * Doc.dissipation n S δ C Lx v : ℝ) : ℂ) := by
  have key : ∀ k, inner (getForcing n S δ C Lx v k) (v k) =
      let t := nuT2Fft n S δ C Lx v
      let w := fun (d : Fin 3) (a : Fld (Fin 3)) (u : ℂ) =>
        2 * Complex.I * ((δ d * k d : ℝ) : ℂ) * a k * (starRingEnd ℂ) u
      (w 0 (t Stress.xx) (v k).x + w 1 (t Stress.yx) (v k).x + w 2 (t Stress.zx) (v k).x)
      + (w 0 (t Stress.yx) (v k).y + w 1 (t Stress.yy) (v k).y + w 2 (t Stress.zy) (v k).y)
      + (w 0 (t Stress.zx) (v k).z + w 1 (t Stress.zy) (v k).z + w 2 (t Stress.zz) (v k).z) := by
    intro k
    simp only [inner, getForcing, wave3]
    ring
  simp only [key, sum_add_distrib, nuT2Fft]
  simp only [term_work δ _ _ hreal.1, term_work δ _ _ hreal.2.1, term_work δ _ _ hreal.2.2]
  simp only [← Complex.ofReal_add]
  congr 1
  rw [Doc.dissipation]
  simp only [← mul_div_assoc, ← add_div]
  congr 1
  simp only [← mul_add, ← sum_add_distrib]
  congr 1
  refine sum_congr rfl fun j _ => ?_
  rw [strain2_eq, nuT_eq]
  simp only [computeStressTensor]
  generalize computeNorm _ = N
  generalize cNuT C Lx (n 0) = c
  ring

theorem strain2_nonneg (v : (Fin 3 → ℤ) → V3) (j : Pt n) : 0 ≤ Doc.strain2 n S δ v j :=
  sum_nonneg fun _ _ => sum_nonneg fun _ _ => sq_nonneg _

theorem dissipation_nonneg {C : ℝ} (hC : 0 ≤ C) (Lx : ℝ) (v : (Fin 3 → ℤ) → V3) :
    0 ≤ Doc.dissipation n S δ C Lx v := by
  refine div_nonneg (sum_nonneg fun j _ => ?_) (prod_nonneg fun _ _ => Nat.cast_nonneg _)
  have := strain2_nonneg n S δ v j
  have : 0 ≤ Doc.nuT n S δ C Lx v j := by unfold Doc.nuT; positivity
  positivity

/-- C52: whatever the grid, the truncation and the (real) velocity field, the term of the code never
gives energy to the flow; the energy it takes is twice the mean of the documented `2 ν_T S_ab S_ab`. -/
theorem C52_never_injects {n : Fin 3 → ℕ} {S : Finset (Fin 3 → ℤ)} (δ : Fin 3 → ℝ) {C : ℝ} (hC : 0 ≤ C)
    (Lx : ℝ) {v : (Fin 3 → ℤ) → V3} (hreal : RealVecOn S v) :
    rateV S v (getForcing n S δ C Lx v) = -2 * Doc.dissipation n S δ C Lx v ∧
      rateV S v (getForcing n S δ C Lx v) ≤ 0 := by
  have h : rateV S v (getForcing n S δ C Lx v) = -2 * Doc.dissipation n S δ C Lx v := by
    rw [rateV, ← Complex.re_sum, forcing_work δ C Lx hreal, Complex.ofReal_re]
  exact ⟨h, by have := dissipation_nonneg n S δ hC Lx v; rw [h]; linarith⟩

/-- C52: the solver ns3d extended with the model never increases the energy: projection and truncation of
the sum of the nonlinear and modelled terms do not change the work of the latter. -/
theorem C52_solver {n : Fin 3 → ℕ} {S : Finset (Fin 3 → ℤ)} (δ : Fin 3 → ℝ) {C : ℝ} (hC : 0 ≤ C)
    (Lx : ℝ) (f : Option ℝ) (p : Projection) (noVzKz0 : Bool) {v : (Fin 3 → ℤ) → V3}
    (hreal : RealVecOn S v)
    (hproj : ∀ k ∈ S, projectState p noVzKz0 (wave3 δ k) ⟨v k, none⟩ = ⟨v k, none⟩) :
    rateV S v (ns3dTurb n S δ C Lx f p noVzKz0 v) = -2 * Doc.dissipation n S δ C Lx v ∧
      rateV S v (ns3dTurb n S δ C Lx f p noVzKz0 v) ≤ 0 := by
  have h0 := C37_energy n S δ f p noVzKz0 v hreal hproj
  have h1 : rateV S v (ns3dTurb n S δ C Lx f p noVzKz0 v)
      = rateV S v (ns3d n S δ f p noVzKz0 v) + rateV S v (getForcing n S δ C Lx v) := by
    simp only [rateV, ← sum_add_distrib]
    refine sum_congr rfl fun k hk => ?_
    rw [ns3dTurb, ns3d, if_pos hk, if_pos hk, projectState_inner (hproj k hk),
      projectState_inner (hproj k hk), ← Complex.add_re]
    congr 1
    simp only [inner]
    ring
  obtain ⟨h2, h3⟩ := C52_never_injects (n := n) δ hC Lx hreal
  rw [h1, h0, zero_add]
  exact ⟨h2, h3⟩

/-- C52: the model exerts no mean force. -/
theorem C52_no_mean_force (C Lx : ℝ) (v : (Fin 3 → ℤ) → V3) :
    getForcing n S δ C Lx v 0 = ⟨0, 0, 0⟩ := by
  simp [getForcing, wave3]

/-- C52: the term does not depend on a uniform velocity (Galilean invariance). -/
theorem C52_galilean (C Lx : ℝ) (v w : (Fin 3 → ℤ) → V3) (h : ∀ k, k ≠ 0 → v k = w k)
    (k : Fin 3 → ℤ) : getForcing n S δ C Lx v k = getForcing n S δ C Lx w k := by
  have hg : ∀ (d : Fin 3) (a b : Fld (Fin 3)), (∀ k, k ≠ 0 → a k = b k) →
      grad n S δ d a = grad n S δ d b := by
    intro d a b hab
    have : Energy.deriv δ d a = Energy.deriv δ d b := by
      funext k
      by_cases hk : k = 0
      · subst hk; simp [Energy.deriv]
      · simp only [Energy.deriv, hab k hk]
    funext j
    rw [grad, grad, this]
  have hs : computeStressTensor n S δ v = computeStressTensor n S δ w := by
    funext j
    simp only [computeStressTensor]
    rw [hg 0 (fun k => (v k).x) (fun k => (w k).x) (fun k hk => by rw [h k hk]),
      hg 1 (fun k => (v k).x) (fun k => (w k).x) (fun k hk => by rw [h k hk]),
      hg 2 (fun k => (v k).x) (fun k => (w k).x) (fun k hk => by rw [h k hk]),
      hg 0 (fun k => (v k).y) (fun k => (w k).y) (fun k hk => by rw [h k hk]),
      hg 1 (fun k => (v k).y) (fun k => (w k).y) (fun k hk => by rw [h k hk]),
      hg 2 (fun k => (v k).y) (fun k => (w k).y) (fun k hk => by rw [h k hk]),
      hg 0 (fun k => (v k).z) (fun k => (w k).z) (fun k hk => by rw [h k hk]),
      hg 1 (fun k => (v k).z) (fun k => (w k).z) (fun k hk => by rw [h k hk]),
      hg 2 (fun k => (v k).z) (fun k => (w k).z) (fun k hk => by rw [h k hk])]
  simp only [getForcing, nuT2Fft, hs]

/-! ### the documented value is not obtained -/

/-- The modes of the example. -/
def exS : Finset (Fin 3 → ℤ) := {![0, 1, 0], ![0, -1, 0]}

/-- The shear flow `vx = -2 sin y`. -/
def exV : (Fin 3 → ℤ) → V3 := fun k => ⟨Complex.I * (k 1 : ℂ), 0, 0⟩

theorem exV_real : RealVecOn exS exV := by
  have hneg : ∀ k ∈ exS, -k ∈ exS := by decide
  refine ⟨fun k hk => ⟨hneg k hk, by simp [exV]⟩, fun k hk => ⟨hneg k hk, by simp [exV]⟩,
    fun k hk => ⟨hneg k hk, by simp [exV]⟩⟩

theorem ex_dissipation : 0 < Doc.dissipation (fun _ => 4) exS (fun _ => 1) 1 1 exV := by
  refine div_pos ?_ (by norm_num)
  refine sum_pos' (fun j _ => ?_) ⟨0, mem_univ _, ?_⟩
  · have := strain2_nonneg (fun _ => 4) exS (fun _ => 1) exV j
    have : 0 ≤ Doc.nuT (fun _ => 4) exS (fun _ => 1) 1 1 exV j := by unfold Doc.nuT; positivity
    positivity
  · have hs : 0 < Doc.strain2 (fun _ => 4) exS (fun _ => 1) exV 0 := by
      have h01 : Doc.strain (fun _ => 4) exS (fun _ => 1) exV 0 1 0 = -1 := by
        have hne : (![0, 1, 0] : Fin 3 → ℤ) ≠ ![0, -1, 0] := by decide
        have hc : ∀ k, chi (fun _ => 4) k (0 : Pt (fun _ : Fin 3 => 4)) = 1 := by
          intro k; simp [chi]
        simp only [Doc.strain, Doc.dv, exS, sum_pair hne, Doc.comp, exV, hc]
        simp
      refine sum_pos' (fun _ _ => sum_nonneg fun _ _ => sq_nonneg _) ⟨0, mem_univ _, ?_⟩
      refine sum_pos' (fun _ _ => sq_nonneg _) ⟨1, mem_univ _, ?_⟩
      rw [h01]; norm_num
    have : 0 < Doc.nuT (fun _ => 4) exS (fun _ => 1) 1 1 exV 0 := by
      unfold Doc.nuT; positivity
    positivity

/-- C52 (finding): the term is not the documented one. -/
theorem C52_documented_violated :
    ¬ ∀ (n : Fin 3 → ℕ) (S : Finset (Fin 3 → ℤ)) (δ : Fin 3 → ℝ) (C Lx : ℝ) (v : (Fin 3 → ℤ) → V3),
      RealVecOn S v → (∀ k ∈ S, kdot (wave3 δ k) (v k) = 0) → ∀ k ∈ S,
      getForcing n S δ C Lx v k =
        ⟨Doc.term n S δ C Lx v 0 k, Doc.term n S δ C Lx v 1 k, Doc.term n S δ C Lx v 2 k⟩ := by
  intro H
  have h := H (fun _ => 4) exS (fun _ => 1) 1 1 exV exV_real (by
    intro k hk
    have : k 0 = 0 := by revert k; decide
    simp [kdot, wave3, exV, this])
  have h0 : ∀ k ∈ exS, getForcing (fun _ => 4) exS (fun _ => 1) 1 1 exV k = ⟨0, 0, 0⟩ := by
    intro k hk
    have h1 := h k hk
    have h2 := C52_twice_documented (fun _ => 4) exS (fun _ => 1) 1 1 exV k
    rw [h2] at h1
    injection h1 with hx hy hz
    rw [h2]
    ext <;> simp only
    · linear_combination 2 * hx
    · linear_combination 2 * hy
    · linear_combination 2 * hz
  have h1 := (C52_never_injects (n := fun _ => 4) (fun _ => 1) (zero_le_one (α := ℝ)) 1 exV_real).1
  have h2 : rateV exS exV (getForcing (fun _ => 4) exS (fun _ => 1) 1 1 exV) = 0 := by
    rw [rateV]
    refine sum_eq_zero fun k hk => ?_
    rw [h0 k hk]; simp [inner]
  have := ex_dissipation
  linarith

/-- C52: a type of model which is not that of an extension is refused. -/
theorem C52_type {α : Type} (classes : List (String × α)) (type : String) :
    (selectModel classes type = .error "ValueError" ↔ ∀ c ∈ classes, c.1 ≠ type) ∧
      ∀ c, selectModel classes type = .ok c → (type, c) ∈ classes := by
  induction classes with
  | nil => simp [selectModel]
  | cons c l ih =>
    obtain ⟨t, c⟩ := c
    simp only [selectModel, List.lookup] at ih ⊢
    by_cases h : type = t
    · subst h
      simp
    · have : (type == t) = false := by simpa using h
      rw [this]
      simp only [List.mem_cons, forall_eq_or_imp]
      refine ⟨⟨fun h1 => ⟨fun e => h e.symm, ih.1.1 h1⟩, fun h1 => ih.1.2 h1.2⟩, fun c' h1 => ?_⟩
      exact Or.inr (ih.2 c' h1)

/-- The hypotheses are met by the shear flow `exV`, which is divergence free, dissipates, and is left
unchanged by the projection. -/
example : RealVecOn exS exV ∧ 0 < Doc.dissipation (fun _ => 4) exS (fun _ => 1) 1 1 exV ∧
    (∀ k ∈ exS, projectState .none false (wave3 (fun _ => 1) k) ⟨exV k, none⟩ = ⟨exV k, none⟩) := by
  refine ⟨exV_real, ex_dissipation, fun k hk => ?_⟩
  have : k 0 = 0 := by revert k; decide
  simp [projectState, projector, C28_divergence_free_unchanged, kdot, wave3, exV, this]

end

end Verif.Smagorinsky
