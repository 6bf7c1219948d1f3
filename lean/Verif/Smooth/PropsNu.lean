import Verif.Smooth.Props
import Verif.ExactFlows.Lemmas
import Mathlib.Analysis.Calculus.Deriv.Abs

/-! # C112: dependence on the viscosities

`nu_2`, `nu_4`, `nu_8` not negative, without hypo-viscosity; with the initial fields, the forces and the time steps they can all depend on
the parameter. -/

set_option linter.unusedSectionVars false

namespace Verif.Smooth

open Verif.Fourier Verif.Vectors Verif.Energy Verif.Schemes Verif.EndToEnd Verif.Symmetry Finset

noncomputable section

variable {D V : Type*}

/-- Viscosities which depend smoothly on the parameter. -/
structure SmoothNu {E : Type} [NormedAddCommGroup E] [NormedSpace ℝ E] (r : ℕ) (nu : E → Dissip.Nu) : Prop where
  ok : ∀ p, Nu.Ok (nu p)
  nu2 : ContDiff ℝ r fun p => (nu p).nu2
  nu4 : ContDiff ℝ r fun p => (nu p).nu4
  nu8 : ContDiff ℝ r fun p => (nu p).nu8

/-- The fields after each step are smooth functions of the viscosities, the initial fields, the forces and the time steps. -/
def DependsSmoothlyNu (run : Dissip.Nu → Numerics D V → (ℕ → V → Fld D) → (V → Fld D) → ℕ → V → Fld D) : Prop :=
  ∀ (c : Numerics D V) (E : Type) [NormedAddCommGroup E] [NormedSpace ℝ E] (r : ℕ) (nu : E → Dissip.Nu) (dt : E → ℕ → ℝ)
    (F : E → ℕ → V → Fld D) (u0 : E → V → Fld D), SmoothNu r nu → SmoothSteps r c.cfl dt → (∀ m, SmoothFields r fun p => F p m) →
    SmoothFields r u0 → ∀ k, SmoothFields r fun p => run (nu p) { c with dt := dt p } (F p) (u0 p) k

theorem smooth_freq [Fintype D] {E : Type} [NormedAddCommGroup E] [NormedSpace ℝ E] {r : ℕ} {nu : E → Dissip.Nu} (h : SmoothNu r nu)
    (G : Finset (D → ℤ)) (δ : D → ℝ) : Sm r fun p => freqDiss (V := V) G δ (nu p) := by
  intro i
  simp only [freqDiss]
  refine cd_ofReal ?_
  have e : ∀ p, Dissip.fd (nu p) (waveSq δ i.2.1) = (nu p).nu2 * waveSq δ i.2.1 + (nu p).nu4 * waveSq δ i.2.1 ^ 2
      + (nu p).nu8 * waveSq δ i.2.1 ^ 4 := fun p => EndToEnd.fd_eq (h.ok p) _
  simp only [e]
  exact ((h.nu2.mul contDiff_const).add (h.nu4.mul contDiff_const)).add (h.nu8.mul contDiff_const)

theorem dependsNu [Fintype D] [DecidableEq (D → ℤ)] [Fintype V] {S G : Finset (D → ℤ)} (δ : D → ℝ) {project : Arr (V × G) → Arr (V × G)}
    (hproj : ∀ (E : Type) [NormedAddCommGroup E] [NormedSpace ℝ E] (r : ℕ) (x : E → Arr (V × G)), Sm r x → Sm r fun p => project (x p))
    {tend : (V → Fld D) → V → Fld D} (h : ∀ (r : ℕ) v k, ContDiff ℝ r fun a : Arr (V × G) => tend (fields G a) v k) :
    DependsSmoothlyNu fun nu => run S G δ nu project tend := by
  intro c E _ _ r nu dt F u0 hnu hdt hF h0 k v q
  simp only [run]
  exact smooth_fields (stepping_smooth hdt (fun m x hx => smooth_tendency (h r) (hF m) x hx) (hproj E r) (smooth_freq hnu G δ)
    (fun i => h0 i.1 i.2.1) k) v q

/-- ns2d. -/
theorem C112_viscosity_ns2d (n : Fin 2 → ℕ) (S G : Finset (Fin 2 → ℤ)) (δ : Fin 2 → ℝ) (beta : ℝ) :
    DependsSmoothlyNu fun nu => runNs2d n S G δ beta nu :=
  dependsNu δ (fun _ _ _ _ _ h => h) fun r => smooth_tend2d n S δ beta G r

/-- ns2d.strat. -/
theorem C112_viscosity_ns2d_strat (n : Fin 2 → ℕ) (S G : Finset (Fin 2 → ℤ)) (δ : Fin 2 → ℝ) (N : ℝ) :
    DependsSmoothlyNu fun nu => runStrat2d n S G δ N nu :=
  dependsNu δ (fun _ _ _ _ _ h => h) fun r => smooth_tendStrat n S δ N G r

/-- sw1l. -/
theorem C112_viscosity_sw1l (p : Sw1l.Par) (n : Fin 2 → ℕ) (S G : Finset (Fin 2 → ℤ)) : DependsSmoothlyNu fun nu => runSw1l p n S G nu :=
  dependsNu p.δ (fun _ _ _ _ _ h => h) fun r => smooth_sw1l p n S G r

/-- ns3d. -/
theorem C112_viscosity_ns3d (n : Fin 3 → ℕ) (S G : Finset (Fin 3 → ℤ)) (δ : Fin 3 → ℝ) (f : Option ℝ) (p : Projection) (noVzKz0 : Bool) :
    DependsSmoothlyNu fun nu => runNs3d n S G δ f p noVzKz0 nu :=
  dependsNu δ (project3d_smooth G δ p noVzKz0) fun r => smooth_tend3d n S δ f p noVzKz0 G r

/-- ns3d.strat. -/
theorem C112_viscosity_ns3d_strat (n : Fin 3 → ℕ) (S G : Finset (Fin 3 → ℤ)) (δ : Fin 3 → ℝ) (f : Option ℝ) (N : ℝ) (p : Projection)
    (noVzKz0 : Bool) : DependsSmoothlyNu fun nu => runStrat3d n S G δ f N p noVzKz0 nu := by
  refine dependsNu δ (project4_smooth G δ p noVzKz0) fun r v k => ?_
  simp only [tend4_noVz n S δ f N p noVzKz0]
  split
  · exact contDiff_const
  · exact smooth_tend4 n S δ f N p G r v k

/-- The viscosities `nu_2 = p²`, `nu_8 = 1 + p²`. -/
example (r : ℕ) : SmoothNu r fun p : ℝ => (⟨p ^ 2, 0, 1 + p ^ 2, 0⟩ : Dissip.Nu) :=
  ⟨fun p => ⟨sq_nonneg p, le_refl _, by positivity, rfl⟩, contDiff_id.pow 2, contDiff_const, contDiff_const.add (contDiff_id.pow 2)⟩

/-- Without the condition on the signs it is false: the negative viscosities are silently ignored (base/solvers/pseudo_spect.py 164-173), so
the damping of a mode, as a function of `nu_4`, is not differentiable at 0. -/
theorem C112_negative_viscosity_violated : ¬ Differentiable ℝ fun x : ℝ => Dissip.fd ⟨0, x, 0, 0⟩ 1 := by
  intro h
  have e : (fun x : ℝ => Dissip.fd ⟨0, x, 0, 0⟩ 1) = fun x => max x 0 := by
    funext x
    simp only [Dissip.fd]
    by_cases hx : 0 < x
    · simp [hx, hx.le]
    · simp [hx, not_lt.1 hx]
  rw [e] at h
  have h1 := (h 0)
  have e2 : (fun x : ℝ => |x|) = fun x => 2 * max x 0 - x := by
    funext x
    rcases le_total 0 x with hx | hx
    · rw [abs_of_nonneg hx, max_eq_left hx]; ring
    · rw [abs_of_nonpos hx, max_eq_right hx]; ring
  refine not_differentiableAt_abs_zero ?_
  show DifferentiableAt ℝ (fun x : ℝ => |x|) 0
  rw [e2]
  exact (h1.const_mul 2).sub differentiableAt_id

end

end Verif.Smooth
