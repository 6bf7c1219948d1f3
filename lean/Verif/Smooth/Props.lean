import Verif.Smooth.Lemmas
import Verif.Reality.Props
import Mathlib.Analysis.Calculus.ContDiff.Defs

/-! # C112: the results depend smoothly on the initial fields, the forces and the time steps

For each solver and all the schemes; the number of steps is any and so is the space of the parameters. With time steps chosen by the CFL
condition the dependence is not even continuous (`PropsCfl`). -/

set_option linter.unusedSectionVars false

namespace Verif.Smooth

open Verif.Fourier Verif.Vectors Verif.Energy Verif.Schemes Verif.EndToEnd Verif.Symmetry Finset

noncomputable section

/-- ns2d. -/
theorem C112_ns2d (n : Fin 2 → ℕ) (S G : Finset (Fin 2 → ℤ)) (δ : Fin 2 → ℝ) (beta : ℝ) (nu : Dissip.Nu) :
    DependsSmoothly (runNs2d n S G δ beta nu) :=
  depends δ nu (fun _ _ _ _ _ h => h) fun r => smooth_tend2d n S δ beta G r

/-- ns2d.strat. -/
theorem C112_ns2d_strat (n : Fin 2 → ℕ) (S G : Finset (Fin 2 → ℤ)) (δ : Fin 2 → ℝ) (N : ℝ) (nu : Dissip.Nu) :
    DependsSmoothly (runStrat2d n S G δ N nu) :=
  depends δ nu (fun _ _ _ _ _ h => h) fun r => smooth_tendStrat n S δ N G r

/-- ns2d.bouss. -/
theorem C112_ns2d_bouss {n : Fin 2 → ℕ} {S : Finset (Fin 2 → ℤ)} (hg : Reality.Grid n S) (G : Finset (Fin 2 → ℤ)) (δ : Fin 2 → ℝ)
    (nu : Dissip.Nu) : DependsSmoothly (run S G δ nu id (tendBouss n S δ)) := by
  rw [tendBouss_eq hg.pos hg.distinct]
  exact depends δ nu (fun _ _ _ _ _ h => h) fun r => smooth_tendStrat n S δ 0 G r

/-- sw1l. -/
theorem C112_sw1l (p : Sw1l.Par) (n : Fin 2 → ℕ) (S G : Finset (Fin 2 → ℤ)) (nu : Dissip.Nu) : DependsSmoothly (runSw1l p n S G nu) :=
  depends p.δ nu (fun _ _ _ _ _ h => h) fun r => smooth_sw1l p n S G r

/-- sw1l.modified. -/
theorem C112_sw1l_modified (p : Sw1l.Par) (n : Fin 2 → ℕ) (S G : Finset (Fin 2 → ℤ)) (nu : Dissip.Nu) :
    DependsSmoothly (runModified p n S G nu) :=
  depends p.δ nu (fun _ _ _ _ _ h => h) fun r => smooth_modified p n S G r

/-- sw1l.exactlin, with the complex frequencies of its normal modes. -/
theorem C112_sw1l_exactlin (p : Sw1l.Par) (n : Fin 2 → ℕ) (S G : Finset (Fin 2 → ℤ)) (nu : Dissip.Nu) :
    DependsSmoothly (runFreq S G (freqExactlin p nu) id (tendExactlin p n S)) :=
  dependsFreq _ (fun _ _ _ _ _ h => h) fun r => smooth_exactlin p n S G r

/-- plate2d; `H` are the modes of the array `chi_fft`. -/
theorem C112_plate2d (n : Fin 2 → ℕ) (S H G : Finset (Fin 2 → ℤ)) (δ : Fin 2 → ℝ) (nu : Dissip.Nu) :
    DependsSmoothly (runPlate n S H G δ nu) :=
  dependsFreq _ (fun _ _ _ _ _ h => h) fun r => smooth_plate n S H δ G r

/-- burgers1d. -/
theorem C112_burgers (nx : ℕ) (S G : Finset (Unit → ℤ)) (δ : ℝ) (nu : Dissip.Nu) :
    DependsSmoothly (run S G (fun _ => δ) nu id (tendBurgers false nx S δ)) :=
  depends _ nu (fun _ _ _ _ _ h => h) fun r => smooth_burgers nx S δ G r

/-- burgers1d.skew_sym, if the truncation removes the aliased modes. -/
theorem C112_burgers_skew {nx : ℕ} (hn : 1 < nx) {S : Finset (Unit → ℤ)} (h3 : ∀ k ∈ S, 3 * |k ()| < nx) (G : Finset (Unit → ℤ)) (δ : ℝ)
    (nu : Dissip.Nu) : DependsSmoothly (run S G (fun _ => δ) nu id (tendBurgers true nx S δ)) := by
  rw [tendBurgers_eq hn h3 δ]
  exact C112_burgers nx S G δ nu

/-- With a hypo-viscosity, for the solvers in two dimensions; here ns2d. -/
theorem C112_hypoviscosity (n : Fin 2 → ℕ) (S G : Finset (Fin 2 → ℤ)) (δ : Fin 2 → ℝ) (beta : ℝ) (nu : Dissip.Nu) (second : Fin 2 → ℤ) :
    DependsSmoothly (Invariants.runHypo S G δ nu second (tend2d n S δ beta)) := by
  intro c E _ _ r dt F u0 hdt hF h0 k v q
  simp only [Invariants.runHypo]
  exact smooth_fields (stepping_smooth (f := fun _ => Invariants.freqHypo G δ nu second) hdt (fun m x hx => smooth_tendency (fun v k => smooth_tend2d n S δ beta G r v k) (hF m) x hx)
    (fun _ h => h) (fun _ => contDiff_const) (fun i => h0 i.1 i.2.1) k) v q

/-- With a force which is proportional to the state on some modes (`ProportionalForcing`, base/forcing/specific.py, with a fixed
coefficient), or in general a linear one; here ns2d. -/
theorem C112_proportional (n : Fin 2 → ℕ) (S G : Finset (Fin 2 → ℤ)) (δ : Fin 2 → ℝ) (beta : ℝ) (nu : Dissip.Nu) (alpha : Fld (Fin 2)) :
    DependsSmoothly (run S G δ nu id fun u v k => tend2d n S δ beta u v k + alpha k * u v k) :=
  depends δ nu (fun _ _ _ _ _ h => h) fun r v k => (smooth_tend2d n S δ beta G r v k).add (contDiff_const.mul (cd_fields G r v k))

theorem project3d_smooth (G : Finset (Fin 3 → ℤ)) (δ : Fin 3 → ℝ) (p : Projection) (noVz : Bool) (E : Type) [NormedAddCommGroup E]
    [NormedSpace ℝ E] (r : ℕ) (x : E → Arr (Fin 3 × G)) (hx : Sm r x) : Sm r fun q => project3d G δ p noVz (x q) := by
  rintro ⟨v, k⟩
  obtain ⟨h0, h1, h2⟩ := cd_projV (v := fun q => vec (fields G (x q)) k.1) (smooth_fields hx 0 k.1) (smooth_fields hx 1 k.1)
    (smooth_fields hx 2 k.1) p noVz (wave3 δ k.1)
  fin_cases v <;> simp only [project3d, array, components, projectState_v]
  exacts [h0, h1, h2]

theorem project4_smooth (G : Finset (Fin 3 → ℤ)) (δ : Fin 3 → ℝ) (p : Projection) (noVz : Bool) (E : Type) [NormedAddCommGroup E]
    [NormedSpace ℝ E] (r : ℕ) (x : E → Arr (Fin 4 × G)) (hx : Sm r x) : Sm r fun q => project3dStrat G δ p noVz (x q) := by
  rintro ⟨v, k⟩
  obtain ⟨h0, h1, h2⟩ := cd_projV (v := fun q => (modeState (fields G (x q)) k.1).v) (smooth_fields hx 0 k.1) (smooth_fields hx 1 k.1)
    (smooth_fields hx 2 k.1) p noVz (wave3 δ k.1)
  have h3 : ContDiff ℝ r fun q => (projectState p noVz (wave3 δ k.1) (modeState (fields G (x q)) k.1)).b.getD 0 := by
    by_cases h : noVz = true ∧ |(wave3 δ k.1).z| = 0
    · simp only [projectState, modeState, h, and_self, if_true, Option.map_some, Option.getD_some]
      exact contDiff_const
    · simp only [projectState, modeState, h, if_false, Option.getD_some]
      exact smooth_fields hx 3 k.1
  fin_cases v
  · simpa only [project3dStrat, array, components4, modeState, projectState_v] using h0
  · simpa only [project3dStrat, array, components4, modeState, projectState_v] using h1
  · simpa only [project3dStrat, array, components4, modeState, projectState_v] using h2
  · exact h3

theorem tend4_noVz (n : Fin 3 → ℕ) (S : Finset (Fin 3 → ℤ)) (δ : Fin 3 → ℝ) (f : Option ℝ) (N : ℝ) (p : Projection) (noVz : Bool)
    (u : Fin 4 → Fld (Fin 3)) (v : Fin 4) (k : Fin 3 → ℤ) : tend3dStrat n S δ f N p noVz u v k
      = if (noVz = true ∧ (wave3 δ k).z = 0) ∧ (v = 2 ∨ v = 3) then 0 else tend3dStrat n S δ f N p false u v k := by
  by_cases h : noVz = true ∧ (wave3 δ k).z = 0
  · by_cases hk : k ∈ S <;> fin_cases v <;>
      simp [tend3dStrat, components4, ns3dStrat, hk, projectState, h]
  · by_cases hk : k ∈ S <;> fin_cases v <;>
      simp [tend3dStrat, components4, ns3dStrat, hk, projectState, h]

/-- ns3d, for all the projections. -/
theorem C112_ns3d (n : Fin 3 → ℕ) (S G : Finset (Fin 3 → ℤ)) (δ : Fin 3 → ℝ) (f : Option ℝ) (p : Projection) (noVzKz0 : Bool)
    (nu : Dissip.Nu) : DependsSmoothly (runNs3d n S G δ f p noVzKz0 nu) :=
  depends δ nu (project3d_smooth G δ p noVzKz0) fun r => smooth_tend3d n S δ f p noVzKz0 G r

/-- ns3d.strat, and ns3d.bouss for `N = 0`. -/
theorem C112_ns3d_strat (n : Fin 3 → ℕ) (S G : Finset (Fin 3 → ℤ)) (δ : Fin 3 → ℝ) (f : Option ℝ) (N : ℝ) (p : Projection) (noVzKz0 : Bool)
    (nu : Dissip.Nu) : DependsSmoothly (runStrat3d n S G δ f N p noVzKz0 nu) := by
  refine depends δ nu (project4_smooth G δ p noVzKz0) fun r v k => ?_
  simp only [tend4_noVz n S δ f N p noVzKz0]
  split
  · exact contDiff_const
  · exact smooth_tend4 n S δ f N p G r v k

/-! ### What a user sees -/

variable {D V : Type} [Fintype D] [DecidableEq D] [Fintype V]

/-- Continuity: to have the fields after `k` steps with a precision `ε` it is enough to know the initial fields with some precision. -/
theorem C112_continuity {G : Finset (D → ℤ)} {run : Numerics D V → (ℕ → V → Fld D) → (V → Fld D) → ℕ → V → Fld D}
    (h : DependsSmoothly run) {c : Numerics D V} (hdt : ∀ k, c.dt k ≠ 0) (hfix : c.cfl = false → ∀ k, c.dt k = c.dt 0)
    (F : ℕ → V → Fld D) {u0 : V → Fld D} (h0 : ∀ v, ∀ k ∉ G, u0 v k = 0) (k : ℕ) (v : V) (q : D → ℤ) {ε : ℝ} (hε : 0 < ε) :
    ∃ η > 0, ∀ u1 : V → Fld D, (∀ v, ∀ k ∉ G, u1 v k = 0) → (∀ v, ∀ k ∈ G, ‖u1 v k - u0 v k‖ < η) →
      ‖run c F u1 k v q - run c F u0 k v q‖ < ε := by
  have := (h c (Arr (V × G)) 0 (fun _ => c.dt) (fun _ => F) (fun a => fields G a) ⟨fun _ => hdt, fun e _ => hfix e, fun _ => contDiff_const⟩
    (fun _ _ _ => contDiff_const) (fun v k => by exact_mod_cast cd_fields G 0 v k) k v q).continuous
  obtain ⟨η, hη, key⟩ := Metric.continuous_iff.1 this (array G u0) ε hε
  refine ⟨η, hη, fun u1 h1 hd => ?_⟩
  have e : ∀ u : V → Fld D, (∀ v, ∀ k ∉ G, u v k = 0) → fields G (array G u) = u := fun u hu =>
    EndToEnd.fields_array (Subset.refl G) hu
  have := key (array G u1) ((dist_pi_lt_iff hη).2 fun i => by
    rw [dist_eq_norm]
    exact hd i.1 i.2.1 i.2.2)
  simp only [e u0 h0, e u1 h1, dist_eq_norm] at this
  exact this

/-- Sensitivities: the differences between a perturbed run and the run, divided by the size of the perturbation of the initial fields and
of the forces, have a limit. -/
theorem C112_sensitivity {run : Numerics D V → (ℕ → V → Fld D) → (V → Fld D) → ℕ → V → Fld D}
    (h : DependsSmoothly run) {c : Numerics D V} (hdt : ∀ k, c.dt k ≠ 0) (hfix : c.cfl = false → ∀ k, c.dt k = c.dt 0)
    (F F' : ℕ → V → Fld D) (u0 u' : V → Fld D) (k : ℕ) (v : V) (q : D → ℤ) : ∃ L : ℂ, Filter.Tendsto (fun ε : ℝ =>
      (run c (fun m v k => F m v k + ε * F' m v k) (fun v k => u0 v k + ε * u' v k) k v q - run c F u0 k v q) / ε)
      (nhdsWithin 0 {0}ᶜ) (nhds L) := by
  have hl : ∀ a b : ℂ, ContDiff ℝ (1 : ℕ) fun ε : ℝ => a + ε * b := fun a b =>
    contDiff_const.add ((cd_ofReal contDiff_id).mul contDiff_const)
  have key := h c ℝ 1 (fun _ => c.dt) (fun ε m v k => F m v k + ε * F' m v k) (fun ε v k => u0 v k + ε * u' v k)
    ⟨fun _ => hdt, fun e _ => hfix e, fun _ => contDiff_const⟩ (fun _ _ _ => hl _ _) (fun _ _ => hl _ _) k v q
  have hd := (key.differentiable (by simp) (0 : ℝ)).hasDerivAt
  refine ⟨_, (hasDerivAt_iff_tendsto_slope.1 hd).congr fun ε => ?_⟩
  simp only [slope, vsub_eq_sub, sub_zero, Complex.ofReal_zero, zero_mul, add_zero, Complex.real_smul, Complex.ofReal_inv]
  rw [div_eq_inv_mul]

end

end Verif.Smooth
