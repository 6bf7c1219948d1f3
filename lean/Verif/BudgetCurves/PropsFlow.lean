import Verif.BudgetCurves.Props
import Verif.SpatialMeans.Props
import Verif.EndToEnd.Props
import Mathlib.Topology.UniformSpace.HeineCantor

/-!
# C100: the curves for the solutions of the equations

The records are the spatial means (C59) of the solutions of the documented equations (C87).
-/

set_option linter.unusedSectionVars false

namespace Verif.BudgetCurves

open Verif.Fourier Verif.Energy Verif.Vectors Verif.Galerkin Verif.EndToEnd Verif.SpatialMeans Finset

noncomputable section

/-- The records of an energy, of its injection rate and of its dissipation rate at `n` times. -/
def record (E : ℝ → ℝ) (P : Option (ℝ → ℝ)) (eps : ℝ → ℝ) (n : ℕ) (t : ℕ → ℝ) : Means :=
  ⟨n, t, fun i => E (t i), P.map fun P i => P (t i), fun i => eps (t i)⟩

/-- At least two increasing times between `0` and `T`, not farther from each other than `η`. -/
structure Close (T η : ℝ) (n : ℕ) (t : ℕ → ℝ) : Prop where
  two : 2 ≤ n
  inc : ∀ i, i + 1 < n → t i < t (i + 1)
  near : ∀ i, i + 1 < n → t (i + 1) - t i ≤ η
  start : 0 ≤ t 0
  stop : t (n - 1) ≤ T

/-- The derivatives drawn for close records of `E` are close to the derivative `B`. -/
theorem gradient_near {E B : ℝ → ℝ} {T : ℝ} (hB : ContinuousOn B (Set.Icc 0 T)) (hE : ∀ t ∈ Set.Icc 0 T, HasDerivAt E (B t) t) {ε : ℝ}
    (hε : 0 < ε) : ∃ η, 0 < η ∧ ∀ P eps n t, Close T η n t → ∃ c c', plotDtEnergy (record E P eps n t) = .ok (c, c') ∧ c.n = n ∧ c'.n = n ∧
      c.x = t ∧ c'.x = t ∧ c'.y = (record E P eps n t).budget ∧ ∀ i < n, |c.y i - B (t i)| ≤ ε := by
  obtain ⟨η, hη, hu⟩ := Metric.uniformContinuousOn_iff_le.1 (isCompact_Icc.uniformContinuousOn_of_continuous hB) ε hε
  refine ⟨η, hη, fun P eps n t hc => ?_⟩
  set d := record E (some B) (fun _ => 0) n t with hd
  have hrec : Records E B d := ⟨hc.inc, fun _ _ => rfl, fun i _ => by simp [hd, record, Means.budget], fun s h1 h2 =>
    hE s ⟨hc.start.trans h1, h2.trans hc.stop⟩⟩
  have hmem : ∀ i < n, t i ∈ Set.Icc 0 T := fun i hi =>
    ⟨hc.start.trans (hrec.le (Nat.zero_le i) hi), (hrec.le (i := i) (j := n - 1) (by omega) (show n - 1 < n by omega)).trans hc.stop⟩
  have step : ∀ i, i + 1 < n → ∀ s, t i ≤ s → s ≤ t (i + 1) → |(E (t (i + 1)) - E (t i)) / (t (i + 1) - t i) - B s| ≤ ε := by
    intro i hi s h1 h2
    obtain ⟨r, hr1, hr2, e⟩ := hrec.slope (i := i) (j := i + 1) (by omega) hi
    have e : (E (t (i + 1)) - E (t i)) / (t (i + 1) - t i) = B r := e
    have hr1 : t i < r := hr1
    have hr2 : r < t (i + 1) := hr2
    rw [e, ← Real.dist_eq]
    have m1 := hmem i (by omega)
    have m2 := hmem (i + 1) hi
    refine hu r ⟨m1.1.trans hr1.le, hr2.le.trans m2.2⟩ s ⟨m1.1.trans h1, h2.trans m2.2⟩ ?_
    rw [Real.dist_eq, abs_le]
    have := hc.near i hi
    constructor <;> linarith
  have hn' : ¬n < 2 := by have := hc.two; omega
  refine ⟨_, _, by rw [plotDtEnergy, gradient, show (record E P eps n t).n = n from rfl, if_neg hn'], rfl, rfl, rfl, rfl, rfl, fun i hi => ?_⟩
  simp only [record]
  by_cases h0 : i = 0
  · subst h0
    simp only [if_true]
    exact step 0 (by omega) _ le_rfl (hc.inc 0 (by omega)).le
  simp only [h0, if_false]
  by_cases h1 : i = n - 1
  · subst h1
    simp only [if_true]
    have := step (n - 2) (by omega) (t (n - 1))
    have e : n - 2 + 1 = n - 1 := by omega
    rw [e] at this
    refine this ?_ le_rfl
    have := hc.inc (n - 2) (by omega)
    rw [e] at this
    exact this.le
  simp only [h1, if_false]
  have hi1 : i - 1 + 1 = i := by omega
  have p1 : 0 < t i - t (i - 1) := by
    have := hc.inc (i - 1) (by omega)
    rw [hi1] at this
    linarith
  have p2 : 0 < t (i + 1) - t i := by linarith [hc.inc i (by omega)]
  rw [gradient_interior p1 p2]
  have e1 := step (i - 1) (by omega) (t i) (by rw [← sub_nonneg]; exact p1.le) (by rw [hi1])
  rw [hi1] at e1
  have e2 := step i (by omega) (t i) le_rfl (hc.inc i (by omega)).le
  generalize t i - t (i - 1) = h1 at *
  generalize t (i + 1) - t i = h2 at *
  generalize (E (t i) - E (t (i - 1))) / h1 = q1 at *
  generalize (E (t (i + 1)) - E (t i)) / h2 = q2 at *
  have ps := add_pos p1 p2
  have e : (h2 * q1 + h1 * q2) / (h1 + h2) - B (t i) = (h2 * (q1 - B (t i)) + h1 * (q2 - B (t i))) / (h1 + h2) := by
    field_simp
    ring
  rw [e, abs_div, abs_of_pos ps, div_le_iff₀ ps]
  refine (abs_add_le _ _).trans ?_
  rw [abs_mul, abs_mul, abs_of_pos p1, abs_of_pos p2]
  nlinarith

/-! ### ns2d -/

/-- The frequency of the dissipation of `compute_freq_diss` for a mode. -/
def damping {D : Type*} [Fintype D] (δ : D → ℝ) (nu : Dissip.Nu) (k : D → ℤ) : ℝ := Dissip.fd nu (waveSq δ k)

variable {n : Fin 2 → ℕ} {S : Finset (Fin 2 → ℤ)} {δ : Fin 2 → ℝ} {beta : ℝ} {nu : Dissip.Nu} {F : Fld (Fin 2)} {T : ℝ} {rot : ℝ → Fld (Fin 2)}

/-- The means saved by ns2d at the time `s`. -/
def means2 (S : Finset (Fin 2 → ℤ)) (δ : Fin 2 → ℝ) (nu : Dissip.Nu) (dt : ℝ) (rot : ℝ → Fld (Fin 2)) (F : Fld (Fin 2)) (s : ℝ) : Means2d :=
  ns2dMeans S δ (damping δ nu) (fun _ => 0) dt (rot s) F

theorem flow2_evolves (hn : ∀ d, 0 < n d) (hS : NoAlias n S) (hδ : ∀ d, δ d ≠ 0) (hnu : Nu.Ok nu) (hf : Flow2 S δ beta nu F T rot) {t : ℝ}
    (ht : t ∈ Set.Icc 0 T) :
    SpectBudget.Evolves S rot (fun k => ns2d n S δ beta (rot t) k + F k) (fun k => damping δ nu k + 0) t := by
  intro k hk
  have hv := velocity2_ux2 (S := S) hδ (rot t)
  refine (hf.eq t ht _ _ hv k hk).congr_deriv ?_
  simp only [C57_ns2d hn hS hδ beta hv hk, dissipation, add_zero, damping, fd_eq hnu, waveSq]
  ring

theorem flow2_continuous (hn : ∀ d, 0 < n d) (hS : NoAlias n S) (hδ : ∀ d, δ d ≠ 0) (hnu : Nu.Ok nu) (hf : Flow2 S δ beta nu F T rot)
    {k : Fin 2 → ℤ} (hk : k ∈ S) : ContinuousOn (fun t => rot t k) (Set.Icc 0 T) := fun _ ht =>
  (flow2_evolves hn hS hδ hnu hf ht k hk).continuousAt.continuousWithinAt

theorem budget2_continuous (hn : ∀ d, 0 < n d) (hS : NoAlias n S) (hδ : ∀ d, δ d ≠ 0) (hnu : Nu.Ok nu) (hf : Flow2 S δ beta nu F T rot)
    (dt : ℝ) : ContinuousOn (fun s => (means2 S δ nu dt rot F s).PK.p1 - (means2 S δ nu dt rot F s).epsK.tot) (Set.Icc 0 T) ∧
      ContinuousOn (fun s => (means2 S δ nu dt rot F s).PZ.p1 - (means2 S δ nu dt rot F s).epsZ.tot) (Set.Icc 0 T) := by
  have hc := fun k hk => flow2_continuous hn hS hδ hnu hf (k := k) hk
  have hx : ∀ k ∈ S, ContinuousOn (fun t => ux2 δ (rot t) k) (Set.Icc 0 T) := fun k hk => by
    unfold ux2; have := hc k hk; fun_prop
  have hy : ∀ k ∈ S, ContinuousOn (fun t => uy2 δ (rot t) k) (Set.Icc 0 T) := fun k hk => by
    unfold uy2; have := hc k hk; fun_prop
  have hre : ∀ g : ℝ → ℂ, ContinuousOn g (Set.Icc 0 T) → ContinuousOn (fun s => (g s).re) (Set.Icc 0 T) := fun g hg =>
    Complex.continuous_re.comp_continuousOn hg
  have hcj : ∀ g : ℝ → ℂ, ContinuousOn g (Set.Icc 0 T) → ContinuousOn (fun s => (starRingEnd ℂ) (g s)) (Set.Icc 0 T) := fun g hg =>
    Complex.continuous_conj.comp_continuousOn hg
  constructor
  · simp only [means2, ns2dMeans, diss, energy2]
    refine ContinuousOn.sub (continuousOn_finset_sum _ fun k hk => ?_) (ContinuousOn.add (continuousOn_finset_sum _ fun k hk => ?_)
      (continuousOn_finset_sum _ fun k hk => ?_))
    · refine ContinuousOn.div_const (hre _ ?_) _
      have := hcj _ (hx k hk)
      have := hcj _ (hy k hk)
      have := hx k hk
      have := hy k hk
      fun_prop
    · have := hx k hk
      have := hy k hk
      fun_prop
    · have := hx k hk
      have := hy k hk
      fun_prop
  · simp only [means2, ns2dMeans, diss, enstrophy2, SpectBudget.innerProd]
    refine ContinuousOn.sub (continuousOn_finset_sum _ fun k hk => ?_) (ContinuousOn.add (continuousOn_finset_sum _ fun k hk => ?_)
      (continuousOn_finset_sum _ fun k hk => ?_))
    · refine hre _ ?_
      have := hcj _ (hc k hk)
      have := hc k hk
      fun_prop
    · have := hc k hk
      fun_prop
    · have := hc k hk
      fun_prop

/-- C100 (ns2d, with a forcing): for every solution of the equations with a constant force, the records of the energy can be made close
enough in time for the two curves of `plot_dt_energy` to differ by the second term of the injection rate, `dt/2 Σ |F|²`, with any
accuracy; the same for `plot_dt_enstrophy`. (The first term alone is the injection rate of a constant force; the sum of the two terms is
the one of a force which changes at each time step, `C59_ns2d_injection`.) -/
theorem C100_ns2d_forced (hn : ∀ d, 0 < n d) (hS : NoAlias n S) (hδ : ∀ d, δ d ≠ 0) (hnu : Nu.Ok nu) (hf : Flow2 S δ beta nu F T rot)
    (dt : ℝ) {ε : ℝ} (hε : 0 < ε) : let M := means2 S δ nu dt rot F
    (∃ η, 0 < η ∧ ∀ m t, Close T η m t → ∃ c c', plotDtEnergy (record (fun s => (M s).E) (some fun s => (M s).PK.tot) (fun s => (M s).epsK.tot) m t)
        = .ok (c, c') ∧ c.x = t ∧ c'.x = t ∧
        ∀ i < m, |c.y i - (c'.y i - ∑ k ∈ S, (‖ux2 δ F k‖ ^ 2 + ‖uy2 δ F k‖ ^ 2) * dt / 2)| ≤ ε) ∧
      ∃ η, 0 < η ∧ ∀ m t, Close T η m t → ∃ c c', plotDtEnstrophy (record (fun s => (M s).Z) (some fun s => (M s).PZ.tot) (fun s => (M s).epsZ.tot) m t)
        = .ok (c, c') ∧ c.x = t ∧ c'.x = t ∧ ∀ i < m, |c.y i - (c'.y i - dt / 2 * ∑ k ∈ S, ‖F k‖ ^ 2)| ≤ ε := by
  intro M
  have hb := budget2_continuous hn hS hδ hnu hf dt
  have hl := fun t ht => C59_ns2d_budget hn (SpectBudget.triad_of_noAlias hS (hf.real t ht).1) hS.distinct hδ beta (damping δ nu) (fun _ => 0) dt rot F t
    (hf.real t ht).1 (flow2_evolves hn hS hδ hnu hf ht)
  constructor
  · obtain ⟨η, hη, h⟩ := gradient_near hb.1 (fun t ht => (hl t ht).1) hε
    refine ⟨η, hη, fun m t hc => ?_⟩
    obtain ⟨c, c', e, -, -, ex, ex', ey, hy⟩ := h (some fun s => (M s).PK.tot) (fun s => (M s).epsK.tot) m t hc
    refine ⟨c, c', e, ex, ex', fun i hi => ?_⟩
    convert hy i hi using 2
    rw [ey]
    simp only [record, Means.budget, Option.map_some]
    simp only [M, means2, ns2dMeans]
    ring
  · obtain ⟨η, hη, h⟩ := gradient_near hb.2 (fun t ht => (hl t ht).2) hε
    refine ⟨η, hη, fun m t hc => ?_⟩
    obtain ⟨c, c', e, -, -, ex, ex', ey, hy⟩ := h (some fun s => (M s).PZ.tot) (fun s => (M s).epsZ.tot) m t hc
    refine ⟨c, c', (C100_enstrophy_partial rfl).trans e, ex, ex', fun i hi => ?_⟩
    convert hy i hi using 2
    rw [ey]
    simp only [record, Means.budget, Option.map_some]
    simp only [M, means2, ns2dMeans]
    ring

/-- C100 (ns2d, without forcing): for every solution of the equations, the two curves of `plot_dt_energy` are as close as wanted if the
records are close enough in time. -/
theorem C100_ns2d_unforced (hn : ∀ d, 0 < n d) (hS : NoAlias n S) (hδ : ∀ d, δ d ≠ 0) (hnu : Nu.Ok nu)
    (hf : Flow2 S δ beta nu (fun _ => 0) T rot) (dt : ℝ) {ε : ℝ} (hε : 0 < ε) : let M := means2 S δ nu dt rot fun _ => 0
    ∃ η, 0 < η ∧ ∀ m t, Close T η m t → ∃ c c', plotDtEnergy (record (fun s => (M s).E) none (fun s => (M s).epsK.tot) m t) = .ok (c, c') ∧
      c.x = t ∧ c'.x = t ∧ ∀ i < m, |c.y i - c'.y i| ≤ ε := by
  intro M
  have hb := budget2_continuous hn hS hδ hnu hf dt
  have hl := fun t ht => C59_ns2d_budget hn (SpectBudget.triad_of_noAlias hS (hf.real t ht).1) hS.distinct hδ beta (damping δ nu) (fun _ => 0) dt rot
    (fun _ => 0) t (hf.real t ht).1 (flow2_evolves hn hS hδ hnu hf ht)
  obtain ⟨η, hη, h⟩ := gradient_near hb.1 (fun t ht => (hl t ht).1) hε
  refine ⟨η, hη, fun m t hc => ?_⟩
  obtain ⟨c, c', e, -, -, ex, ex', ey, hy⟩ := h none (fun s => (M s).epsK.tot) m t hc
  refine ⟨c, c', e, ex, ex', fun i hi => ?_⟩
  convert hy i hi using 2
  rw [ey]
  simp only [record, Means.budget, Option.map_none]
  simp only [M, means2, ns2dMeans]
  have h0 : ∀ k, ux2 δ (fun _ => 0) k = 0 ∧ uy2 δ (fun _ => 0) k = 0 := fun k => by simp [ux2, uy2, Forcing.vecFromRot]
  simp [h0]

/-- A forced flow and eleven records. -/
example : ∃ rot : ℝ → Fld (Fin 2), rot 0 = (fun k => if k ∈ EndToEnd.box then 1 else 0) ∧
    Flow2 EndToEnd.box (fun _ => 1) 1 ⟨1, 0, 1, 0⟩ (fun k => if k ∈ EndToEnd.box then 1 else 0) 10 rot ∧ Close 10 1 11 fun i => i := by
  obtain ⟨rot, h0, h, -⟩ := C87_ns2d (n := fun _ => 4) (fun _ => by norm_num) box_noAlias (δ := fun _ => 1) (fun _ => one_ne_zero) 1
    (nu := ⟨1, 0, 1, 0⟩) ⟨by norm_num, by norm_num, by norm_num, rfl⟩ box_real box_real (T := 10) (by norm_num)
  exact ⟨rot, h0, h, by norm_num, fun i _ => by push_cast; linarith, fun i _ => by push_cast; linarith, by norm_num, by norm_num⟩

/-! ### ns3d -/

section ns3d

variable {n : Fin 3 → ℕ} {S : Finset (Fin 3 → ℤ)} {δ : Fin 3 → ℝ} {f : Option ℝ} {p : Projection} {noVz : Bool} {nu : Dissip.Nu}
  {F : Fin 3 → Fld (Fin 3)} {T : ℝ} {v : ℝ → Fin 3 → Fld (Fin 3)}

/-- The means saved by ns3d at the time `s`. -/
def means3 (S : Finset (Fin 3 → ℤ)) (δ : Fin 3 → ℝ) (nu : Dissip.Nu) (dt : ℝ) (v : ℝ → Fin 3 → Fld (Fin 3)) (F : Fin 3 → Fld (Fin 3)) (s : ℝ) :
    Means3d := ns3dMeans S δ nu.nu4 nu.nu8 (damping δ nu) (fun _ => 0) dt (vec (v s)) (vec F)

theorem flow3_evolves (hn : ∀ d, 0 < n d) (hS : NoAlias n S) (hnu : Nu.Ok nu) (hf : Flow3 S δ (f.getD 0) p noVz nu F T v) {t : ℝ}
    (ht : t ∈ Set.Icc 0 T) :
    SpectBudget.EvolvesV S (fun s => vec (v s)) (fun k => add (ns3d n S δ f p noVz (vec (v t)) k) (vec F k)) (fun k => damping δ nu k + 0) t := by
  have key : ∀ c, ∀ k ∈ S, HasDerivAt (fun s => v s c k)
      (components (ns3d n S δ f p noVz (vec (v t))) c k + F c k - ((damping δ nu k + 0 : ℝ) : ℂ) * v t c k) t := by
    intro c k hk
    refine (hf.eq t ht c k hk).congr_deriv ?_
    have e : ns3d n S δ f p noVz (vec (v t)) k = projV p noVz (wave3 δ k) (navierStokes S δ (f.getD 0) (vec (v t)) k) :=
      C57_ns3d hn hS δ f p noVz (vec (v t)) hk
    have e2 : components (ns3d n S δ f p noVz (vec (v t))) c k
        = components (fun k => projV p noVz (wave3 δ k) (navierStokes S δ (f.getD 0) (vec (v t)) k)) c k := by
      fin_cases c <;> simp only [components, e]
    rw [← e2]
    simp only [dissipation, add_zero, damping, fd_eq hnu, waveSq]
    ring
  exact ⟨fun k hk => key 0 k hk, fun k hk => key 1 k hk, fun k hk => key 2 k hk⟩

theorem budget3_continuous (hn : ∀ d, 0 < n d) (hS : NoAlias n S) (hnu : Nu.Ok nu) (hf : Flow3 S δ (f.getD 0) p noVz nu F T v) (dt : ℝ) :
    ContinuousOn (fun s => (means3 S δ nu dt v F s).PK.p1 - (means3 S δ nu dt v F s).epsK.tot) (Set.Icc 0 T) := by
  have hc : ∀ c, ∀ k ∈ S, ContinuousOn (fun t => v t c k) (Set.Icc 0 T) := fun c k hk t ht =>
    (hf.eq t ht c k hk).continuousAt.continuousWithinAt
  have hcj : ∀ g : ℝ → ℂ, ContinuousOn g (Set.Icc 0 T) → ContinuousOn (fun s => (starRingEnd ℂ) (g s)) (Set.Icc 0 T) := fun g hg =>
    Complex.continuous_conj.comp_continuousOn hg
  simp only [means3, ns3dMeans, diss, energy1, vec]
  refine ContinuousOn.sub (continuousOn_finset_sum _ fun k hk => ?_) (ContinuousOn.add (continuousOn_finset_sum _ fun k hk => ?_)
    (continuousOn_finset_sum _ fun k hk => ?_))
  · refine Complex.continuous_re.comp_continuousOn ?_
    have := hcj _ (hc 0 k hk)
    have := hcj _ (hc 1 k hk)
    have := hcj _ (hc 2 k hk)
    fun_prop
  · have := hc 0 k hk
    have := hc 1 k hk
    have := hc 2 k hk
    fun_prop
  · have := hc 0 k hk
    have := hc 1 k hk
    have := hc 2 k hk
    fun_prop

/-- C100 (ns3d): the same for `plot_dt_E` and the solutions of ns3d with a constant force (without force: `F = 0`, then the curves are
as close as wanted). -/
theorem C100_ns3d_forced (hn : ∀ d, 0 < n d) (hS : NoAlias n S) (hnu : Nu.Ok nu) (hf : Flow3 S δ (f.getD 0) p noVz nu F T v)
    (dt : ℝ) {ε : ℝ} (hε : 0 < ε) : let M := means3 S δ nu dt v F
    ∃ η, 0 < η ∧ ∀ m t, Close T η m t → ∃ c c', plotDtEnergy (record (fun s => (M s).E) (some fun s => (M s).PK.tot) (fun s => (M s).epsK.tot) m t)
      = .ok (c, c') ∧ c.x = t ∧ c'.x = t ∧
      ∀ i < m, |c.y i - (c'.y i - ∑ k ∈ S, (‖F 0 k‖ ^ 2 + ‖F 1 k‖ ^ 2 + ‖F 2 k‖ ^ 2) * dt / 2)| ≤ ε := by
  intro M
  have hl := fun t ht => C59_ns3d_budget n S δ f p noVz nu.nu4 nu.nu8 (damping δ nu) (fun _ => 0) dt (fun s => vec (v s)) (vec F) t
    ⟨((hf.adm t ht).1 0).1, ((hf.adm t ht).1 1).1, ((hf.adm t ht).1 2).1⟩
    (fun k hk => by
      have h1 : (projectState p noVz (wave3 δ k) ⟨vec (v t) k, none⟩).b = none := by
        simp only [projectState]
        split_ifs <;> rfl
      have h2 := (projectState_v p noVz (wave3 δ k) (vec (v t) k) none).trans ((hf.adm t ht).2 k hk)
      cases h : projectState p noVz (wave3 δ k) ⟨vec (v t) k, none⟩ with
      | mk a b =>
        rw [h] at h1 h2
        simp only at h1 h2
        rw [h1, h2])
    (flow3_evolves hn hS hnu hf ht)
  obtain ⟨η, hη, h⟩ := gradient_near (budget3_continuous hn hS hnu hf dt) (fun t ht => hl t ht) hε
  refine ⟨η, hη, fun m t hc => ?_⟩
  obtain ⟨c, c', e, -, -, ex, ex', ey, hy⟩ := h (some fun s => (M s).PK.tot) (fun s => (M s).epsK.tot) m t hc
  refine ⟨c, c', e, ex, ex', fun i hi => ?_⟩
  convert hy i hi using 2
  rw [ey]
  simp only [record, Means.budget, Option.map_some]
  simp only [M, means3, ns3dMeans, vec]
  ring

end ns3d

end

end Verif.BudgetCurves
