import Verif.Invariants.Props
import Verif.Dissip.Model
import Verif.Convergence.Spec

/-! # C101: the means with a hypo-viscosity, and examples -/

set_option linter.unusedSectionVars false

namespace Verif.Invariants

open Verif.Fourier Verif.Vectors Verif.Energy Verif.Galerkin Verif.Schemes Verif.EndToEnd Verif.Symmetry Finset

noncomputable section

variable {D V : Type}

/-- `freq_lin` with a hypo-viscosity (`_init_freq_lin`, fluidsim/base/time_stepping/pseudo_spect.py 179-189, with `compute_freq_diss`,
fluidsim/base/solvers/pseudo_spect.py 141-191): `second` is the mode of the index `[0, 1]` or `[0, 0, 1]`. -/
def freqHypo [Fintype D] [DecidableEq D] (G : Finset (D → ℤ)) (δ : D → ℝ) (nu : Dissip.Nu) (second : D → ℤ) : Arr (V × G) := fun i =>
  ((Dissip.fd nu (waveSq δ i.2.1) + Dissip.fdHypo nu (waveSq δ) (some 0) second i.2.1 : ℝ) : ℂ)

/-- `Symmetry.run` with a hypo-viscosity (same code). -/
def runHypo [Fintype D] [DecidableEq D] (S G : Finset (D → ℤ)) (δ : D → ℝ) (nu : Dissip.Nu) (second : D → ℤ)
    (tend : (V → Fld D) → V → Fld D) (c : Numerics D V) (F : ℕ → V → Fld D) (u0 : V → Fld D) (k : ℕ) : V → Fld D :=
  fields G ((stepping id c.sc (fun m => onArrays G (forced (F m) tend)) (freqHypo G δ nu second) (truncated G S) (fun m i => c.ps m i.2.1)
    (fun m i => c.pa m i.2.1) (fun m i => c.pb m i.2.1) (fun b i => c.heap b i.1 i.2.1) (fun i => c.g1 i.1 i.2.1) (fun i => c.g2 i.1 i.2.1)
    c.cfl (array G u0) c.dt k).heap .state)

/-- Without hypo-viscosity it is `run`. -/
theorem C101_runHypo_zero [Fintype D] [DecidableEq D] (S G : Finset (D → ℤ)) (δ : D → ℝ) {nu : Dissip.Nu} (hnu : nu.num4 = 0) (second : D → ℤ)
    (tend : (V → Fld D) → V → Fld D) (c : Numerics D V) (F : ℕ → V → Fld D) (u0 : V → Fld D) (k : ℕ) :
    runHypo S G δ nu second tend c F u0 k = run S G δ nu id tend c F u0 k := by
  have : freqHypo (V := V) G δ nu second = freqDiss G δ nu := by
    funext i
    simp [freqHypo, freqDiss, Dissip.fdHypo, hnu]
  simp only [runHypo, run, this]

theorem hypo_mean [Fintype D] [DecidableEq D] {n : D → ℕ} (hn : ∀ d, 0 < n d) {S G : Finset (D → ℤ)} (hS : Distinct n S) (h0 : (0 : D → ℤ) ∈ S)
    (hG : S ⊆ G) (δ : D → ℝ) {nu : Dissip.Nu} (hnu : nu.num4 ≠ 0) {second : D → ℤ} (h2 : second ≠ 0) {tend : (V → Fld D) → V → Fld D}
    {c : Numerics D V} (hc : Proper c) {v : V} (ht : ∀ u, tend u v 0 = 0) (u0 : V → Fld D) (k : ℕ) :
    meanValue n S (runHypo S G δ nu second tend c (fun _ _ _ => 0) u0 k v)
      = meanValue n S (u0 v) * Real.exp (-(Convergence.elapsed c.dt k * (nu.num4 / waveSq δ second ^ 2))) := by
  simp only [meanValue_eq hn hS h0]
  have := stepping_decay (sc := c.sc) (heap := fun b i => c.heap b i.1 i.2.1) (g1 := fun i => c.g1 i.1 i.2.1) (g2 := fun i => c.g2 i.1 i.2.1)
    (kept_all id (fun m => onArrays G (forced ((fun (_ : ℕ) (_ : V) (_ : D → ℤ) => (0 : ℂ)) m) tend)) (freqHypo G δ nu second) (truncated G S)
      (fun m i => c.ps m i.2.1) (fun m i => c.pa m i.2.1) fun m i => c.pb m i.2.1)
    (u0 := array G u0) trivial hc.dt hc.fix (i := (v, ⟨0, hG h0⟩)) (fun m x _ => by simp [onArrays, array, forced, ht])
    (by simp [truncated, h0]) (fun _ _ => rfl) k
  have e : freqHypo (V := V) G δ nu second (v, ⟨0, hG h0⟩) = ((nu.num4 / waveSq δ second ^ 2 : ℝ) : ℂ) := by
    simp only [freqHypo, fd_mean, zero_add]
    simp [Dissip.fdHypo, hnu, Dissip.k2not0, Ne.symm h2]
  rw [e] at this
  simp only [runHypo, fields, hG h0, dif_pos]
  rw [this, Complex.ofReal_exp]
  simp only [array, Convergence.elapsed]
  push_cast
  ring_nf

/-- C101, finding: with `params.nu_m4` the mean is not conserved, because `compute_freq_diss` gives to the mean the frequency of the mode of
the index `[0, 1]`. In sw1l, without force, the mass is not conserved: the mean of `η` is multiplied by `exp(-nu_m4 t / k⁴)`, with `k` the
wavenumber of this mode. -/
theorem C101_mass_hypo_sw1l_violated {n : Fin 2 → ℕ} (hn : ∀ d, 0 < n d) {S G : Finset (Fin 2 → ℤ)} (hS : Distinct n S)
    (h0 : (0 : Fin 2 → ℤ) ∈ S) (hG : S ⊆ G) (p : Sw1l.Par) (hδ : ∀ d, p.δ d ≠ 0) {nu : Dissip.Nu} (hnu : 0 < nu.num4)
    {second : Fin 2 → ℤ} (h2 : second ≠ 0) {c : Numerics (Fin 2) (Fin 3)} (hc : Proper c) (hdt : ∀ k, 0 < c.dt k) (u0 : Fin 3 → Fld (Fin 2)) :
    let mass := fun k => meanValue n S (runHypo S G p.δ nu second (tendSw1l p n S) c (fun _ _ _ => 0) u0 k 2)
    (∀ k, mass k = mass 0 * Real.exp (-(Convergence.elapsed c.dt k * (nu.num4 / waveSq p.δ second ^ 2)))) ∧
      (mass 0 ≠ 0 → ∀ k, 0 < k → mass k ≠ mass 0) := by
  intro mass
  have h : ∀ k, mass k = meanValue n S (u0 2) * Real.exp (-(Convergence.elapsed c.dt k * (nu.num4 / waveSq p.δ second ^ 2))) := fun k =>
    hypo_mean hn hS h0 hG p.δ hnu.ne' h2 hc
      (fun u => by simp [tendSw1l, ofUEta, Sw1l.sw1l, Sw1l.trunc, h0, Sw1l.divOf, Sw1l.Par.kx, Sw1l.Par.ky]) u0 k
  have e0 : mass 0 = meanValue n S (u0 2) := by rw [h 0]; simp [Convergence.elapsed]
  refine ⟨fun k => by rw [h k, e0], fun hm k hk he => ?_⟩
  rw [h k, e0] at he
  rw [e0] at hm
  have h1 : (Real.exp (-(Convergence.elapsed c.dt k * (nu.num4 / waveSq p.δ second ^ 2))) : ℂ) = 1 := by
    have : meanValue n S (u0 2) * Real.exp (-(Convergence.elapsed c.dt k * (nu.num4 / waveSq p.δ second ^ 2)))
      = meanValue n S (u0 2) * 1 := by rw [he, mul_one]
    exact mul_left_cancel₀ hm this
  have h1' : Real.exp (-(Convergence.elapsed c.dt k * (nu.num4 / waveSq p.δ second ^ 2))) = 1 := by exact_mod_cast h1
  rw [Real.exp_eq_one_iff, neg_eq_zero] at h1'
  have hw : 0 < waveSq p.δ second := by
    obtain ⟨d, hd⟩ := Function.ne_iff.1 h2
    refine lt_of_lt_of_le ?_ (single_le_sum (f := fun d => (p.δ d * second d) ^ 2) (fun d _ => sq_nonneg _) (mem_univ d))
    have : p.δ d * second d ≠ 0 := mul_ne_zero (hδ d) (by exact_mod_cast hd)
    positivity
  have ht : 0 < Convergence.elapsed c.dt k := sum_pos (fun j _ => hdt j) ⟨0, mem_range.2 hk⟩
  have : 0 < Convergence.elapsed c.dt k * (nu.num4 / waveSq p.δ second ^ 2) := by positivity
  exact this.ne' h1'

/-- Parameters which meet the hypotheses: RK4 with the time step 1/10, and the modes 0 and ±1 in each direction. -/
example (D V : Type) : Proper (⟨.RK4, fun _ _ => 1, fun _ _ => 1, fun _ _ => 1, fun _ _ _ => 7, fun _ _ => 0, fun _ _ => 0, false, fun _ => 1 / 10⟩
    : Numerics D V) :=
  ⟨fun _ => by norm_num, fun _ _ => rfl, fun _ => rfl, fun _ => rfl, fun _ => rfl⟩

/-- Modes which meet the hypotheses, with the mean, on a grid of 4 points per direction; a flow without divergence, `vx = 3 + 2 cos y`; and
a force with a mean. -/
example : let S : Finset (Fin 3 → ℤ) := {0, ![0, 1, 0], ![0, -1, 0]}
    NoAlias (fun _ => 4) S ∧ (0 : Fin 3 → ℤ) ∈ S ∧
      DivFree S (fun _ => 1) (fun k => if k = 0 then 3 else if k = ![0, 1, 0] ∨ k = ![0, -1, 0] then 1 else 0) (fun _ => 0) (fun _ => 0) ∧
      DivFree S (fun _ => 1) (fun k => if k = 0 then 2 else 0) (fun _ => 0) (fun _ => 0) := by
  refine ⟨noAlias_of_small _ _ fun k hk d => ?_, by simp, fun k hk => ?_, fun k hk => ?_⟩
  · simp only [mem_insert, mem_singleton] at hk
    rcases hk with rfl | rfl | rfl <;> fin_cases d <;> simp
  · simp only [mem_insert, mem_singleton] at hk
    rcases hk with rfl | rfl | rfl <;> simp [pd]
  · simp only [mem_insert, mem_singleton] at hk
    rcases hk with rfl | rfl | rfl <;> simp [pd]

end

end Verif.Invariants
