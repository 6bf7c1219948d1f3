import Verif.Dissip.Model
import Verif.Schemes.Props
import Mathlib.Algebra.Order.BigOperators.Ring.Finset
import Mathlib.Tactic.Linarith
import Mathlib.Tactic.Positivity
import Mathlib.Tactic.GCongr

/-! # C44: dissipation frequencies -/

namespace Verif.Dissip

noncomputable section

/-- The viscosities are not negative. -/
def Nu.Nonneg (nu : Nu) : Prop := 0 ≤ nu.nu2 ∧ 0 ≤ nu.nu4 ∧ 0 ≤ nu.nu8 ∧ 0 ≤ nu.num4

/-- C44: the frequency is the documented polynomial of the modulus `k` of the wavenumber. -/
theorem C44_value {nu : Nu} (h : nu.Nonneg) (k : ℝ) :
    fd nu (k ^ 2) = nu.nu2 * k ^ 2 + nu.nu4 * k ^ 4 + nu.nu8 * k ^ 8 := by
  obtain ⟨h2, h4, h8, _⟩ := h
  have key : ∀ a b c : ℝ, 0 ≤ a → (if a > 0 then c + a * b else c) = c + a * b := by
    intro a b c ha
    split
    · rfl
    · have : a = 0 := le_antisymm (by linarith) ha
      rw [this]; ring
  have e2 : (if nu.nu2 > 0 then nu.nu2 * k ^ 2 else 0) = nu.nu2 * k ^ 2 := by
    have := key nu.nu2 (k ^ 2) 0 h2
    simpa using this
  simp only [fd, e2, key _ _ _ h4, key _ _ _ h8]
  ring

/-- C44: the damping at small scales is not negative, is larger for larger wavenumbers and does not act on
the mean. -/
theorem C44_small_scales {nu : Nu} (h : nu.Nonneg) {k k' : ℝ} (hk : 0 ≤ k) (hkk : k ≤ k') :
    0 ≤ fd nu (k ^ 2) ∧ fd nu (k ^ 2) ≤ fd nu (k' ^ 2) ∧ fd nu 0 = 0 := by
  have h0 : fd nu 0 = 0 := by
    have := C44_value h 0
    simpa using this
  refine ⟨?_, ?_, h0⟩
  · rw [C44_value h]
    obtain ⟨h2, h4, h8, _⟩ := h
    positivity
  · rw [C44_value h, C44_value h]
    obtain ⟨h2, h4, h8, _⟩ := h
    gcongr

/-- The hypotheses on the local array of squared wavenumbers: the null mode, if there, is the only one which
vanishes and is not the entry used to replace it. -/
structure Grid {ι : Type} (k2 : ι → ℝ) (origin : Option ι) (second : ι) : Prop where
  pos : ∀ i, origin ≠ some i → 0 < k2 i
  second_ne : origin ≠ some second

variable {ι : Type} [DecidableEq ι]

/-- C44: with hypo-viscosity, the frequency at large scale is `nu_m4 / k⁴` for each mode except for the
mean, which is damped like the mode next to it; it is never negative, and it vanishes without
hypo-viscosity. -/
theorem C44_hypo {nu : Nu} (h : nu.Nonneg) {k2 : ι → ℝ} {origin : Option ι} {second : ι}
    (hg : Grid k2 origin second) :
    (∀ i, origin ≠ some i → fdHypo nu k2 origin second i = nu.num4 / k2 i ^ 2) ∧
    (∀ i, origin = some i → fdHypo nu k2 origin second i = nu.num4 / k2 second ^ 2) ∧
    (∀ i, 0 ≤ fdHypo nu k2 origin second i) ∧
    (nu.num4 = 0 → ∀ i, fdHypo nu k2 origin second i = 0) := by
  have h1 : ∀ i, origin ≠ some i → fdHypo nu k2 origin second i = nu.num4 / k2 i ^ 2 := by
    intro i hi
    by_cases hz : nu.num4 = 0
    · simp [fdHypo, hz]
    · simp [fdHypo, hz, hi, k2not0]
  have h2 : ∀ i, origin = some i → fdHypo nu k2 origin second i = nu.num4 / k2 second ^ 2 := by
    intro i hi
    by_cases hz : nu.num4 = 0
    · simp [fdHypo, hz]
    · have hs := hg.second_ne
      rw [hi] at hs
      simp [fdHypo, hz, hi, k2not0, hs]
  refine ⟨h1, h2, ?_, ?_⟩
  · intro i
    by_cases hi : origin = some i
    · rw [h2 i hi]; exact div_nonneg h.2.2.2 (sq_nonneg _)
    · rw [h1 i hi]; exact div_nonneg h.2.2.2 (sq_nonneg _)
  · intro hz i
    simp [fdHypo, hz]

/-- C44: in two and three dimensions the frequencies are always computed; in one dimension they are
without hypo-viscosity. Missing: one dimension with hypo-viscosity. -/
theorem C44_computed_partial (attrs : List String) (nu : Nu) (k2 : ι → ℝ) (origin : Option ι) (second : ι)
    (h : "K2_not0" ∈ attrs ∨ nu.num4 = 0) :
    computeFreqDiss attrs nu k2 origin second = .ok (fun i => fd nu (k2 i), fdHypo nu k2 origin second) := by
  rw [computeFreqDiss, if_neg]
  rintro ⟨a, b⟩
  rcases h with h | h
  · exact b h
  · exact a h

/-- C44, finding: for the solvers in one dimension, hypo-viscosity makes the creation of the simulation
fail. -/
theorem C44_hypo_1d_violated (nu : Nu) (hn : nu.num4 ≠ 0) (k2 : ι → ℝ) (origin : Option ι) (second : ι) :
    computeFreqDiss attrs1d nu k2 origin second = .error "AttributeError" := by
  rw [computeFreqDiss, if_pos ⟨hn, by decide⟩]

theorem norm_exact (f : ℂ) (dt : ℝ) : ‖exact f dt‖ = Real.exp (-(dt * f.re)) := by
  rw [exact, Complex.norm_exp]
  simp

/-- C44: the dissipative terms never increase the energy of any mode, so that the energy (for weights which are
not negative) of a set of modes never increases, whatever the oscillation frequencies `om` are; with `om = 0`
and no viscosity it is conserved. -/
theorem C44_never_injects {nu : Nu} (h : nu.Nonneg) [Fintype ι] {k : ι → ℝ} {origin : Option ι} {second : ι}
    (hg : Grid (fun i => k i ^ 2) origin second) (om : ι → ℝ) {dt : ℝ} (hdt : 0 ≤ dt) (w : ι → ℝ)
    (hw : ∀ i, 0 ≤ w i) (s : ι → ℂ) :
    let f : ι → ℂ := fun i =>
      ((fd nu (k i ^ 2) + fdHypo nu (fun i => k i ^ 2) origin second i : ℝ) : ℂ) + Complex.I * om i
    (∀ i, ‖exact (f i) dt * s i‖ ≤ ‖s i‖) ∧
    ∑ i, w i * ‖exact (f i) dt * s i‖ ^ 2 / 2 ≤ ∑ i, w i * ‖s i‖ ^ 2 / 2 := by
  intro f
  have h1 : ∀ i, ‖exact (f i) dt * s i‖ ≤ ‖s i‖ := by
    intro i
    rw [norm_mul, norm_exact]
    have hre : (f i).re = fd nu (k i ^ 2) + fdHypo nu (fun i => k i ^ 2) origin second i := by
      simp [f]
    have hf : 0 ≤ (f i).re := by
      rw [hre]
      have e1 : 0 ≤ fd nu (k i ^ 2) := by
        have := (C44_small_scales h (abs_nonneg (k i)) le_rfl).1
        rwa [sq_abs] at this
      have e2 := (C44_hypo h hg).2.2.1 i
      linarith
    have : Real.exp (-(dt * (f i).re)) ≤ 1 := by
      rw [Real.exp_le_one_iff]
      have := mul_nonneg hdt hf
      linarith
    calc Real.exp (-(dt * (f i).re)) * ‖s i‖ ≤ 1 * ‖s i‖ := by gcongr
      _ = ‖s i‖ := one_mul _
  refine ⟨h1, Finset.sum_le_sum fun i _ => ?_⟩
  have := hw i
  have := h1 i
  gcongr

/-- C44: along a whole run of any time scheme (with any positive time steps, with truncation), when there are
no nonlinear tendencies, the energy of the state never increases. -/
theorem C44_run_never_injects {nu : Nu} (h : nu.Nonneg) {ι : Type} [Fintype ι] [DecidableEq ι] {k : ι → ℝ}
    {origin : Option ι} {second : ι} (hg : Grid (fun i => k i ^ 2) origin second) (om : ι → ℝ)
    (w : ι → ℝ) (hw : ∀ i, 0 ≤ w i) (g1 g2 : Schemes.Arr ι) (dt0 : ℝ) (mask : ι → Bool)
    (heap : Schemes.Heap ι) (l : List (Schemes.StepIn ι)) (hl : l ≠ []) (hdt : ∀ x ∈ l, 0 < x.dt) :
    let f : ι → ℂ := fun i =>
      ((fd nu (k i ^ 2) + fdHypo nu (fun i => k i ^ 2) origin second i : ℝ) : ℂ) + Complex.I * om i
    let final := (Schemes.steps (fun _ _ => 0) mask l ⟨heap, Schemes.Coefs.init f true dt0 g1 g2⟩).heap .state
    ∑ i, w i * ‖final i‖ ^ 2 / 2 ≤ ∑ i, w i * ‖heap .state i‖ ^ 2 / 2 := by
  intro f final
  have hsum : 0 ≤ (l.map Schemes.StepIn.dt).sum :=
    List.sum_nonneg fun x hx => by
      obtain ⟨y, hy, rfl⟩ := List.mem_map.mp hx
      exact (hdt y hy).le
  have hn := C44_never_injects h hg om hsum w hw (heap .state)
  refine le_trans (Finset.sum_le_sum fun i _ => ?_) hn.2
  have e := Schemes.C05_linear_exact f g1 g2 dt0 mask heap l hl (fun x hx => (hdt x hx).ne') i
  have hle : ‖final i‖ ≤ ‖exact (f i) (l.map Schemes.StepIn.dt).sum * heap .state i‖ := by
    show ‖(Schemes.steps (fun _ _ => 0) mask l ⟨heap, Schemes.Coefs.init f true dt0 g1 g2⟩).heap .state i‖ ≤ _
    rw [e]
    split
    · rw [norm_zero]; exact norm_nonneg _
    · rw [exact, neg_mul]
  have := hw i
  gcongr

/-- C44: for plate2d only the variable `w_fft` is damped. -/
theorem C44_plate (f : ℝ) (hf : 0 ≤ f) : fdPlate f 0 = f ∧ fdPlate f 1 = 0 ∧ ∀ v, 0 ≤ fdPlate f v := by
  refine ⟨rfl, rfl, fun v => ?_⟩
  simp only [fdPlate]
  split <;> simp [hf]

/-- A grid of four modes with all the dissipations, on the process which has the null mode. -/
example : (Nu.mk 1 2 3 4).Nonneg ∧ Grid (fun i : Fin 4 => (i.val : ℝ) ^ 2) (some 0) 1 ∧
    fd (Nu.mk 1 2 3 4) 4 = 4 + 32 + 768 ∧
    fdHypo (Nu.mk 1 2 3 4) (fun i : Fin 4 => (i.val : ℝ) ^ 2) (some 0) 1 0 = 4 := by
  refine ⟨by norm_num [Nu.Nonneg], ⟨?_, by decide⟩, ?_, ?_⟩
  · intro i hi
    have : i.val ≠ 0 := fun h => hi (by rw [Option.some.injEq]; exact Fin.ext h.symm)
    positivity
  · norm_num [fd]
  · norm_num [fdHypo, k2not0]

end

end Verif.Dissip
