import Verif.Sw1lBudget.PropsMsw

/-! # C74: what the budgets do not satisfy, and the plots -/

set_option linter.unusedSectionVars false

namespace Verif.Sw1lBudget

open Verif.Fourier Verif.Energy Verif.Forcing Verif.Sw1l Verif.Spectra2d Verif.SpectBudget Verif.Galerkin
  Finset

noncomputable section

/-- C74 violated: the product of a geostrophic mode and of two different wave modes is announced in the
group GAAd; when the geostrophic mode is the first factor it is put in the group GAAs, whatever the modes. -/
theorem C74_groups_violated (n : Fin 2 → ℕ) (S : Finset Mode) (x y z : Fld (Fin 2)) (k : Mode) :
    ∃ d, triad n S ![x, 0, 0] ![0, y, 0] ![0, 0, z] = .ok d ∧
      announced n S ![x, 0, 0] ![0, y, 0] ![0, 0, z] ["aAG", "AaG", "aGA", "AGa", "GaA", "GAa"] k
        = (starRingEnd ℂ) (x k) * prod n S y z k ∧
      announced n S ![x, 0, 0] ![0, y, 0] ![0, 0, z] ["aaG", "aGa", "Gaa", "AAG", "AGA", "GAA"] k = 0 ∧
      valueOf d "GAAd" k = 0 ∧ valueOf d "GAAs" k = (starRingEnd ℂ) (x k) * prod n S y z k := by
  have z0 : ∀ a b : Fld (Fin 2), (a = 0 ∨ b = 0) → prod n S a b k = 0 := by
    intro a b h
    simp only [prod]
    split
    · rcases h with h | h <;> subst h <;> simp [gridVal, fftCoef]
    · rfl
  have hz := fun a => z0 a 0 (Or.inr rfl)
  have hz' := fun a => z0 0 a (Or.inl rfl)
  refine ⟨_, triad_ok n S _ _ _, ?_, ?_, ?_, ?_⟩
  · simp only [announced, words_GAAd]; simp [hz, hz']
  · simp only [announced, words_GAAs]; simp [hz, hz']
  · simp [valueOf, tri, List.lookup, hz, hz']
  · simp [valueOf, tri, List.lookup, hz, hz']

/-- The product can be different from zero. -/
example : (starRingEnd ℂ) (1 : ℂ) * prod (fun _ => 1) {0} (fun _ => 2) (fun _ => 3) 0 = 6 := by
  have hS : NoAlias (fun _ => 1) ({0} : Finset Mode) := noAlias_of_small _ _ (by decide)
  rw [prod_exact (fun _ => by norm_num) hS _ _ (by simp)]
  simp [exactProduct]
  norm_num

/-! ### A flow whose energy does not change as the budget says -/

/-- The modes `(m, 0)` with `|m| ≤ 2`. -/
def line : Finset Mode := {![-2, 0], ![-1, 0], ![0, 0], ![1, 0], ![2, 0]}

theorem line_eq : line = (Finset.Icc (-2 : ℤ) 2).image fun m => ![m, 0] := by decide

theorem line_inj {m m' : ℤ} : (![m, 0] : Mode) = ![m', 0] ↔ m = m' := by
  constructor
  · intro h; simpa using congrFun h 0
  · rintro rfl; rfl

theorem line_prod (a b : Fld (Fin 2)) (k : ℤ) : exactProduct line a b ![k, 0]
    = ∑ m ∈ Finset.Icc (-2 : ℤ) 2, ∑ m' ∈ Finset.Icc (-2 : ℤ) 2,
      if m + m' = k then a ![m, 0] * b ![m', 0] else 0 := by
  have inj : Set.InjOn (fun m : ℤ => (![m, 0] : Mode)) (Finset.Icc (-2 : ℤ) 2) :=
    fun m _ m' _ h => line_inj.1 h
  simp only [exactProduct, line_eq]
  rw [sum_image inj]
  refine sum_congr rfl fun m _ => ?_
  rw [sum_image inj]
  refine sum_congr rfl fun m' _ => ?_
  have : (![m, 0] + ![m', 0] : Mode) = ![k, 0] ↔ m + m' = k := by
    rw [← line_inj]; simp
  simp only [this]

theorem icc5 : Finset.Icc (-2 : ℤ) 2 = {-2, -1, 0, 1, 2} := by decide

/-- `ux = cos x`, `η = sin x`. -/
def wave (k : Mode) : UEta :=
  if k = ![1, 0] then ⟨1 / 2, 0, -Complex.I / 2⟩ else if k = ![-1, 0] then ⟨1 / 2, 0, Complex.I / 2⟩
  else ⟨0, 0, 0⟩

theorem wave_at (m : ℤ) : wave ![m, 0] = if m = 1 then ⟨1 / 2, 0, -Complex.I / 2⟩
    else if m = -1 then ⟨1 / 2, 0, Complex.I / 2⟩ else ⟨0, 0, 0⟩ := by
  simp only [wave, line_inj]

def unit : Par := ⟨fun _ => 1, 0, 1⟩

def eight : Fin 2 → ℕ := fun _ => 8

/-- The flow which starts from `wave` with its tendency. -/
def flow (s : ℝ) (k : Mode) : UEta :=
  let T := Sw1l.sw1l unit eight line wave k
  ⟨(wave k).ux + s * T.ux, (wave k).uy + s * T.uy, (wave k).eta + s * T.eta⟩

theorem flow_zero : flow 0 = wave := by
  funext k; simp [flow]

theorem flow_evolves : EvolvesU line flow (Sw1l.sw1l unit eight line (flow 0)) (fun _ => 0) 0 := by
  have key : ∀ a b : ℂ, HasDerivAt (fun s : ℝ => a + s * b) (b - ((0 : ℝ) : ℂ) * (a + (0 : ℝ) * b)) 0 := by
    intro a b
    have h := ((Complex.ofRealCLM.hasDerivAt (x := (0 : ℝ))).mul_const b).const_add a
    refine h.congr_deriv (by simp)
  rw [flow_zero]
  exact ⟨fun k _ => key _ _, fun k _ => key _ _, fun k _ => key _ _⟩

theorem unit_ok : unit.Ok := ⟨fun _ => by norm_num [unit], by norm_num [unit]⟩

theorem line_noAlias : NoAlias eight line := noAlias_of_small _ _ (by decide)

theorem conj2 : (starRingEnd ℂ) 2 = 2 := Complex.conj_ofNat 2

theorem wave_real : RealOn line (fun k => (wave k).ux) ∧ RealOn line (fun k => (wave k).uy) ∧
    RealOn line (fun k => (wave k).eta) := by
  have key : ∀ f : UEta → ℂ, (∀ m ∈ Finset.Icc (-2 : ℤ) 2, f (wave ![-m, 0]) = (starRingEnd ℂ) (f (wave ![m, 0]))) →
      RealOn line fun k => f (wave k) := by
    intro f hf k hk
    rw [line_eq, mem_image] at hk
    obtain ⟨m, hm, rfl⟩ := hk
    have e : (-![m, 0] : Mode) = ![-m, 0] := by simp
    refine ⟨?_, ?_⟩
    · rw [e, line_eq, mem_image]
      exact ⟨-m, by simp only [Finset.mem_Icc] at hm ⊢; omega, rfl⟩
    · rw [e]; exact hf m hm
  refine ⟨key UEta.ux ?_, key UEta.uy ?_, key UEta.eta ?_⟩ <;> intro m hm <;> simp only [wave_at] <;>
    (have hm' := Finset.mem_Icc.1 hm
     obtain ⟨h1, h2⟩ := hm'
     interval_cases m <;> simp [conj2])

/-- C74 violated: for the flow `ux = cos x`, `η = sin x`, on a grid without aliasing and without
dissipation, the energy of the mode `(1, 0)` does not change at the rate given by the transfers of the
budget of sw1l: `3/32` is missing. -/
theorem C74_budget_violated : ∃ d, tq unit eight line (flow 0) (sw1lTerms unit.c2) = .ok d ∧
    HasDerivAt (fun s => energyH unit line (flow s) ![1, 0])
      (total d ![1, 0] + tnq unit eight line (flow 0) ![1, 0] + 3 / 32) 0 := by
  obtain ⟨d, hd, hh⟩ := C74_budget_partial unit_ok (fun _ => by norm_num [eight]) line_noAlias flow_evolves
    (by rw [flow_zero, show (0 : Mode) = ![0, 0] by decide, wave_at]; simp) (k := ![1, 0]) (by simp [line])
  refine ⟨d, hd, hh.congr_deriv ?_⟩
  rw [flow_zero]
  congr 1
  have hy : ∀ k, (wave k).uy = 0 := by
    intro k; simp only [wave]; split_ifs <;> rfl
  have z2 : ∀ (S : Finset Mode) (a : Fld (Fin 2)) k, exactProduct S (fun _ => 0) a k = 0 := by
    intro S a k; simp [exactProduct]
  have hadv : ∀ (a : Fld (Fin 2)) k, advect line unit.δ ![fun k => (wave k).ux, fun k => (wave k).uy] a k
      = exactProduct line (fun k => (wave k).ux) (pd unit.δ 0 a) k := by
    intro a k
    simp only [advect, Fin.sum_univ_two, Matrix.cons_val_zero, Matrix.cons_val_one, hy, z2, add_zero]
  simp only [hy, map_zero, zero_mul, Complex.zero_re, add_zero]
  have h1 : (wave ![1, 0]).ux = 1 / 2 := by rw [wave_at]; simp
  rw [h1]
  have hadv' : advect line unit.δ ![fun k => (wave k).ux, fun _ => 0]
      = fun a k => exactProduct line (fun k => (wave k).ux) (pd unit.δ 0 a) k := by
    funext a k; rw [← hadv]; simp only [hy]
  simp only [hadv']
  have hpd : ∀ (a : Fld (Fin 2)) (m : ℤ), pd unit.δ 0 a ![m, 0] = Complex.I * m * a ![m, 0] := by
    intro a m; simp [pd, unit]
  simp only [line_prod, hpd, wave_at, icc5]
  simp
  norm_num

/-! ### Plots -/

section plot

variable {Q : Type*} [Field Q] [LinearOrder Q] [IsStrictOrderedRing Q]

theorem mem_rangeStep_one (a b i : ℕ) : i ∈ rangeStep a b 1 ↔ a ≤ i ∧ i < b := by
  simp only [rangeStep, List.mem_range', Nat.sub_self, Nat.add_zero, Nat.div_one, one_mul]
  constructor
  · rintro ⟨j, hj, rfl⟩; omega
  · rintro ⟨h1, h2⟩; exact ⟨i - a, by omega, by omega⟩

/-- C74: the records averaged by `plot` are those from the record nearest to `tmin` to the one before
the record nearest to `tmax`; the curves of the potential enstrophy also have the last one. -/
theorem C74_plot_partial (times : List Q) (tmin tmax : Q) (i : ℕ) :
    (i ∈ (curves times tmin tmax 1).mean ↔ nearest times tmin ≤ i ∧ i < nearest times tmax) ∧
      (i ∈ (curves times tmin tmax 1).energy ↔ nearest times tmin ≤ i ∧ i < nearest times tmax) ∧
      (i ∈ (curves times tmin tmax 1).cpe ↔ nearest times tmin ≤ i ∧ i ≤ nearest times tmax) := by
  simp only [curves, mem_rangeStep_one, Nat.lt_succ_iff, and_self]

/-- C74: the curves drawn by `plot` for any step: each `step`-th record from the one nearest to `tmin`, up to the
one nearest to `tmax`. -/
theorem C74_plot_step (times : List Q) (tmin tmax : Q) {step : ℕ} (hs : 0 < step) (i : ℕ) :
    (i ∈ (curves times tmin tmax step).energy ↔
      (∃ j, i = nearest times tmin + step * j) ∧ i < nearest times tmax) ∧
    (i ∈ (curves times tmin tmax step).cpe ↔
      (∃ j, i = nearest times tmin + step * j) ∧ i ≤ nearest times tmax) := by
  have key : ∀ a b, i ∈ rangeStep a b step ↔ (∃ j, i = a + step * j) ∧ i < b := by
    intro a b
    simp only [rangeStep, List.mem_range']
    have hlt : ∀ j, j < (b - a + (step - 1)) / step ↔ a + step * j < b := by
      intro j
      rw [Nat.lt_div_iff_mul_lt hs, Nat.mul_comm]
      omega
    constructor
    · rintro ⟨j, hj, rfl⟩
      exact ⟨⟨j, rfl⟩, (hlt j).1 hj⟩
    · rintro ⟨⟨j, rfl⟩, h⟩
      exact ⟨j, (hlt j).2 h, rfl⟩
  exact ⟨key _ _, (key _ _).trans (and_congr_right fun _ => Nat.lt_succ_iff)⟩

example : (curves [(0 : ℚ), 1, 2, 3, 4, 5] 1 4 2).energy = [1, 3] := by decide +kernel

/-- `nearest` is the index of a record, and no record is nearer. -/
theorem C74_plot_nearest (times : List Q) (t : Q) (h : times ≠ []) :
    ∃ x, times[nearest times t]? = some x ∧ ∀ y ∈ times, |x - t| ≤ |y - t| := by
  have hne : times.map (fun x => |x - t|) ≠ [] := by simpa using h
  obtain ⟨x, hx, hmin, -⟩ := PhysFiles.argmin_spec _ hne
  rw [List.getElem?_map, Option.map_eq_some_iff] at hx
  obtain ⟨y, hy, rfl⟩ := hx
  exact ⟨y, hy, fun w hw => hmin _ (List.mem_map_of_mem hw)⟩

/-- C74 violated: when one record is selected (`tmin = tmax`), the mean of `plot` is over no record,
although the curve of the potential enstrophy is drawn. -/
theorem C74_plot_violated (times : List Q) (t : Q) (step : ℕ) :
    (curves times t t step).mean = [] ∧ (curves times t t step).energy = [] ∧
      nearest times t ∈ (curves times t t 1).cpe := by
  refine ⟨?_, ?_, by simp [curves, mem_rangeStep_one]⟩
  · simp [curves, rangeStep]
  · simp only [curves, rangeStep, Nat.sub_self, Nat.zero_add]
    rcases Nat.eq_zero_or_pos step with h | h
    · subst h; simp
    · rw [Nat.div_eq_of_lt (by omega)]; simp

example : (curves [(0 : ℚ), 1, 2, 3] 1 3 1).mean = [1, 2] ∧ (curves [(0 : ℚ), 1, 2, 3] 1 3 1).cpe = [1, 2, 3] := by
  decide +kernel

end plot

/-! ### The hypotheses are met -/

/-- A flow of sw1l.modified with the dissipation `1`. -/
def flowM (u : Mode → UEta) (s : ℝ) (k : Mode) : UEta :=
  let T := modified unit eight line u k
  ⟨(u k).ux + s * (T.ux - (u k).ux), (u k).uy + s * (T.uy - (u k).uy), (u k).eta + s * (T.eta - (u k).eta)⟩

theorem flowM_zero (u : Mode → UEta) : flowM u 0 = u := by
  funext k; simp [flowM]

theorem flowM_evolves (u : Mode → UEta) :
    EvolvesU line (flowM u) (modified unit eight line (flowM u 0)) (fun _ => 1) 0 := by
  have key : ∀ a b : ℂ, HasDerivAt (fun s : ℝ => a + s * (b - a))
      (b - ((1 : ℝ) : ℂ) * (a + (0 : ℝ) * (b - a))) 0 := by
    intro a b
    have h := ((Complex.ofRealCLM.hasDerivAt (x := (0 : ℝ))).mul_const (b - a)).const_add a
    refine h.congr_deriv (by simp)
  rw [flowM_zero]
  exact ⟨fun k _ => key _ _, fun k _ => key _ _, fun k _ => key _ _⟩

example : HasDerivAt (fun s => unit.c2 * half (flowM wave s ![1, 0]).eta)
    ((msw unit eight line (flowM wave 0)).EA ![1, 0] - (msw unit eight line (flowM wave 0)).convA ![1, 0]
      - 1 * (unit.c2 * ‖(flowM wave 0 ![1, 0]).eta‖ ^ 2)) 0 :=
  C74_msw_potential (fun _ => by norm_num [eight]) line_noAlias.distinct (flowM_evolves wave) (by simp [line])

example : HasDerivAt (fun s => half (flowM wave s ![1, 0]).ux + half (flowM wave s ![1, 0]).uy)
    ((msw unit eight line (flowM wave 0)).EK ![1, 0] + (msw unit eight line (flowM wave 0)).convA ![1, 0]
      - 1 * (‖(flowM wave 0 ![1, 0]).ux‖ ^ 2 + ‖(flowM wave 0 ![1, 0]).uy‖ ^ 2)) 0 :=
  C74_msw_kinetic unit_ok (fun _ => by norm_num [eight]) line_noAlias.distinct (flowM_evolves wave)
    (by simp [line]) (by intro h; simpa using congrFun h 0)

/-- The flow `uy = cos x` has no divergence. -/
example : ∀ k ∈ line, divOf unit k (0 : ℂ) (wave k).ux = 0 := by
  intro k hk
  rw [line_eq, mem_image] at hk
  obtain ⟨m, -, rfl⟩ := hk
  simp [divOf, unit, Par.kx, Par.ky]

example : ∃ d, tq unit eight line wave (sw1lTerms 1) = .ok d ∧ ∑ k ∈ line, total d k = 0 :=
  C74_conservative unit_ok (fun _ => by norm_num [eight]) (triad_of_noAlias line_noAlias wave_real.1) wave
    wave_real.1 wave_real.2.1 wave_real.2.2

example : ∑ k ∈ line, (msw unit eight line wave).EK k = 0 :=
  (C74_msw_conservative (fun _ => by norm_num [eight]) (triad_of_noAlias line_noAlias wave_real.1) wave
    wave_real.1 wave_real.2.1 wave_real.2.2).2.2.2.1

example : ∃ d, cq unit wave = .ok d ∧ d.map (·.1) = ["GG", "AG", "aG", "AA"] ∧
    total d ![1, 0] = (1 / 4) * (-1) := by
  obtain ⟨d, h1, h2, h3⟩ := C74_exchanges unit_ok wave (k := ![1, 0]) (by
    intro h; simpa using congrFun h 0)
  refine ⟨d, h1, h2, h3.trans ?_⟩
  rw [wave_at]
  simp [unit, divOf, Par.kx, Par.ky, conj2]
  norm_num

end

end Verif.Sw1lBudget
