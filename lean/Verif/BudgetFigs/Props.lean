import Verif.BudgetFigs.Lemmas

/-! # C109: the figures of the spectral energy budgets -/

set_option linter.unusedSectionVars false

namespace Verif.BudgetFigs

open Verif.PhysFiles (closest)
open Verif.SpecFigs (SpecFile IsClosest Records Regular timeMean)
open Verif.SpectBudget (cumsum cumsumInv cumsum_get take_map_range sum_map_range cumsumFrom_length)
open Finset

/-! ### ns2d -/

/-- C109 (ns2d): the thick curve is the flux of the mean of the transfers, that is what the wavenumbers from `i` on receive, and the thin curves
are those of the records `i0, i0 + p, ...` of the range. What is missing: the record closest to `tmax` is not used (`C109_last_record_violated`)
and the abscissas are shifted (`C109_abscissa_violated`). -/
theorem C109_ns2d_partial {m : ℕ} (f : SpecFile (m + 2)) {s : ℕ → Fin (m + 2) → ℝ} (hs : Records f.times f.spectra s) {t0 τ : ℝ} (hτ : 0 < τ)
    (hr : Regular f.times t0 τ) {tmin tmax : ℝ} {i0 i1 : ℕ} (h0 : IsClosest f.times tmin i0) (h1 : IsClosest f.times tmax i1) (h : i0 < i1)
    {p : ℕ} (hp : 0 < p) (dk : ℝ) :
    ∃ F, plotNs2d f dk tmin tmax (p * τ) = .ok F ∧ F.thick.values = some (fun i => received (timeMean s i0 (i1 - 1)) i * dk) ∧
      (∀ it, it ∈ F.thin.map (fun q => q.1) ↔ it < i1 ∧ ∃ j, it = i0 + j * p) ∧
      ∀ q ∈ F.thin, q.2.ks = F.thick.ks ∧ q.2.values = some fun i => received (s q.1) i * dk := by
  have hlt := h1.lt
  simp only [plotNs2d, plotStep_regular hr (by omega) hτ.ne' hp, h0.eq, h1.eq, figure]
  refine ⟨_, rfl, ?_, ?_, ?_⟩
  · simp only
    rw [mean0_records hs h hlt, Option.map_some]
    exact congrArg some (funext fun i => pi_eq dk _ i)
  · intro it
    simp only [List.map_map, Function.comp_def, List.map_id', mem_indicesTo]
    constructor
    · rintro ⟨a, b, c⟩
      obtain ⟨j, hj⟩ := Nat.dvd_of_mod_eq_zero c
      exact ⟨b, j, by rw [mul_comm]; omega⟩
    · rintro ⟨b, j, rfl⟩
      exact ⟨by omega, b, by rw [Nat.add_sub_cancel_left]; exact Nat.mul_mod_left _ _⟩
  · intro q hq
    simp only [List.mem_map, mem_indicesTo] at hq
    obtain ⟨it, hi, rfl⟩ := hq
    refine ⟨rfl, ?_⟩
    simp only
    rw [hs, List.getElem?_map, List.getElem?_range (by omega), Option.map_some, Option.map_some]
    exact congrArg some (funext fun i => pi_eq dk _ i)

/-- C109 (ns2d): if the transfer of each record conserves the energy, the thick curve is what the wavenumbers before `i` lose; its first value is
zero. -/
theorem C109_conserved {m : ℕ} (f : SpecFile (m + 2)) {s : ℕ → Fin (m + 2) → ℝ} (hs : Records f.times f.spectra s)
    (hc : ∀ j, ∑ i, s j i = 0) {tmin tmax : ℝ} {i0 i1 : ℕ} (h0 : IsClosest f.times tmin i0) (h1 : IsClosest f.times tmax i1) (h : i0 < i1)
    (dk dt : ℝ) :
    ∃ F v, plotNs2d f dk tmin tmax dt = .ok F ∧ F.thick.values = some v ∧ v 0 = 0 ∧ ∀ i, v i = lost (timeMean s i0 (i1 - 1)) i * dk := by
  have hlt := h1.lt
  obtain ⟨st, hst⟩ := plotStep_ok (show 2 ≤ f.times.length by omega) dt
  have hm : ∑ i, timeMean s i0 (i1 - 1) i = 0 := by
    simp only [timeMean, ← sum_div]
    rw [sum_comm, sum_congr rfl fun j _ => hc j, sum_const_zero, zero_div]
  have hv : ∀ i, pi dk (timeMean s i0 (i1 - 1)) i = lost (timeMean s i0 (i1 - 1)) i * dk := by
    intro i
    rw [pi_eq, received_conserved hm]
  simp only [plotNs2d, hst, h0.eq, h1.eq, figure]
  refine ⟨_, _, rfl, ?_, ?_, hv⟩
  · simp only
    rw [mean0_records hs h hlt, Option.map_some]
  · rw [hv, lost]
    simp

/-- C109 (violated): the figure does not depend on the record closest to `tmax`: neither its curve nor the mean; with `tmax` after the end of the
simulation, the last record is never used. -/
theorem C109_last_record_violated {m : ℕ} (f f' : SpecFile (m + 2)) (ht : f'.times = f.times) (hk : f'.ks = f.ks) {tmax : ℝ} {i1 : ℕ}
    (h1 : IsClosest f.times tmax i1) (hs : ∀ j ≠ i1, f'.spectra[j]? = f.spectra[j]?) (dk tmin dt : ℝ) :
    plotNs2d f' dk tmin tmax dt = plotNs2d f dk tmin tmax dt := by
  have e1 : ∀ i0, sliceTo f'.spectra i0 i1 = sliceTo f.spectra i0 i1 := by
    intro i0
    rw [sliceTo, sliceTo]
    congr 1
    refine List.ext_getElem? fun j => ?_
    rw [List.getElem?_take, List.getElem?_take]
    split
    · exact hs j (by omega)
    · rfl
  have e2 : ∀ i0 st, ((indicesTo i0 i1 st).map fun it => ((it, ⟨fun i => f.ks i + f.ks 1, (f'.spectra[it]?).map (pi dk)⟩) : ℕ × Curve (m + 2)))
      = (indicesTo i0 i1 st).map fun it => (it, ⟨fun i => f.ks i + f.ks 1, (f.spectra[it]?).map (pi dk)⟩) := by
    intro i0 st
    refine List.map_congr_left fun it hit => ?_
    rw [mem_indicesTo] at hit
    rw [hs it (by omega)]
  simp only [plotNs2d, ht, hk, h1.eq, figure, e1, e2]

/-- C109 (violated): for a range with one record, the thick curve is nan and there is no thin curve. -/
theorem C109_one_time_violated {m : ℕ} (f : SpecFile (m + 2)) (h2 : 2 ≤ f.times.length) (t dk dt : ℝ) :
    ∃ F, plotNs2d f dk t t dt = .ok F ∧ F.thick.values = none ∧ F.thin = [] := by
  obtain ⟨st, hst⟩ := plotStep_ok h2 dt
  simp only [plotNs2d, hst, figure]
  refine ⟨_, rfl, ?_, ?_⟩
  · simp [sliceTo, mean0]
  · cases st <;> simp [indicesTo]

/-- The transfer of energy from the wavenumber number `a` to the next one. -/
def oneStepUp {m : ℕ} (a : ℕ) (i : Fin m) : ℝ := if (i : ℕ) = a then -1 else if (i : ℕ) = a + 1 then 1 else 0

theorem received_oneStepUp {m : ℕ} {a : ℕ} (ha : a + 1 < m) (i : Fin m) : received (oneStepUp a) i = if (i : ℕ) = a + 1 then 1 else 0 := by
  have e : ∀ j : Fin m, (if i ≤ j then oneStepUp a j else 0)
      = (if j = (⟨a, by omega⟩ : Fin m) then (if (i : ℕ) ≤ a then -1 else 0) else 0)
        + (if j = (⟨a + 1, ha⟩ : Fin m) then (if (i : ℕ) ≤ a + 1 then 1 else 0) else 0) := by
    intro j
    simp only [oneStepUp, Fin.ext_iff, Fin.le_def]
    split_ifs <;> first | omega | norm_num
  rw [received, sum_congr rfl fun j _ => e j, sum_add_distrib, sum_ite_eq' univ, sum_ite_eq' univ]
  simp only [mem_univ, if_true]
  split_ifs <;> first | omega | norm_num

/-- C109 (violated): if all the energy goes from the wavenumber `a δk` to `(a + 1) δk`, there is no flux beyond `(a + 1) δk`; but the only point of
the curve which is not zero is drawn at `(a + 2) δk`. -/
theorem C109_abscissa_violated {m : ℕ} (f : SpecFile (m + 2)) {dk : ℝ} (hk : ∀ i, f.ks i = (i : ℕ) * dk) {a : ℕ} (ha : a + 1 < m + 2)
    (hs : Records f.times f.spectra fun _ => oneStepUp a) {tmin tmax : ℝ} {i0 i1 : ℕ} (h0 : IsClosest f.times tmin i0)
    (h1 : IsClosest f.times tmax i1) (h : i0 < i1) (dt : ℝ) :
    ∃ F v, plotNs2d f dk tmin tmax dt = .ok F ∧ F.thick.values = some v ∧
      F.thick.ks ⟨a + 1, ha⟩ = (a + 2 : ℕ) * dk ∧ v ⟨a + 1, ha⟩ = dk ∧ ∀ i : Fin (m + 2), (i : ℕ) ≠ a + 1 → v i = 0 := by
  have hlt := h1.lt
  obtain ⟨st, hst⟩ := plotStep_ok (show 2 ≤ f.times.length by omega) dt
  have hm : timeMean (fun _ => (oneStepUp a : Fin (m + 2) → ℝ)) i0 (i1 - 1) = oneStepUp a := by
    funext i
    have : ((i1 - 1 + 1 - i0 : ℕ) : ℝ) ≠ 0 := by exact_mod_cast (by omega : i1 - 1 + 1 - i0 ≠ 0)
    rw [timeMean, sum_const, Nat.card_Icc, nsmul_eq_mul]
    field_simp
  have hv : ∀ i, pi dk (oneStepUp a : Fin (m + 2) → ℝ) i = (if (i : ℕ) = a + 1 then 1 else 0) * dk := fun i => by
    rw [pi_eq, received_oneStepUp ha]
  simp only [plotNs2d, hst, h0.eq, h1.eq, figure]
  refine ⟨_, pi dk (oneStepUp a), rfl, ?_, ?_, ?_, ?_⟩
  · simp only
    rw [mean0_records hs h hlt, hm, Option.map_some]
  · simp only [hk]
    push_cast
    simp
    ring
  · rw [hv]; simp
  · intro i hi
    rw [hv, if_neg hi, zero_mul]

/-- Three records, every 2, of the transfer from the wavenumber 1 to the wavenumber 2. -/
noncomputable def exFile : SpecFile 4 := ⟨[0, 2, 4], fun i => (i : ℕ) * 1, [oneStepUp 1, oneStepUp 1, oneStepUp 1]⟩

theorem exFile_closest : IsClosest exFile.times 0 0 ∧ IsClosest exFile.times 4 2 := by
  refine ⟨⟨0, rfl, ?_, fun j y hj => by omega⟩, ⟨4, rfl, ?_, ?_⟩⟩
  · intro y _; simp
  · intro y _; simp
  · intro j y hj hy
    have : j = 0 ∨ j = 1 := by omega
    rcases this with rfl | rfl <;> simp [exFile] at hy <;> subst hy <;> norm_num

example : Records exFile.times exFile.spectra (fun _ => oneStepUp 1) ∧ Regular exFile.times 0 2 ∧ IsClosest exFile.times 0 0 ∧
    IsClosest exFile.times 4 2 ∧ (∀ i, exFile.ks i = (i : ℕ) * 1) ∧ ∑ i : Fin 4, (oneStepUp 1 i : ℝ) = 0 := by
  refine ⟨rfl, ?_, exFile_closest.1, exFile_closest.2, fun _ => rfl, ?_⟩
  · simp [Regular, exFile, List.range_succ]; norm_num
  · simp [Fin.sum_univ_four, oneStepUp]

/-! ### sw1l -/

/-- C109 (sw1l): the curve of the total energy is the flux of the sum of the means of the transfers of the kinetic and of the available potential
energies, drawn versus the wavenumbers of the file, and so are the curves of the parts and of the Charney potential enstrophy. What is missing:
the record closest to `tmax`. -/
theorem C109_sw1l_partial {m : ℕ} (f : SwFile (m + 2)) {K A C Z : ℕ → Fin (m + 2) → ℝ} (hK : Records f.times f.EK K) (hA : Records f.times f.EA A)
    (hC : Records f.times f.conv C) (hZ : Records f.times f.CPE Z) {tmin tmax : ℝ} {i0 i1 : ℕ} (h0 : IsClosest f.times tmin i0)
    (h1 : IsClosest f.times tmax i1) (h : i0 < i1) (dk dt : ℝ) :
    ∃ F, plotSw f dk tmin tmax dt = .ok F ∧
      F.E = ⟨f.ks, some fun i => received (fun j => timeMean K i0 (i1 - 1) j + timeMean A i0 (i1 - 1) j) i * dk⟩ ∧
      F.EK = ⟨f.ks, some fun i => received (timeMean K i0 (i1 - 1)) i * dk⟩ ∧
      F.EA = ⟨f.ks, some fun i => received (timeMean A i0 (i1 - 1)) i * dk⟩ ∧
      F.CPE = ⟨f.ks, some fun i => received (timeMean Z i0 (i1 - 1)) i * dk⟩ ∧
      F.conv.values = some fun i => received (timeMean C i0 (i1 - 1)) i * dk := by
  have hlt := h1.lt
  obtain ⟨st, hst⟩ := plotStep_ok (show 2 ≤ f.times.length by omega) dt
  simp only [plotSw, hst, h0.eq, h1.eq, figure, mean0_records hK h hlt, mean0_records hA h hlt, mean0_records hC h hlt, mean0_records hZ h hlt,
    Option.map_some, addValues]
  have e : ∀ s : Fin (m + 2) → ℝ, pi dk s = fun i => received s i * dk := fun s => funext fun i => pi_eq dk s i
  refine ⟨_, rfl, ?_, ?_, ?_, ?_, ?_⟩
  · simp only [e, ← add_mul, received_sum]
  all_goals simp only [e]

/-- C109 (violated): in the same figure of sw1l, the curve of the conversion is shifted by one wavenumber with respect to the fluxes. -/
theorem C109_sw1l_conversion_violated {m : ℕ} (f : SwFile (m + 2)) (h2 : 2 ≤ f.times.length) (hk : f.ks 1 ≠ 0) (dk tmin tmax dt : ℝ) :
    ∃ F, plotSw f dk tmin tmax dt = .ok F ∧ ∀ i, F.conv.ks i = F.E.ks i + f.ks 1 ∧ F.conv.ks i ≠ F.E.ks i := by
  obtain ⟨st, hst⟩ := plotStep_ok h2 dt
  simp only [plotSw, hst, figure]
  exact ⟨_, rfl, fun i => ⟨rfl, by simpa using hk⟩⟩

/-- C109 (violated): the thin curves of the Charney potential enstrophy include the record closest to `tmax`, those of the energy do not. -/
theorem C109_sw1l_thin_violated {m : ℕ} (f : SwFile (m + 2)) {t0 τ : ℝ} (hτ : 0 < τ) (hr : Regular f.times t0 τ) {tmin tmax : ℝ} {i0 i1 : ℕ}
    (h0 : IsClosest f.times tmin i0) (h1 : IsClosest f.times tmax i1) (h : i0 < i1) (dk : ℝ) :
    ∃ F, plotSw f dk tmin tmax τ = .ok F ∧ i1 ∈ F.thinCPE.map (fun q => q.1) ∧ i1 ∉ F.thinE.map (fun q => q.1) := by
  have hlt := h1.lt
  have hst := plotStep_regular hr (show 2 ≤ f.times.length by omega) hτ.ne' one_pos
  rw [Nat.cast_one, one_mul] at hst
  simp only [plotSw, hst, h0.eq, h1.eq, figure]
  refine ⟨_, rfl, ?_, ?_⟩
  · simp only [List.map_map, Function.comp_def, List.map_id', mem_indicesTo]
    exact ⟨h.le, by omega, Nat.mod_one _⟩
  · simp only [List.zipWith_map_left, List.zipWith_map_right, List.map_zipWith, List.zipWith_self, List.map_map, Function.comp_def,
      List.map_id']
    rw [mem_indicesTo]
    omega

/-- C109 (sw1l, normal modes): the total flux is the sum of the fluxes of the five parts: the flux of the sum of the means of the transfers divided
by the forcing rate. What is missing: the record closest to `tmax`; the abscissas are shifted by 0.1. -/
theorem C109_modes_partial {m : ℕ} (f : ModesFile m) {T : Triad → ℕ → Fin m → ℝ} (hT : ∀ key, Records f.times (f.Tq key) (T key)) {tmin tmax : ℝ}
    {i0 i1 : ℕ} (h0 : IsClosest f.times tmin i0) (h1 : IsClosest f.times tmax i1) (h : i0 < i1) (dk dt : ℝ) {P : ℝ} (hP : P ≠ 0) :
    ∃ tot parts, plotModes f dk P tmin tmax dt = .ok (tot, parts) ∧ (∀ i, tot.ks i = f.ks i + 1 / 10) ∧
      (∀ key, (parts key).values = some fun i => received (timeMean (T key) i0 (i1 - 1)) i * dk / P) ∧
      tot.values = some fun i => received (fun j => timeMean (T .GGG) i0 (i1 - 1) j + timeMean (T .AGG) i0 (i1 - 1) j
        + timeMean (T .GAAs) i0 (i1 - 1) j + timeMean (T .GAAd) i0 (i1 - 1) j + timeMean (T .AAA) i0 (i1 - 1) j) i * dk / P := by
  have hlt := h1.lt
  obtain ⟨st, hst⟩ := plotStep_ok (show 2 ≤ f.times.length by omega) dt
  have e : ∀ (s : Fin m → ℝ), pi dk (fun i => s i / P) = fun i => received s i * dk / P := by
    intro s
    funext i
    rw [pi_eq, received, received, sum_mul, sum_mul, sum_div]
    exact sum_congr rfl fun j _ => by split <;> ring
  have em : ∀ key, mean0 (sliceTo (f.Tq key) i0 i1) = some (timeMean (T key) i0 (i1 - 1)) := fun key => mean0_records (hT key) h hlt
  simp only [plotModes, hst, h0.eq, h1.eq, em, normOf, if_neg hP, Option.map_some, addValues, e]
  refine ⟨_, _, rfl, fun i => by norm_num, fun _ => rfl, ?_⟩
  simp only [← received_sum]
  exact congrArg some (funext fun i => by ring)

/-! ### ns3d -/

theorem range3_eq {f : File3} {tmin tmax : Option ℝ} {i0 i1 : ℕ} (hr : IsRange f.times tmin tmax i0 i1) : range3 f tmin tmax = (i0, i1) := by
  obtain ⟨a, b, c, d⟩ := hr
  refine Prod.ext ?_ ?_
  · cases tmin with
    | none => exact (a rfl).symm
    | some t => exact (b t rfl).eq
  · cases tmax with
    | none => have := c rfl; show f.times.length - 1 = i1; omega
    | some t => exact (d t rfl).eq

/-- C109 (ns3d): the curves of `plot_fluxes`: the flux is what the wavenumbers up to `i` lose, the dissipation curve is what is dissipated in these
wavenumbers, both averaged over all the records of the range and divided by the total dissipation, and drawn at the upper edge of the shell number
`i`. -/
theorem C109_ns3d (f : File3) {s : Key → ℕ → ℕ → ℕ → ℝ} (hs : Records3 f s) {tmin tmax : Option ℝ} {i0 i1 : ℕ}
    (hr : IsRange f.times tmin tmax i0 i1) (h : i0 ≤ i1) (h1 : i1 < f.times.length) (d : Dir) {n : ℕ} (hn : f.number d = n + 1) :
    let T := fun z h => mean3 (s .transferKh) i0 i1 z h + mean3 (s .transferKz) i0 i1 z h
    let D := fun z h => mean3 (s .dissKh) i0 i1 z h + mean3 (s .dissKz) i0 i1 z h
    within f d D n ≠ 0 →
    ∃ F, plotFluxes f tmin tmax d = .ok (some F) ∧
      F.flux = (List.range (n + 1)).map (fun i => -within f d T i / within f d D n) ∧
      F.D = (List.range (n + 1)).map (fun i => within f d D i / within f d D n) ∧
      F.sum = (List.range (n + 1)).map (fun i => (-within f d T i + within f d D i) / within f d D n) ∧
      (d = .h → F.ks = (List.range (n + 1)).map fun i => f.kh i + f.kh 1 / 2) ∧
      (d = .z → F.ks = (List.range (n + 1)).map fun i => f.kz i + f.kz 1 / 2) := by
  intro T D hD
  have hne : f.times ≠ [] := by rintro e; rw [e] at h1; simp at h1
  have g := fun key => fluxMean_records f (range3_eq hr) h h1 (hs key) d
  rw [plotFluxes, if_neg hne]
  simp only [bind, Option.bind, g, plus_range, hn, last_range, Key.isTransfer, if_true, Bool.false_eq_true, if_false, one_mul, neg_one_mul, within_add]
  rw [if_neg hD]
  refine ⟨_, rfl, ?_, ?_, ?_, ?_, ?_⟩
  · simp only [List.map_map]
    refine List.map_congr_left fun i _ => ?_
    simp only [Function.comp_apply, T, D, ← within_add]
    ring
  · simp only [List.map_map]; rfl
  · simp only [List.map_map]
    refine List.map_congr_left fun i _ => ?_
    simp only [Function.comp_apply, T, D, ← within_add]
    ring
  · rintro rfl
    simp only [File3.number] at hn
    simp only [abscissas, hn]
  · rintro rfl
    simp only [File3.number] at hn
    simp only [abscissas, hn]

/-- C109 (ns3d): when no dissipation is negative, the curve of the dissipation never decreases, stays between 0 and 1 and ends at 1; when the
transfers conserve the energy, the flux ends at 0 and the sum at 1. -/
theorem C109_ns3d_ends (f : File3) {s : Key → ℕ → ℕ → ℕ → ℝ} (hs : Records3 f s) {tmin tmax : Option ℝ} {i0 i1 : ℕ}
    (hr : IsRange f.times tmin tmax i0 i1) (h : i0 ≤ i1) (h1 : i1 < f.times.length) (d : Dir) {n : ℕ} (hn : f.number d = n + 1)
    (hz : 0 ≤ f.kz 1) (hh : 0 ≤ f.kh 1) :
    let T := fun z h => mean3 (s .transferKh) i0 i1 z h + mean3 (s .transferKz) i0 i1 z h
    let D := fun z h => mean3 (s .dissKh) i0 i1 z h + mean3 (s .dissKz) i0 i1 z h
    (∀ z < f.nz, ∀ h < f.nh, 0 ≤ D z h) → within f d D n ≠ 0 → within f d T n = 0 →
    ∃ F, plotFluxes f tmin tmax d = .ok (some F) ∧ F.D.Pairwise (· ≤ ·) ∧ (∀ x ∈ F.D, 0 ≤ x ∧ x ≤ 1) ∧ F.D[n]? = some 1 ∧
      F.flux[n]? = some 0 ∧ F.sum[n]? = some 1 := by
  intro T D hpos hD hT
  obtain ⟨F, e, e1, e2, e3, -⟩ := C109_ns3d f hs hr h h1 d hn hD
  have hnn : n < f.number d := by omega
  have hp : 0 < within f d D n := lt_of_le_of_ne (within_nonneg f d hz hh hpos hnn) (Ne.symm hD)
  refine ⟨F, e, ?_, ?_, ?_, ?_, ?_⟩
  · rw [e2, List.pairwise_map]
    refine List.pairwise_lt_range.imp_of_mem fun {a b} ha hb hab => ?_
    exact div_le_div_of_nonneg_right (within_mono f d hz hh hpos hab.le (by rw [hn]; exact List.mem_range.1 hb)) hp.le
  · intro x hx
    rw [e2, List.mem_map] at hx
    obtain ⟨i, hi, rfl⟩ := hx
    have hi := List.mem_range.1 hi
    exact ⟨div_nonneg (within_nonneg f d hz hh hpos (by omega)) hp.le, (div_le_one hp).2 (within_mono f d hz hh hpos (by omega) hnn)⟩
  · rw [e2, List.getElem?_map, List.getElem?_range (by omega), Option.map_some, div_self hD]
  · rw [e1, List.getElem?_map, List.getElem?_range (by omega), Option.map_some]
    simp only [T] at hT
    rw [hT, neg_zero, zero_div]
  · rw [e3, List.getElem?_map, List.getElem?_range (by omega), Option.map_some]
    simp only [T] at hT
    rw [hT, neg_zero, zero_add, div_self hD]

/-- C109 (ns3d): in a statistically stationary flow forced with the mean power `P` per shell, the dotted curve, flux plus dissipation, is the part of
the power which is injected in the shells up to `i`. -/
theorem C109_ns3d_injection (f : File3) {s : Key → ℕ → ℕ → ℕ → ℝ} (hs : Records3 f s) {tmin tmax : Option ℝ} {i0 i1 : ℕ}
    (hr : IsRange f.times tmin tmax i0 i1) (h : i0 ≤ i1) (h1 : i1 < f.times.length) (d : Dir) {n : ℕ} (hn : f.number d = n + 1)
    (P : ℕ → ℕ → ℝ) :
    let T := fun z h => mean3 (s .transferKh) i0 i1 z h + mean3 (s .transferKz) i0 i1 z h
    let D := fun z h => mean3 (s .dissKh) i0 i1 z h + mean3 (s .dissKz) i0 i1 z h
    (∀ z < f.nz, ∀ h < f.nh, T z h - D z h + P z h = 0) → within f d T n = 0 → within f d P n ≠ 0 →
    ∃ F, plotFluxes f tmin tmax d = .ok (some F) ∧ F.sum = (List.range (n + 1)).map fun i => within f d P i / within f d P n := by
  intro T D hb hT hP
  have e : ∀ i < n + 1, -within f d T i + within f d D i = within f d P i := by
    intro i hi
    rw [within_neg, within_add]
    exact within_congr f d (fun z hz h hh => by linarith [hb z hz h hh]) (by omega)
  have eD : within f d D n = within f d P n := by
    have := e n (by omega)
    rw [hT, neg_zero, zero_add] at this
    exact this
  obtain ⟨F, e0, -, -, e3, -⟩ := C109_ns3d f hs hr h h1 d hn (by rw [eD]; exact hP)
  refine ⟨F, e0, ?_⟩
  rw [e3]
  refine List.map_congr_left fun i hi => ?_
  have := e i (List.mem_range.1 hi)
  simp only [T, D] at this eD
  rw [this, eD]

/-- C109 (ns3d.strat): the curves of `plot_fluxes`: the same fluxes and dissipations for the kinetic, the potential and the total energies, and the
conversion in the shells up to `i`; all are divided by the total dissipation. -/
theorem C109_ns3d_strat (f : File3) {s : Key → ℕ → ℕ → ℕ → ℝ} (hs : Records3 f s) {tmin tmax : Option ℝ} {i0 i1 : ℕ}
    (hr : IsRange f.times tmin tmax i0 i1) (h : i0 ≤ i1) (h1 : i1 < f.times.length) (d : Dir) {n : ℕ} (hn : f.number d = n + 1) :
    let TK := fun z h => mean3 (s .transferKh) i0 i1 z h + mean3 (s .transferKz) i0 i1 z h
    let DK := fun z h => mean3 (s .dissKh) i0 i1 z h + mean3 (s .dissKz) i0 i1 z h
    let W := within f d
    let eps := W DK n + W (mean3 (s .dissA) i0 i1) n
    eps ≠ 0 →
    ∃ F, plotFluxesStrat f tmin tmax d = .ok (some F) ∧
      F.fluxK = (List.range (n + 1)).map (fun i => -W TK i / eps) ∧
      F.fluxA = (List.range (n + 1)).map (fun i => -W (mean3 (s .transferA) i0 i1) i / eps) ∧
      F.DK = (List.range (n + 1)).map (fun i => W DK i / eps) ∧
      F.DA = (List.range (n + 1)).map (fun i => W (mean3 (s .dissA) i0 i1) i / eps) ∧
      F.B = (List.range (n + 1)).map (fun i => W (mean3 (s .convK2A) i0 i1) i / eps) ∧
      F.flux = plus F.fluxK F.fluxA ∧ F.D = plus F.DK F.DA ∧ F.sum = plus F.flux F.D ∧ F.D[n]? = some 1 := by
  intro TK DK W eps heps
  have hne : f.times ≠ [] := by rintro e; rw [e] at h1; simp at h1
  have g := fun key => fluxMean_records f (range3_eq hr) h h1 (hs key) d
  have hc : within f d (mean3 (s .dissKh) i0 i1) n + within f d (mean3 (s .dissKz) i0 i1) n + within f d (mean3 (s .dissA) i0 i1) n = eps := by
    simp only [eps, W, DK, within_add]
  rw [plotFluxesStrat, if_neg hne]
  simp only [bind, Option.bind, g, plus_range, hn, last_range, Key.isTransfer, if_true, Bool.false_eq_true, if_false, one_mul, neg_one_mul, hc]
  rw [if_neg heps]
  refine ⟨_, rfl, ?_, ?_, ?_, ?_, ?_, ?_, ?_, ?_, ?_⟩
  · simp only [List.map_map]
    refine List.map_congr_left fun i _ => ?_
    simp only [Function.comp_apply, W, TK, ← within_add]
    ring
  · simp only [List.map_map]; rfl
  · simp only [List.map_map]
    refine List.map_congr_left fun i _ => ?_
    simp only [Function.comp_apply, W, DK, ← within_add]
  · simp only [List.map_map]; rfl
  · simp only [List.map_map]; rfl
  · simp only [List.map_map, plus_range]
    exact List.map_congr_left fun i _ => by simp only [Function.comp_apply]; ring
  · simp only [List.map_map, plus_range]
    exact List.map_congr_left fun i _ => by simp only [Function.comp_apply]; ring
  · simp only [List.map_map, plus_range]
    exact List.map_congr_left fun i _ => by simp only [Function.comp_apply]; ring
  · simp only [List.getElem?_map]
    rw [List.getElem?_range (by omega)]
    simp only [Option.map_some, hc, div_self heps]

/-- C109 (ns3d.strat): in a statistically stationary flow whose buoyancy is not forced, the flux of potential energy plus its dissipation is the
curve of the conversion; if the velocity is forced with the mean power `P` per shell, the dotted curve is the power injected up to `i`, divided by
the total dissipation. -/
theorem C109_ns3d_strat_stationary (f : File3) {s : Key → ℕ → ℕ → ℕ → ℝ} (hs : Records3 f s) {tmin tmax : Option ℝ} {i0 i1 : ℕ}
    (hr : IsRange f.times tmin tmax i0 i1) (h : i0 ≤ i1) (h1 : i1 < f.times.length) (d : Dir) {n : ℕ} (hn : f.number d = n + 1)
    (P : ℕ → ℕ → ℝ) :
    let TK := fun z h => mean3 (s .transferKh) i0 i1 z h + mean3 (s .transferKz) i0 i1 z h
    let DK := fun z h => mean3 (s .dissKh) i0 i1 z h + mean3 (s .dissKz) i0 i1 z h
    let W := within f d
    let eps := W DK n + W (mean3 (s .dissA) i0 i1) n
    eps ≠ 0 →
    (∀ z < f.nz, ∀ h < f.nh, TK z h - mean3 (s .convK2A) i0 i1 z h - DK z h + P z h = 0) →
    (∀ z < f.nz, ∀ h < f.nh, mean3 (s .transferA) i0 i1 z h + mean3 (s .convK2A) i0 i1 z h - mean3 (s .dissA) i0 i1 z h = 0) →
    ∃ F, plotFluxesStrat f tmin tmax d = .ok (some F) ∧ plus F.fluxA F.DA = F.B ∧ F.sum = (List.range (n + 1)).map fun i => W P i / eps := by
  intro TK DK W eps heps hK hA
  obtain ⟨F, e, e1, e2, e3, e4, e5, e6, e7, e8, -⟩ := C109_ns3d_strat f hs hr h h1 d hn heps
  have a : ∀ i < n + 1, -W (mean3 (s .transferA) i0 i1) i + W (mean3 (s .dissA) i0 i1) i = W (mean3 (s .convK2A) i0 i1) i := by
    intro i hi
    simp only [W]
    rw [within_neg, within_add]
    exact within_congr f d (fun z hz h hh => by linarith [hA z hz h hh]) (by omega)
  have b : ∀ i < n + 1, -W TK i + W DK i = W P i + -W (mean3 (s .convK2A) i0 i1) i := by
    intro i hi
    simp only [W]
    rw [within_neg, within_add, within_neg, within_add]
    exact within_congr f d (fun z hz h hh => by linarith [hK z hz h hh]) (by omega)
  refine ⟨F, e, ?_, ?_⟩
  · rw [e2, e4, e5, plus_range]
    refine List.map_congr_left fun i hi => ?_
    have := a i (List.mem_range.1 hi)
    rw [← add_div]
    exact congrArg (· / eps) this
  · rw [e8, e6, e7, e1, e2, e3, e4, plus_range, plus_range, plus_range]
    refine List.map_congr_left fun i hi => ?_
    have ha := a i (List.mem_range.1 hi)
    have hb := b i (List.mem_range.1 hi)
    rw [← add_div, ← add_div, ← add_div]
    refine congrArg (· / eps) ?_
    linarith

/-- Two records of a stationary flow with three wavenumbers `kh` and one `kz`: 2 injected at `kh = 1`, of which 1 goes to `kh = 2`. -/
noncomputable def exFile3 : File3 where
  times := [0, 1]
  nz := 1
  nh := 3
  kz := fun i => i
  kh := fun i => i
  data := fun key => (List.range 2).map fun _ _ h => match key with
    | .transferKh => if h = 1 then -1 else if h = 2 then 1 else 0
    | .dissKh => if h = 1 then 1 else if h = 2 then 1 else 0
    | _ => 0

/-- The records of `exFile3`. -/
noncomputable def exRecords (key : Key) (_ _ h : ℕ) : ℝ := match key with
  | .transferKh => if h = 1 then -1 else if h = 2 then 1 else 0
  | .dissKh => if h = 1 then 1 else if h = 2 then 1 else 0
  | _ => 0

theorem exFile3_mean (key : Key) (z h : ℕ) : mean3 (exRecords key) 0 1 z h = exRecords key 0 z h := by
  rw [mean3, sum_congr rfl fun j _ => show exRecords key j z h = exRecords key 0 z h from rfl, sum_const]
  simp

example : Records3 exFile3 exRecords ∧ IsRange exFile3.times none none 0 1 ∧ exFile3.number .h = 2 + 1 ∧
    (∀ z < 1, ∀ h < 3, (mean3 (exRecords .transferKh) 0 1 z h + mean3 (exRecords .transferKz) 0 1 z h)
      - (mean3 (exRecords .dissKh) 0 1 z h + mean3 (exRecords .dissKz) 0 1 z h) + (if h = 1 then 2 else 0) = 0) ∧
    within exFile3 .h (fun z h => mean3 (exRecords .transferKh) 0 1 z h + mean3 (exRecords .transferKz) 0 1 z h) 2 = 0 ∧
    within exFile3 .h (fun _ h => if h = 1 then 2 else 0) 2 ≠ 0 := by
  refine ⟨fun key => rfl, ⟨fun _ => rfl, by simp, fun _ => rfl, by simp⟩, rfl, ?_, ?_, ?_⟩
  · intro z _ h hh
    simp only [exFile3_mean, exRecords]
    split_ifs <;> first | omega | norm_num
  · simp [within, withinH, exFile3_mean, exRecords, exFile3, sum_range_succ]
  · simp [within, withinH, exFile3, sum_range_succ]

/-! ### ns2d.strat -/

/-- C109 (ns2d.strat): for the wavenumbers number 1 to `n` of `n + 2`, the flux is what the wavenumbers from `i` to `n` receive and the curve of the
dissipation what is dissipated in the wavenumbers 1 to `i`. If the transfer conserves the energy and is zero at the last wavenumber, the flux is what
the wavenumbers before `i` lose. What is missing: the first and the last wavenumbers. -/
theorem C109_strat_partial {n : ℕ} {k : ℕ → ℝ} (hk : ((List.range (n + 2)).map k).Pairwise (· < ·)) (kmax dk : ℝ) (T D : ℕ → ℝ) :
    fluxesStrat2d ((List.range (n + 2)).map k) kmax dk ((List.range (n + 2)).map T) ((List.range (n + 2)).map D)
      = ((List.range n).map (fun i => k (i + 1)), (List.range n).map (fun i => (∑ j ∈ Ico (i + 1) (n + 1), T j) * dk),
        (List.range n).map fun i => (∑ j ∈ Ico 1 (i + 2), D j) * dk) ∧
    (∑ j ∈ range (n + 2), T j = 0 → T (n + 1) = 0 → ∀ i < n,
      ∑ j ∈ Ico (i + 1) (n + 1), T j = -∑ j ∈ range (i + 1), T j) := by
  have hdrop : ∀ g : ℕ → ℝ, (((List.range (n + 2)).map g).dropLast).drop 1 = (List.range n).map fun i => g (i + 1) := by
    intro g
    rw [List.range_succ, List.map_append, List.map_singleton, List.dropLast_concat, List.range_succ_eq_map, List.map_cons, List.drop_succ_cons,
      List.drop_zero, List.map_map]
    rfl
  constructor
  · simp only [fluxesStrat2d, idDealiasing_eq hk, pyTake_last, hdrop]
    refine Prod.ext rfl (Prod.ext ?_ ?_)
    · refine List.ext_getElem? fun i => ?_
      by_cases hi : i < n
      · rw [List.getElem?_map, cumsumInv_get _ (by simpa using hi), List.getElem?_map, List.getElem?_range hi, Option.map_some, Option.map_some]
        congr 2
        have h1 := List.sum_take_add_sum_drop ((List.range n).map fun i => T (i + 1)) i
        rw [take_map_range _ hi.le, sum_map_range] at h1
        have h2 := sum_range_add_sum_Ico (fun j => T (j + 1)) hi.le
        rw [← sum_Ico_add' T i n 1]
        linarith
      · rw [List.getElem?_eq_none (by simp [cumsumInv, cumsum, cumsumFrom_length]; omega), List.getElem?_eq_none (by simp; omega)]
    · refine List.ext_getElem? fun i => ?_
      by_cases hi : i < n
      · rw [List.getElem?_map, cumsum_get _ (by simpa using hi), List.getElem?_map, List.getElem?_range hi, Option.map_some, Option.map_some,
          take_map_range _ hi]
        congr 2
        rw [range_eq_Ico, sum_Ico_add' D 0 (i + 1) 1]
      · rw [List.getElem?_eq_none (by simp [cumsum, cumsumFrom_length]; omega), List.getElem?_eq_none (by simp; omega)]
  · intro h0 hl i hi
    rw [sum_range_succ, hl, add_zero] at h0
    have := sum_range_add_sum_Ico T (show i + 1 ≤ n + 1 by omega)
    linarith

/-- C109 (violated): the largest wavenumber which is kept does not change the figure: all the wavenumbers but the last one are drawn. -/
theorem C109_strat_dealiasing_violated {n : ℕ} {k : ℕ → ℝ} (hk : ((List.range (n + 2)).map k).Pairwise (· < ·)) (kmax kmax' dk : ℝ)
    (T D : ℕ → ℝ) :
    fluxesStrat2d ((List.range (n + 2)).map k) kmax dk ((List.range (n + 2)).map T) ((List.range (n + 2)).map D)
      = fluxesStrat2d ((List.range (n + 2)).map k) kmax' dk ((List.range (n + 2)).map T) ((List.range (n + 2)).map D) ∧
      ∀ i < n, k (i + 1) ∈ (fluxesStrat2d ((List.range (n + 2)).map k) kmax dk ((List.range (n + 2)).map T) ((List.range (n + 2)).map D)).1 := by
  rw [(C109_strat_partial hk kmax dk T D).1, (C109_strat_partial hk kmax' dk T D).1]
  exact ⟨rfl, fun i hi => List.mem_map.2 ⟨i, List.mem_range.2 hi, rfl⟩⟩

/-- C109 (violated): the dissipation of the modes `kx = 0` is not counted: if all the energy is dissipated there, the curve of the dissipation is
zero. -/
theorem C109_strat_zero_violated {n : ℕ} {k : ℕ → ℝ} (hk : ((List.range (n + 2)).map k).Pairwise (· < ·)) (kmax dk eps : ℝ) (T : ℕ → ℝ) :
    ∀ x ∈ (fluxesStrat2d ((List.range (n + 2)).map k) kmax dk ((List.range (n + 2)).map T)
      ((List.range (n + 2)).map fun j => if j = 0 then eps else 0)).2.2, x = 0 := by
  rw [(C109_strat_partial hk kmax dk T _).1]
  intro x hx
  obtain ⟨i, -, rfl⟩ := List.mem_map.1 hx
  rw [sum_eq_zero, zero_mul]
  intro j hj
  rw [if_neg (by have := (mem_Ico.1 hj).1; omega)]

example : ((List.range 6).map fun i : ℕ => (i : ℝ)).Pairwise (· < ·) := by
  rw [List.pairwise_map]
  exact List.pairwise_lt_range.imp fun h => by exact_mod_cast h

end Verif.BudgetFigs
