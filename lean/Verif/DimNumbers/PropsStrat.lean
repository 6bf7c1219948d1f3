import Verif.DimNumbers.Props

/-! # C88: the numbers of ns3d.strat, their invariance and their averages -/

namespace Verif.DimNumbers

open Verif.SpatialMeans Verif.Fourier Verif.Energy Verif.Vectors Verif.SpectBudget Verif.Galerkin
open Finset

set_option linter.unusedSectionVars false

noncomputable section
open Classical

/-- **C88** (ns3d.strat) Written with a velocity `U`, `U² = Uh2`, and the length `L = U³ / epsK`: `Fh`
is the horizontal Froude number `U / (L N)`, each buoyancy Reynolds number is `Re_n Fh^n` with
`Re_n = U L^(n - 1) / nu_n` for `n = 2, 4, 8`, present only if `nu_n` is not zero, and `Gamma` is the
ratio of the dissipations of potential and kinetic energies. -/
theorem C88_strat_numbers (p : Pars) (d : Data) (r : NumbersStrat) (U : ℝ)
    (h : ns3dStrat p d = .ok r) (hN : 0 < p.N) (hU : 0 < U) (hU2 : r.base.Uh2 = U ^ 2)
    (heps : 0 < r.base.epsK) :
    let L := U ^ 3 / r.base.epsK
    let Fh := U / (L * p.N)
    r.Fh = some Fh ∧
      r.R2 = (if p.nu2 = 0 then none else some (some (U * L / p.nu2 * Fh ^ 2))) ∧
      r.R4 = (if p.nu4 = 0 then none else some (some (U * L ^ 3 / p.nu4 * Fh ^ 4))) ∧
      r.R8 = (if p.nu8 = 0 then none else some (some (U * L ^ 7 / p.nu8 * Fh ^ 8))) ∧
      d "epsA" = some r.epsA ∧ r.Gamma = some (r.epsA / r.base.epsK) := by
  intro L Fh
  unfold ns3dStrat at h
  split at h
  · cases h
  · rename_i b hb
    split at h
    · cases h
    · rename_i epsA hA
      split at h
      · cases h
      · rename_i EA hEA
        simp only [Except.ok.injEq] at h
        subst h
        simp only at hU2 heps ⊢
        have hn := hN.ne'
        have he := heps.ne'
        have hu := hU.ne'
        refine ⟨?_, ?_, ?_, ?_, ?_, ?_⟩
        · rw [ratio, hU2, if_neg (by positivity)]
          simp only [Fh, L]
          congr 1
          field_simp
        · by_cases h0 : p.nu2 = 0
          · simp [h0]
          · rw [if_pos h0, if_neg h0, ratio, if_neg (by positivity)]
            simp only [Fh, L]
            congr 2
            field_simp
        · by_cases h0 : p.nu4 = 0
          · simp [h0]
          · rw [if_pos h0, if_neg h0, ratio, hU2, if_neg (by positivity)]
            simp only [Fh, L]
            congr 2
            field_simp
        · by_cases h0 : p.nu8 = 0
          · simp [h0]
          · rw [if_pos h0, if_neg h0, ratio, hU2, if_neg (by positivity)]
            simp only [Fh, L]
            congr 2
            field_simp
        · unfold get at hA
          split at hA
          · rename_i x hx
            cases hA
            exact hx
          · cases hA
        · rw [ratio, if_neg he]

/-- **C88** (ns3d.strat) From a state: the energies and dissipations behind these numbers are those of
the velocity and of the buoyancy of the state. -/
theorem C88_strat_state {S : Finset (Fin 3 → ℤ)} {δ : Fin 3 → ℝ} (hδ : ∀ d, δ d ≠ 0) (N : ℝ)
    (nu : Dissip.Nu) (hnu : 0 ≤ nu.nu2 ∧ 0 ≤ nu.nu4 ∧ 0 ≤ nu.nu8) (fdHypo : (Fin 3 → ℤ) → ℝ) (dt : ℝ)
    (v F : (Fin 3 → ℤ) → V3) (b Fb : Fld (Fin 3)) (Lz coef : ℝ) (nz : ℕ) :
    let fd := fun k => Dissip.fd nu (K2 δ k)
    let e := fun k => energy1 (v k).x + energy1 (v k).y + energy1 (v k).z
    let M := ns3dStratMeans S δ N fd fdHypo dt v F b Fb
    ∃ r, ns3dStrat ⟨nu.nu2, nu.nu4, nu.nu8, N, Lz, nz, coef⟩
        (loadedStrat M (hyper S nu.nu4 (fun k => K2 δ k ^ 2) e)
          (hyper S nu.nu8 (fun k => (K2 δ k ^ 2) ^ 2) e)) = .ok r ∧
      r.base.EKh = ∑ k ∈ S, (‖(v k).x‖ ^ 2 + ‖(v k).y‖ ^ 2) / 2 ∧ r.base.Uh2 = r.base.EKh ∧
      r.base.EKz = ∑ k ∈ S, ‖(v k).z‖ ^ 2 / 2 ∧
      r.base.epsK = ∑ k ∈ S, fd k * sq v k ∧
      r.EA = (∑ k ∈ S, ‖b k‖ ^ 2 / 2) / N ^ 2 ∧
      r.epsA = (∑ k ∈ S, fd k * ‖b k‖ ^ 2) / N ^ 2 := by
  intro fd e M
  obtain ⟨h1, h2, h3, -, -, -, -⟩ := C59_ns3dstrat_energies (S := S) hδ N fd fdHypo dt v F b Fb
  have hE : M.E = M.EA + M.EKz + M.EKhr + M.EKhd + M.EKhs := rfl
  have hy4 : addHyper (loadedStrat M (hyper S nu.nu4 (fun k => K2 δ k ^ 2) e)
      (hyper S nu.nu8 (fun k => (K2 δ k ^ 2) ^ 2) e)) nu.nu4 "epsK4" 0
      = .ok ((hyper S nu.nu4 (fun k => K2 δ k ^ 2) e).getD 0) := by
    by_cases h0 : nu.nu4 = 0
    · simp [addHyper, h0, hyper]
    · have hpos : 0 < nu.nu4 := lt_of_le_of_ne hnu.2.1 (Ne.symm h0)
      simp [addHyper, h0, get, loadedStrat, hyper, hpos]
  have hy8 : ∀ x, addHyper (loadedStrat M (hyper S nu.nu4 (fun k => K2 δ k ^ 2) e)
      (hyper S nu.nu8 (fun k => (K2 δ k ^ 2) ^ 2) e)) nu.nu8 "epsK8" x
      = .ok (x + (hyper S nu.nu8 (fun k => (K2 δ k ^ 2) ^ 2) e).getD 0) := by
    intro x
    by_cases h0 : nu.nu8 = 0
    · simp [addHyper, h0, hyper]
    · have hpos : 0 < nu.nu8 := lt_of_le_of_ne hnu.2.2 (Ne.symm h0)
      simp [addHyper, h0, get, loadedStrat, hyper, hpos]
  set d := loadedStrat M (hyper S nu.nu4 (fun k => K2 δ k ^ 2) e)
      (hyper S nu.nu8 (fun k => (K2 δ k ^ 2) ^ 2) e) with hd
  have hen : energies d = .ok (M.EKhr + M.EKhd + M.EKhs, M.EKz) := by
    simp [hd, energies, get, loadedStrat]
  have hek : get d "epsK" = .ok M.epsK := by simp [hd, get, loadedStrat]
  have hea : get d "epsA" = .ok M.epsA := by simp [hd, get, loadedStrat]
  have hEA : get d "EA" = .ok M.EA := by simp [hd, get, loadedStrat]
  refine ⟨_, by rw [ns3dStrat, ns3d, hen]; simp only [hek, hea, hEA, hy4, hy8]; rfl, ?_, rfl, h3, ?_,
    h2, ?_⟩
  · show M.EKhr + M.EKhd + M.EKhs = _
    have h1' : M.E = ∑ k ∈ S, ((‖(v k).x‖ ^ 2 + ‖(v k).y‖ ^ 2 + ‖(v k).z‖ ^ 2) / 2
      + ‖b k‖ ^ 2 / 2 / N ^ 2) := h1
    have h2' : M.EA = (∑ k ∈ S, ‖b k‖ ^ 2 / 2) / N ^ 2 := h2
    have h3' : M.EKz = ∑ k ∈ S, ‖(v k).z‖ ^ 2 / 2 := h3
    have : M.EKhr + M.EKhd + M.EKhs = M.E - M.EA - M.EKz := by rw [hE]; ring
    rw [this, h1', h2', h3', sum_div, ← sum_sub_distrib, ← sum_sub_distrib]
    exact sum_congr rfl fun k _ => by ring
  · show M.epsK = _
    simp only [M, ns3dStratMeans, diss]
    refine sum_congr rfl fun k _ => ?_
    have := eK_eq δ v k
    rw [this]
    simp only [sq, energy1]
    ring
  · show M.epsA = _
    simp only [M, ns3dStratMeans, diss]
    rw [sum_div]
    exact sum_congr rfl fun k _ => by ring

/-! ### Units -/

/-- The same record with other units: `a` and `b` are the ratios of the units of time and length. -/
def rescale (a b : ℝ) (d : Data) : Data := fun s =>
  if s = "epsK" ∨ s = "epsA" ∨ s = "epsK4" ∨ s = "epsK8" then (d s).map fun x => b ^ 2 / a ^ 3 * x
  else (d s).map fun x => b ^ 2 / a ^ 2 * x

/-- The same parameters with other units. -/
def rescalePars (a b : ℝ) (p : Pars) : Pars :=
  { nu2 := b ^ 2 / a * p.nu2, nu4 := b ^ 4 / a * p.nu4, nu8 := b ^ 8 / a * p.nu8, N := p.N / a,
    Lz := b * p.Lz, nz := p.nz, coefDealiasing := p.coefDealiasing }

theorem get_rescale_eps {a b : ℝ} {d : Data} {s : String}
    (hs : s = "epsK" ∨ s = "epsA" ∨ s = "epsK4" ∨ s = "epsK8") :
    get (rescale a b d) s = (get d s).map fun x => b ^ 2 / a ^ 3 * x := by
  unfold get rescale
  rw [if_pos hs]
  cases d s <;> rfl

theorem get_rescale {a b : ℝ} {d : Data} {s : String}
    (hs : ¬(s = "epsK" ∨ s = "epsA" ∨ s = "epsK4" ∨ s = "epsK8")) :
    get (rescale a b d) s = (get d s).map fun x => b ^ 2 / a ^ 2 * x := by
  unfold get rescale
  rw [if_neg hs]
  cases d s <;> rfl

theorem ratio_scale {c x y : ℝ} (hc : c ≠ 0) : ratio (c * x) (c * y) = ratio x y := by
  unfold ratio
  by_cases hy : y = 0
  · simp [hy]
  · rw [if_neg hy, if_neg (mul_ne_zero hc hy), mul_div_mul_left _ _ hc]

theorem energies_rescale (a b : ℝ) (d : Data) :
    energies (rescale a b d)
      = (energies d).map fun x => (b ^ 2 / a ^ 2 * x.1, b ^ 2 / a ^ 2 * x.2) := by
  unfold energies
  rw [get_rescale (s := "Ex") (by decide), get_rescale (s := "Ey") (by decide),
    get_rescale (s := "Ez") (by decide), get_rescale (s := "EKhr") (by decide),
    get_rescale (s := "EKhd") (by decide), get_rescale (s := "EKhs") (by decide),
    get_rescale (s := "EKz") (by decide)]
  cases get d "Ex" <;> cases get d "Ey" <;> cases get d "Ez" <;> cases get d "EKhr" <;>
    cases get d "EKhd" <;> cases get d "EKhs" <;> cases get d "EKz" <;>
    simp [Except.map] <;> ring

theorem addHyper_rescale {a b : ℝ} {d : Data} {s : String} {nu c x : ℝ} (hc : c ≠ 0)
    (hs : s = "epsK" ∨ s = "epsA" ∨ s = "epsK4" ∨ s = "epsK8") :
    addHyper (rescale a b d) (c * nu) s (b ^ 2 / a ^ 3 * x)
      = (addHyper d nu s x).map fun y => b ^ 2 / a ^ 3 * y := by
  unfold addHyper
  by_cases h : nu = 0
  · simp [h, Except.map]
  · simp only [ne_eq, mul_eq_zero, hc, h, or_self, not_false_eq_true, if_true]
    rw [get_rescale_eps hs]
    cases get d s <;> simp [Except.map]
    ring

theorem root4_scale {b x : ℝ} (hb : 0 < b) : root4 (b ^ 4 * x) = (root4 x).map fun y => b * y := by
  unfold root4
  by_cases hx : x < 0
  · rw [if_pos hx, if_pos (mul_neg_of_pos_of_neg (by positivity) hx)]; rfl
  · rw [if_neg hx, if_neg (by rw [not_lt] at hx ⊢; positivity)]
    rw [not_lt] at hx
    rw [Real.mul_rpow (by positivity) hx, ← Real.rpow_natCast b 4, ← Real.rpow_mul hb.le]
    norm_num

theorem etaOf_rescale {a b : ℝ} (ha : 0 < a) (hb : 0 < b) (p : Pars) (e : ℝ) :
    etaOf (rescalePars a b p) (b ^ 2 / a ^ 3 * e) = (etaOf p e).map fun y => b * y := by
  unfold etaOf rescalePars
  simp only
  have : ratio ((b ^ 2 / a * p.nu2) ^ 3) (b ^ 2 / a ^ 3 * e)
      = (ratio (p.nu2 ^ 3) e).map fun y => b ^ 4 * y := by
    unfold ratio
    by_cases he : e = 0
    · simp [he]
    · rw [if_neg he, if_neg (by positivity)]
      simp only [Option.map_some, Option.some.injEq]
      field_simp
  rw [this]
  cases ratio (p.nu2 ^ 3) e with
  | none => rfl
  | some x => exact root4_scale hb

/-- **C88** The numbers announced as dimensionless do not depend on the units of time and length:
with all the dimensional quantities of the records and of the parameters converted, the same
numbers (and the same errors) are returned. -/
theorem C88_dimensionless {a b : ℝ} (ha : 0 < a) (hb : 0 < b) (p : Pars) (d : Data) :
    match ns3dStrat p d, ns3dStrat (rescalePars a b p) (rescale a b d) with
    | .ok r, .ok r' => r'.Fh = r.Fh ∧ r'.R2 = r.R2 ∧ r'.R4 = r.R4 ∧ r'.R8 = r.R8 ∧
        r'.Gamma = r.Gamma ∧ r'.base.kMaxEta = r.base.kMaxEta ∧
        r'.base.fracEpsK2 = r.base.fracEpsK2
    | .error e, .error e' => e = e'
    | _, _ => False := by
  have hc : b ^ 2 / a ^ 3 ≠ 0 := by positivity
  unfold ns3dStrat ns3d
  rw [energies_rescale]
  cases energies d with
  | error e => rfl
  | ok x =>
    obtain ⟨EKh, EKz⟩ := x
    simp only [Except.map]
    rw [get_rescale_eps (s := "epsK") (by decide)]
    cases get d "epsK" with
    | error e => rfl
    | ok eps =>
      simp only [Except.map]
      have r4 := addHyper_rescale (a := a) (b := b) (d := d) (s := "epsK4") (nu := p.nu4)
        (c := b ^ 4 / a) (x := 0) (by positivity) (by decide)
      rw [mul_zero] at r4
      have e4 : (rescalePars a b p).nu4 = b ^ 4 / a * p.nu4 := rfl
      have e8 : (rescalePars a b p).nu8 = b ^ 8 / a * p.nu8 := rfl
      rw [e4, r4]
      cases addHyper d p.nu4 "epsK4" 0 with
      | error e => rfl
      | ok h =>
        simp only [Except.map]
        rw [e8, addHyper_rescale (by positivity) (by decide)]
        cases addHyper d p.nu8 "epsK8" h with
        | error e => rfl
        | ok hy =>
          simp only [Except.map]
          rw [get_rescale_eps (s := "epsA") (by decide)]
          cases get d "epsA" with
          | error e => rfl
          | ok epsA =>
            simp only [Except.map]
            rw [get_rescale (s := "EA") (by decide)]
            cases get d "EA" with
            | error e => rfl
            | ok EA =>
              simp only [Except.map]
              have z : ∀ (c x : ℝ), c ≠ 0 → (c * x = 0 ↔ x = 0) := by
                intro c x hc
                simp [hc]
              have z2 : (rescalePars a b p).nu2 = 0 ↔ p.nu2 = 0 := z _ _ (by positivity)
              have z4 : b ^ 4 / a * p.nu4 = 0 ↔ p.nu4 = 0 := z _ _ (by positivity)
              have z8 : b ^ 8 / a * p.nu8 = 0 ↔ p.nu8 = 0 := z _ _ (by positivity)
              simp only [ne_eq, z2, z4, z8]
              refine ⟨?_, ?_, ?_, ?_, ?_, ?_, ?_⟩
              · rw [show b ^ 2 / a ^ 2 * EKh * (rescalePars a b p).N
                  = b ^ 2 / a ^ 3 * (EKh * p.N) by
                    simp only [rescalePars]; field_simp]
                exact ratio_scale hc
              · have : ratio (b ^ 2 / a ^ 3 * eps)
                    ((rescalePars a b p).nu2 * (rescalePars a b p).N ^ 2)
                    = ratio eps (p.nu2 * p.N ^ 2) := by
                  rw [show (rescalePars a b p).nu2 * (rescalePars a b p).N ^ 2
                    = b ^ 2 / a ^ 3 * (p.nu2 * p.N ^ 2) by
                      simp only [rescalePars]; field_simp]
                  exact ratio_scale hc
                rw [this]
              · have : ratio (b ^ 2 / a ^ 3 * eps * (b ^ 2 / a ^ 2 * EKh))
                    (b ^ 4 / a * p.nu4 * (rescalePars a b p).N ^ 4)
                    = ratio (eps * EKh) (p.nu4 * p.N ^ 4) := by
                  rw [show b ^ 4 / a * p.nu4 * (rescalePars a b p).N ^ 4
                    = b ^ 4 / a ^ 5 * (p.nu4 * p.N ^ 4) by
                      simp only [rescalePars]; field_simp,
                    show b ^ 2 / a ^ 3 * eps * (b ^ 2 / a ^ 2 * EKh)
                    = b ^ 4 / a ^ 5 * (eps * EKh) by field_simp]
                  exact ratio_scale (by positivity)
                rw [this]
              · have : ratio (b ^ 2 / a ^ 3 * eps * (b ^ 2 / a ^ 2 * EKh) ^ 3)
                    (b ^ 8 / a * p.nu8 * (rescalePars a b p).N ^ 8)
                    = ratio (eps * EKh ^ 3) (p.nu8 * p.N ^ 8) := by
                  rw [show b ^ 8 / a * p.nu8 * (rescalePars a b p).N ^ 8
                    = b ^ 8 / a ^ 9 * (p.nu8 * p.N ^ 8) by
                      simp only [rescalePars]; field_simp,
                    show b ^ 2 / a ^ 3 * eps * (b ^ 2 / a ^ 2 * EKh) ^ 3
                    = b ^ 8 / a ^ 9 * (eps * EKh ^ 3) by field_simp]
                  exact ratio_scale (by positivity)
                rw [this]
              · exact ratio_scale hc
              · rw [etaOf_rescale ha hb]
                have : scale (kMax (rescalePars a b p)) ((etaOf p eps).map fun y => b * y)
                    = scale (kMax p) (etaOf p eps) := by
                  cases etaOf p eps with
                  | none => rfl
                  | some y =>
                    simp only [scale, Option.map_some, Option.some.injEq, kMax, rescalePars]
                    by_cases hL : p.Lz = 0
                    · simp [hL]
                    · field_simp
                rw [this]
              · rw [← mul_sub, ratio_scale hc]

/-- The record of a flow with horizontal energies 1 and 1, and dissipations 2 and 1. -/
def exData : Data := fun s =>
  if s = "EKhr" then some 1 else if s = "EKhd" then some 0 else if s = "EKhs" then some 1
  else if s = "EKz" then some 1 else if s = "epsK" then some 2 else if s = "epsA" then some 1
  else if s = "EA" then some 1 else if s = "epsK4" then some 1 else none

/-- **C88** non-vacuity of `C88_strat_numbers` and `C88_dimensionless`: with a viscosity and a
hyperviscosity the numbers of `exData` are computed and positive. -/
example : ∃ r, ns3dStrat ⟨1, 1, 0, 1, 1, 8, 1⟩ exData = .ok r ∧ r.base.Uh2 = 2 ∧ r.base.epsK = 2 ∧
    r.Fh = some 1 ∧ r.base.fracEpsK2 = some (some (1 / 2)) := by
  refine ⟨_, by simp [ns3dStrat, ns3d, energies, get, addHyper, exData]; rfl, ?_, rfl, ?_, ?_⟩
  · norm_num
  · norm_num [ratio]
  · norm_num [ratio]

/-- **C88** non-vacuity of `C88_average_rest_violated`: the record of a fluid at rest. -/
example : ∃ r, ns3dStrat ⟨1, 0, 0, 1, 1, 8, 1⟩ (fun _ => some 0) = .ok r ∧ r.base.Uh2 = 0 ∧
    r.base.epsK = 0 := by
  refine ⟨_, by simp [ns3dStrat, ns3d, energies, get, addHyper]; rfl, ?_, rfl⟩
  norm_num

/-! ### Averages -/

theorem mean_none {l : List (Option ℝ)} (h : none ∈ l) : mean l = none := by
  have : l.mapM id = none := by
    induction l with
    | nil => simp at h
    | cons x l ih =>
      cases x with
      | none => rfl
      | some x =>
        have h' : none ∈ l := by simpa using h
        simp [ih h']
  simp [mean, this]

/-- **C88** The average of a quantity which is finite for all the selected records is the arithmetic
mean of its values. -/
theorem C88_average_partial (xs : List ℝ) (h : xs ≠ []) :
    mean (xs.map some) = some (xs.sum / xs.length) := by
  have : (xs.map some).mapM id = some xs := by
    induction xs with
    | nil => rfl
    | cons x l ih =>
      by_cases hl : l = []
      · subst hl; rfl
      · simp [ih hl]
  simp [mean, this, h]

/-- **C88** Without selected record (`tmin` after the last one) the average is `nan`. -/
theorem C88_average_empty : mean [] = none := by
  simp [mean]

/-- **C88** (finding) One record of a fluid at rest among the averaged ones (the initial state, with
the default `tmin=0`) makes the averaged `Fh` and `Gamma` `nan`, whatever the other records. -/
theorem C88_average_rest_violated (p : Pars) (d : Data) (r : NumbersStrat)
    (h : ns3dStrat p d = .ok r) (hU : r.base.Uh2 = 0) (he : r.base.epsK = 0)
    (rs : List NumbersStrat) (hr : r ∈ rs) :
    mean (rs.map NumbersStrat.Fh) = none ∧ mean (rs.map NumbersStrat.Gamma) = none := by
  unfold ns3dStrat at h
  split at h
  · cases h
  · split at h
    · cases h
    · split at h
      · cases h
      · simp only [Except.ok.injEq] at h
        subst h
        simp only at hU he
        constructor
        · refine mean_none (List.mem_map.2 ⟨_, hr, ?_⟩)
          simp [hU, ratio]
        · refine mean_none (List.mem_map.2 ⟨_, hr, ?_⟩)
          simp [he, ratio]

/-! ### The largest wavenumber -/

/-- The largest wavenumber kept along a direction with `n` points and length `L`. -/
def kMaxOf (coef L : ℝ) (n : ℕ) : ℝ := coef * (Real.pi * n / L)

/-- **C88** `k_max` is the largest wavenumber kept along `z`, so that it is the smallest of the largest
wavenumbers kept along the directions if and only if the cells are not larger in the other directions. -/
theorem C88_k_max_partial (p : Pars) (Lx : ℝ) (nx : ℕ) (hc : 0 < p.coefDealiasing) (hL : 0 < p.Lz)
    (hLx : 0 < Lx) (hn : 0 < p.nz) (hnx : 0 < nx) :
    kMax p = kMaxOf p.coefDealiasing p.Lz p.nz ∧
      (kMax p ≤ kMaxOf p.coefDealiasing Lx nx ↔ Lx / nx ≤ p.Lz / p.nz) := by
  have e : kMax p = kMaxOf p.coefDealiasing p.Lz p.nz := by
    simp only [kMax, kMaxOf]
    field_simp
  refine ⟨e, ?_⟩
  rw [e]
  have hpi := Real.pi_pos
  have h1 : (0 : ℝ) < p.nz := by exact_mod_cast hn
  have h2 : (0 : ℝ) < nx := by exact_mod_cast hnx
  simp only [kMaxOf]
  rw [mul_le_mul_iff_right₀ hc, div_le_div_iff₀ hL hLx, div_le_div_iff₀ h2 h1, mul_assoc, mul_assoc,
    mul_le_mul_iff_right₀ hpi, mul_comm (p.nz : ℝ) Lx]
  rw [mul_comm (nx : ℝ) p.Lz]

/-- **C88** (finding) With cells larger along `x` than along `z`, `k_max` is larger than the largest
wavenumber kept along `x`: the flow can be announced as resolved (`k_max*eta > 1`) while the wavenumbers
of the Kolmogorov scale are not in the grid along `x`. -/
theorem C88_k_max_violated :
    ∃ (p : Pars) (Lx : ℝ) (nx : ℕ) (eta : ℝ), 0 < p.Lz ∧ 0 < Lx ∧ 0 < nx ∧ 0 < eta ∧
      1 < kMax p * eta ∧ kMaxOf p.coefDealiasing Lx nx * eta < 1 := by
  have hpi := Real.pi_pos
  refine ⟨⟨1, 0, 0, 1, 1, 4, 1⟩, 1, 1, 1 / (2 * Real.pi), by norm_num, by norm_num, by norm_num,
    by positivity, ?_, ?_⟩
  · simp only [kMax]
    field_simp
    norm_num
  · simp only [kMaxOf]
    field_simp
    norm_num

end

end Verif.DimNumbers
