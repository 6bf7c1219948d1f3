import Verif.Spectra2d.PropsValues
import Verif.Spectra2d.Props

/-! # C65: creation of the files, averages with the default arguments, linear spectra of sw1l -/

set_option linter.unusedSectionVars false

namespace Verif.Spectra2d

open Verif.Fourier Verif.Energy Verif.Vectors Verif.Forcing Verif.Sw1l Verif.SpatialMeans Verif.Spectra Verif.PhysFiles Finset

section files

variable {R : Type*}

theorem createAll_keeps (r : R) : ∀ (m : ℕ) (d : Disk R) (i : ℕ) (l : List R), d[i]? = some (some l) →
    (createAll r m d)[i]? = some (some l)
  | 0, d, i, l, h => by simpa [createAll] using h
  | _ + 1, [], i, l, h => by simp at h
  | m + 1, none :: d, 0, l, h => by simp at h
  | m + 1, none :: d, i + 1, l, h => by
    simp only [createAll, List.getElem?_cons_succ] at h ⊢
    exact createAll_keeps r m d i l h
  | m + 1, some l' :: d, 0, l, h => by simpa [createAll] using h
  | m + 1, some l' :: d, i + 1, l, h => by
    simp only [createAll, List.getElem?_cons_succ] at h ⊢
    exact createAll_keeps r m d i l h

/-- C65: a start, complete or interrupted, without the first file loses no record of the other files. -/
theorem C65_start_keeps (r : R) (m : ℕ) (d : Disk R) (h0 : d[0]? ≠ none → d[0]? = some none) (i : ℕ) (l : List R)
    (h : d[i]? = some (some l)) : (initFiles r m d).1[i]? = some (some l) := by
  have e : initFiles r m d = (createAll r m d, none) := by
    rcases d with _ | ⟨_ | l, d⟩
    · rfl
    · rfl
    · simp at h0
  rw [e]
  exact createAll_keeps r m d i l h

example : (initFiles 7 2 [none, some [1, 2]]).1 = [some [7], some [1, 2]] := by decide

end files

section means

variable {Q : Type} [Field Q] [LinearOrder Q] [IsStrictOrderedRing Q] [FloorRing Q]

/-- C65: `load1d_means` with one family of spectra returns the averages of that family only, and without
`tmin` the average starts from the record closest to the time 0. -/
theorem C65_load1d_means_select (round : Q → ℤ) (f : File Q) (tmax dt : Q)
    (hinc : f.times.Pairwise (· < ·)) (h2 : 2 ≤ f.times.length)
    (data : String → ℕ × List (ℕ → Q))
    (hdata : ∀ p ∈ stratNames, f.data.lookup p.2 = some (data p.2)) :
    (∃ res, load1dMeans round f none (some tmax) dt true false = .ok res ∧
      res.map Prod.fst = ["E_kx", "EK_kx", "EA_kx"] ∧
      ∃ a b, IsClosest f.times 0 a ∧ IsClosest f.times tmax b ∧
        ∀ p ∈ stratNames, ∀ F, (p.1, some F) ∈ res → IsMean (((data p.2).2.take (b + 1)).drop a) F) ∧
    (∃ res, load1dMeans round f none (some tmax) dt false true = .ok res ∧
      res.map Prod.fst = ["E_ky", "EK_ky", "EA_ky"] ∧
      ∃ a b, IsClosest f.times 0 a ∧ IsClosest f.times tmax b ∧
        ∀ p ∈ stratNames, ∀ F, (p.1, some F) ∈ res → IsMean (((data p.2).2.take (b + 1)).drop a) F) := by
  obtain ⟨i, hi⟩ := deltaI_ok round f.times dt hinc h2
  have hne : f.times ≠ [] := by rintro h; rw [h] at h2; simp at h2
  obtain ⟨h1, h2', -, -⟩ := Verif.MeansFile.closest_between f.times 0 tmax hne hinc
  have hm : ∀ p ∈ stratNames, means1 f 0 tmax p.2
      = .ok (mean (slice f.times (data p.2).2 (some 0) (some tmax))) := by
    intro p hp
    rw [means1, hdata p hp]
  have e1 := hm ("E_kx", "spectrum1Dkx_E") (by simp [stratNames])
  have e2 := hm ("EK_kx", "spectrum1Dkx_EK") (by simp [stratNames])
  have e3 := hm ("EA_kx", "spectrum1Dkx_EA") (by simp [stratNames])
  have e4 := hm ("E_ky", "spectrum1Dky_E") (by simp [stratNames])
  have e5 := hm ("EK_ky", "spectrum1Dky_EK") (by simp [stratNames])
  have e6 := hm ("EA_ky", "spectrum1Dky_EA") (by simp [stratNames])
  simp only [] at e1 e2 e3 e4 e5 e6
  constructor
  · refine ⟨_, by
      simp only [load1dMeans, Option.getD_some, Option.getD_none, hi, e1, e2, e3, bind, Except.bind, pure,
        Except.pure, if_true, Bool.false_eq_true, if_false]; rfl, rfl, _, _, h1, h2', ?_⟩
    intro p hp F hF
    simp only [stratNames, List.mem_cons, List.not_mem_nil, or_false] at hp
    rcases hp with rfl | rfl | rfl | rfl | rfl | rfl
    · exact isMean_mean (by simp at hF; exact hF.symm)
    · exact isMean_mean (by simp at hF; exact hF.symm)
    · exact isMean_mean (by simp at hF; exact hF.symm)
    · simp at hF
    · simp at hF
    · simp at hF
  · refine ⟨_, by
      simp only [load1dMeans, Option.getD_some, Option.getD_none, hi, e4, e5, e6, bind, Except.bind, pure,
        Except.pure, if_true, Bool.false_eq_true, if_false]; rfl, rfl, _, _, h1, h2', ?_⟩
    intro p hp F hF
    simp only [stratNames, List.mem_cons, List.not_mem_nil, or_false] at hp
    rcases hp with rfl | rfl | rfl | rfl | rfl | rfl
    · simp at hF
    · simp at hF
    · simp at hF
    · exact isMean_mean (by simp at hF; exact hF.symm)
    · exact isMean_mean (by simp at hF; exact hF.symm)
    · exact isMean_mean (by simp at hF; exact hF.symm)

/-- C65: `load2d_mean` returns the wavenumbers saved with the 2D spectra (`khE`), not those along x. -/
theorem C65_load2d_axis (f : File Q) (tmin tmax : Option Q) (kh kx : List Q)
    (h : f.axes = [("kxE", kx), ("kyE", kx), ("khE", kh)] ∨ f.axes = [("khE", kh)]) :
    (load2dMean f tmin tmax).map Prod.fst = some kh := by
  rcases h with h | h <;> simp [load2dMean, h, List.lookup]

end means

section sw

variable {M : Finset (Fin 2 → ℤ)} {B : Type*} [Fintype B] {dk : ℝ} {sp : (M → ℝ) → B → ℝ} {p : Par}

/-- C65: the spectra of the full solver sw1l which depend on the velocity and the displacement only, that is
the potential enstrophy and the three linear parts, are those of sw1l.modified for the same state. -/
theorem C65_sw1l_same (n : Fin 2 → ℕ) (s : Sw) (h : IsSpectrum dk (fun _ => 1) sp) (hp : p.Ok)
    (h0 : s.ux 0 = 0 ∧ s.uy 0 = 0 ∧ s.eta 0 = 0) :
    let e := swSpectra sp n M p s
    let m := mswSpectra sp p s
    e.CPE = m.CPE ∧ e.Eglin = m.Eglin ∧ e.Edlin = m.Edlin ∧ e.Ealin = m.Ealin ∧
      (∀ i, e.Eglin i + e.Edlin i + e.Ealin i = m.EK i + m.EA i) ∧
      ∑ i, e.CPE i * dk
        = ∑ k ∈ M, ‖curl (p.kx k) (p.ky k) ⟨s.ux k, s.uy k, s.eta k⟩ - p.f * s.eta k‖ ^ 2 / 2 := by
  intro e m
  exact ⟨rfl, rfl, rfl, rfl, fun i => (C65_sw1l_linear_spectra_partial h hp s h0 i).1,
    (C65_msw h hp (fun _ => 0) (fun _ => 0) 0 s s).2.2.2.2.2⟩

end sw

end Verif.Spectra2d
