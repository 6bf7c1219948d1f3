import Mathlib.Tactic.FieldSimp
import Mathlib.Tactic.Linarith
import Mathlib.Tactic.LinearCombination
import Verif.PhysFiles.Lemmas
import Verif.SpatioTemporal.PropsValues
import Verif.SpatioTemporal.ModelPlot

/-!
# C62 (third part): toroidal and poloidal spectra, figures, reuse of the saved spectra
-/

namespace Verif.SpatioTemporal

open Finset

set_option linter.unusedSectionVars false

/-! ### Toroidal and poloidal spectra -/

theorem dft_lin (n : ℕ) (x y : Fin n → ℂ) (a b : ℂ) (m : Fin n) :
    dft n (fun j => a * x j + b * y j) m = a * dft n x m + b * dft n y m := by
  simp only [dft, mul_sum, ← sum_add_distrib]
  exact sum_congr rfl fun j _ => by ring

/-- The transforms of the two parts of the velocity are the two parts of the transforms. -/
theorem dft_ud (n : ℕ) (kx ky : ℝ) (vx vy : Fin n → ℂ) (m : Fin n) :
    dft n (fun j => (ud kx ky (vx j) (vy j)).1) m = (ud kx ky (dft n vx m) (dft n vy m)).1 ∧
    dft n (fun j => (ud kx ky (vx j) (vy j)).2) m = (ud kx ky (dft n vx m) (dft n vy m)).2 ∧
    dft n (fun j => (ur kx ky (vx j) (vy j)).1) m = (ur kx ky (dft n vx m) (dft n vy m)).1 ∧
    dft n (fun j => (ur kx ky (vx j) (vy j)).2) m = (ur kx ky (dft n vx m) (dft n vy m)).2 := by
  refine ⟨?_, ?_, ?_, ?_⟩
  · have := dft_lin n vx vy (kx * kx * invKh kx ky) (ky * kx * invKh kx ky) m
    rw [show (fun j => (ud kx ky (vx j) (vy j)).1) = fun j =>
      ((kx : ℂ) * kx * invKh kx ky) * vx j + (ky * kx * invKh kx ky) * vy j from by
        funext j; simp only [ud]; ring, this]
    simp only [ud]; ring
  · have := dft_lin n vx vy (kx * ky * invKh kx ky) (ky * ky * invKh kx ky) m
    rw [show (fun j => (ud kx ky (vx j) (vy j)).2) = fun j =>
      ((kx : ℂ) * ky * invKh kx ky) * vx j + (ky * ky * invKh kx ky) * vy j from by
        funext j; simp only [ud]; ring, this]
    simp only [ud]; ring
  · have := dft_lin n vx vy (1 - kx * kx * invKh kx ky) (-(ky * kx * invKh kx ky)) m
    rw [show (fun j => (ur kx ky (vx j) (vy j)).1) = fun j =>
      (1 - (kx : ℂ) * kx * invKh kx ky) * vx j + -(ky * kx * invKh kx ky) * vy j from by
        funext j; simp only [ur, ud]; ring, this]
    simp only [ur, ud]; ring
  · have := dft_lin n vx vy (-(kx * ky * invKh kx ky)) (1 - ky * ky * invKh kx ky) m
    rw [show (fun j => (ur kx ky (vx j) (vy j)).2) = fun j =>
      -((kx : ℂ) * ky * invKh kx ky) * vx j + (1 - ky * ky * invKh kx ky) * vy j from by
        funext j; simp only [ur, ud]; ring, this]
    simp only [ur, ud]; ring

theorem normSq_eq (z : ℂ) : Complex.normSq z = z.re * z.re + z.im * z.im := rfl

theorem ud_re_im (kx ky : ℝ) (x y : ℂ) :
    (ud kx ky x y).1 = ⟨(kx * x.re + ky * y.re) * kx * invKh kx ky,
      (kx * x.im + ky * y.im) * kx * invKh kx ky⟩ ∧
    (ud kx ky x y).2 = ⟨(kx * x.re + ky * y.re) * ky * invKh kx ky,
      (kx * x.im + ky * y.im) * ky * invKh kx ky⟩ := by
  constructor <;> apply Complex.ext <;> simp [ud]

/-- **C62**: with `compute_urud`, at each mode and frequency the two horizontal spectra are a
decomposition of the horizontal kinetic energy, whatever the velocity: their sum is the half sum
of the spectra of `vx` and `vy`; `kh² Khd` is the half spectrum of the horizontal divergence and
`kh² Khr` the half spectrum of the vertical vorticity; and for the shear modes `kh = 0` all the
energy is in `Khr`. -/
theorem C62_urud (domega : ℝ) (n : ℕ) (kx ky : ℝ) (vx vy : Fin n → ℂ) (m : Fin n) :
    khd domega n kx ky vx vy m + khr domega n kx ky vx vy m
      = 1 / 2 * (spec domega n vx m + spec domega n vy m) ∧
    (kx ^ 2 + ky ^ 2) * khd domega n kx ky vx vy m
      = 1 / 2 * spec domega n (fun j => kx * vx j + ky * vy j) m ∧
    (kx ^ 2 + ky ^ 2 ≠ 0 → (kx ^ 2 + ky ^ 2) * khr domega n kx ky vx vy m
      = 1 / 2 * spec domega n (fun j => kx * vy j - ky * vx j) m) ∧
    (kx = 0 → ky = 0 → khd domega n kx ky vx vy m = 0) := by
  obtain ⟨h1, h2, h3, h4⟩ := dft_ud n kx ky vx vy m
  obtain ⟨u1, u2⟩ := ud_re_im kx ky (dft n vx m) (dft n vy m)
  have hdiv := dft_lin n vx vy kx ky m
  have hrot : dft n (fun j => kx * vy j - ky * vx j) m = kx * dft n vy m - ky * dft n vx m := by
    have := dft_lin n vx vy (-ky) kx m
    rw [show (fun j => (kx : ℂ) * vy j - ky * vx j) = fun j => -(ky : ℂ) * vx j + kx * vy j from by
      funext j; ring, this]
    ring
  simp only [khd, khr, spec, periodogram]
  rw [h1, h2, h3, h4, hdiv, hrot]
  simp only [ur, u1, u2]
  clear h1 h2 h3 h4 u1 u2 hdiv hrot
  generalize dft n vx m = X
  generalize dft n vy m = Y
  simp only [normSq_eq, Complex.sub_re, Complex.sub_im, Complex.add_re, Complex.add_im,
    Complex.mul_re, Complex.mul_im, Complex.ofReal_re, Complex.ofReal_im, zero_mul, sub_zero,
    add_zero]
  by_cases hs : kx ^ 2 + ky ^ 2 = 0
  · have hx : kx = 0 := by nlinarith [sq_nonneg kx, sq_nonneg ky]
    have hy : ky = 0 := by nlinarith [sq_nonneg kx, sq_nonneg ky]
    subst hx hy
    refine ⟨by norm_num; ring, by norm_num, fun h => absurd hs h, by norm_num⟩
  · have hi : invKh kx ky = 1 / (kx ^ 2 + ky ^ 2) := by rw [invKh, if_neg hs]
    rw [hi]
    by_cases hd : domega = 0
    · subst hd; norm_num
    by_cases hn : (n : ℝ) = 0
    · rw [hn]; norm_num
    refine ⟨by norm_num; field_simp; ring, by norm_num; field_simp,
      fun _ => by norm_num; field_simp; ring, ?_⟩
    intro hx hy
    subst hx hy
    norm_num at hs

theorem addMode_lin (nkz nkh : ℕ) (dkz dkh : ℝ) (S T : ℕ → ℕ → ℝ) (kx kz kh v w a b : ℝ) :
    addMode nkz nkh dkz dkh (fun i j => a * S i j + b * T i j) ⟨kx, kz, kh, a * v + b * w⟩
      = fun i j => a * addMode nkz nkh dkz dkh S ⟨kx, kz, kh, v⟩ i j
        + b * addMode nkz nkh dkz dkh T ⟨kx, kz, kh, w⟩ i j := by
  funext i j
  simp only [addMode]
  split_ifs <;> simp only [addAt] <;> split_ifs <;> ring

theorem kzkh_lin {ι : Type*} (nkz nkh : ℕ) (dkz dkh : ℝ) (grid : List ι) (geo : ι → ℝ × ℝ × ℝ)
    (v w : ι → ℝ) (a b : ℝ) (i j : ℕ) :
    kzkh nkz nkh dkz dkh (onGrid grid geo fun x => a * v x + b * w x) i j
      = a * kzkh nkz nkh dkz dkh (onGrid grid geo v) i j
        + b * kzkh nkz nkh dkz dkh (onGrid grid geo w) i j := by
  have key : ∀ (grid : List ι) (S T : ℕ → ℕ → ℝ),
      (onGrid grid geo fun x => a * v x + b * w x).foldl (addMode nkz nkh dkz dkh)
          (fun i j => a * S i j + b * T i j)
        = fun i j => a * (onGrid grid geo v).foldl (addMode nkz nkh dkz dkh) S i j
          + b * (onGrid grid geo w).foldl (addMode nkz nkh dkz dkh) T i j := by
    intro grid
    induction grid with
    | nil => intro S T; rfl
    | cons x l ih =>
      intro S T
      have h := addMode_lin nkz nkh dkz dkh S T (geo x).1 (geo x).2.1 (geo x).2.2 (v x) (w x) a b
      simp only [onGrid, List.map_cons, List.foldl_cons] at ih ⊢
      rw [h]
      exact ih _ _
  have h := congrFun (congrFun (key grid (fun _ _ => 0) fun _ _ => 0) i) j
  simp only [mul_zero, add_zero] at h
  simp only [kzkh, h]
  ring

theorem tspectrum_lin {ι : Type*} (unit kxMax : ℝ) (grid : List ι) (geo : ι → ℝ × ℝ × ℝ)
    (v w : ι → ℝ) (a b : ℝ) :
    sumWavenumber unit kxMax (onGrid grid geo fun x => a * v x + b * w x)
      = a * sumWavenumber unit kxMax (onGrid grid geo v)
        + b * sumWavenumber unit kxMax (onGrid grid geo w) := by
  simp only [sumWavenumber_eq, onGrid, List.map_map, Function.comp_def]
  induction grid with
  | nil => simp
  | cons x l ih =>
    simp only [List.map_cons, List.sum_cons, ih]
    split_ifs <;> ring

/-- **C62**: the kinetic energy of the figures of the temporal and of the `(kz, kh, ω)` spectra,
`Khr + Khd + spectrum_vz / 2` (1332-1334, 1020), is the kinetic energy `spectrum_K` of the files
(822-831), for every velocity, every set of modes, every grid of bins. -/
theorem C62_kinetic_energy {ι : Type*} (nkz nkh : ℕ) (dkz dkh unit kxMax domega : ℝ) (n : ℕ)
    (grid : List ι) (geo : ι → ℝ × ℝ × ℝ) (ky : ι → ℝ) (vx vy vz : ι → Fin n → ℂ) (m : Fin n)
    (i j : ℕ) :
    let Shd := fun x => khd domega n (geo x).1 (ky x) (vx x) (vy x) m
    let Shr := fun x => khr domega n (geo x).1 (ky x) (vx x) (vy x) m
    let S := fun (u : ι → Fin n → ℂ) x => spec domega n (u x) m
    let A := fun v => kzkh nkz nkh dkz dkh (onGrid grid geo v) i j
    let B := fun v => sumWavenumber unit kxMax (onGrid grid geo v)
    A Shr + (A Shd + 0.5 * A (S vz)) = 0.5 * (A (S vx) + A (S vy) + A (S vz)) ∧
    B Shr + (B Shd + 0.5 * B (S vz)) = 0.5 * (B (S vx) + B (S vy) + B (S vz)) := by
  intro Shd Shr S A B
  have hsum : (fun x => 1 * Shd x + 1 * Shr x) = fun x => (1 / 2) * S vx x + (1 / 2) * S vy x := by
    funext x
    have := (C62_urud domega n (geo x).1 (ky x) (vx x) (vy x) m).1
    simp only [Shd, Shr, S]
    linarith
  constructor
  · have h1 := kzkh_lin nkz nkh dkz dkh grid geo Shd Shr 1 1 i j
    rw [hsum, kzkh_lin] at h1
    simp only [A]
    norm_num
    linarith
  · have h1 := tspectrum_lin unit kxMax grid geo Shd Shr 1 1
    rw [hsum, tspectrum_lin] at h1
    simp only [B]
    norm_num
    linarith

/-! ### Figures -/

theorem nearestIdx_spec (xs : List ℝ) (x : ℝ) (h : xs ≠ []) :
    ∃ y, xs[nearestIdx xs x]? = some y ∧ ∀ z ∈ xs, |y - x| ≤ |z - x| := by
  obtain ⟨d, h1, h2, _⟩ := PhysFiles.argmin_spec (xs.map fun y => |y - x|) (by simpa using h)
  rw [List.getElem?_map] at h1
  obtain ⟨y, hy, hd⟩ := Option.map_eq_some_iff.1 h1
  refine ⟨y, hy, fun z hz => ?_⟩
  rw [hd]
  exact h2 _ (List.mem_map.2 ⟨z, hz, rfl⟩)

/-- The frequency of an internal gravity wave of horizontal and vertical wavenumbers `kh`,
`kz`. -/
noncomputable def waveFreq (N kh kz : ℝ) : ℝ := N * kh / Real.sqrt (kh ^ 2 + kz ^ 2)

/-- The wavenumbers of the file are multiples of steps `dkz` and `dkh`. -/
structure Regular' (f : KzFile) (dkz dkh : ℝ) : Prop where
  kz : f.kzs = (List.range f.kzs.length).map fun (i : ℕ) => dkz * i
  kh : f.khs = (List.range f.khs.length).map fun (i : ℕ) => dkh * i
  hz : 2 ≤ f.kzs.length
  hh : 2 ≤ f.khs.length
  pz : 0 < dkz
  ph : 0 < dkh

theorem Regular'.ratio {f : KzFile} {dkz dkh : ℝ} (h : Regular' f dkz dkh) :
    f.kzs.getD 1 0 / f.khs.getD 1 0 = dkz / dkh := by
  have h1 : f.kzs.getD 1 0 = dkz := by
    rw [h.kz, List.getD_eq_getElem?_getD, List.getElem?_map, List.getElem?_range h.hz]
    simp
  have h2 : f.khs.getD 1 0 = dkh := by
    rw [h.kh, List.getD_eq_getElem?_getD, List.getElem?_map, List.getElem?_range h.hh]
    simp
  rw [h1, h2]

theorem Regular'.short {f : KzFile} {dkz dkh : ℝ} (h : Regular' f dkz dkh) :
    (decide (f.kzs.length ≤ 1) || decide (f.khs.length ≤ 1)) = false := by
  have h1 := h.hz
  have h2 := h.hh
  simp; omega

theorem Regular'.khAt {f : KzFile} {dkz dkh : ℝ} (h : Regular' f dkz dkh) (i : ℕ) (x : ℝ)
    (hx : f.khs[i]? = some x) : x = dkh * i := by
  have hi : i < f.khs.length := by
    by_contra hi
    rw [List.getElem?_eq_none (by omega)] at hx
    cases hx
  rw [h.kh, List.getElem?_map, List.getElem?_range hi] at hx
  simpa using hx.symm

theorem Regular'.kzAt {f : KzFile} {dkz dkh : ℝ} (h : Regular' f dkz dkh) (i : ℕ) (x : ℝ)
    (hx : f.kzs[i]? = some x) : x = dkz * i := by
  have hi : i < f.kzs.length := by
    by_contra hi
    rw [List.getElem?_eq_none (by omega)] at hx
    cases hx
  rw [h.kz, List.getElem?_map, List.getElem?_range hi] at hx
  simpa using hx.symm

theorem lt_of_some {A : Type*} (l : List A) (i : ℕ) (x : A) (h : l[i]? = some x) : i < l.length := by
  by_contra hi
  rw [List.getElem?_eq_none (by omega)] at h
  cases h

theorem sqrt_scale (a b c : ℝ) (hc : 0 < c) (x : ℝ) (hx : x = (a ^ 2 + b ^ 2) / c ^ 2) :
    Real.sqrt x = Real.sqrt (a ^ 2 + b ^ 2) / c := by
  rw [hx, Real.sqrt_div (by positivity), Real.sqrt_sq hc.le]

/-- **C62**: `plot_kzkhomega(equation="kh=...")` shows the cut of the spectrum at the saved `kh`
which is the closest to the value given, the frequencies in units of `N` as ordinates and `kz / δkz`
as abscissas, and its line goes through the frequencies of the internal waves of this `kh`. -/
theorem C62_plot_kh (N : ℝ) (hN : 0 < N) (f : KzFile) (dkz dkh : ℝ) (hf : Regular' f dkz dkh)
    (k : ℝ) (emp : Bool) :
    ∃ fig ikh kh disp, plotKzkh N f (.kh k) emp = .ok fig ∧ f.khs[ikh]? = some kh ∧
      (∀ z ∈ f.khs, |kh - k| ≤ |z - k|) ∧
      fig.xaxis = aranger f.kzs.length ∧ fig.yaxis = f.omegas.map (· / N) ∧
      (∀ io ikz, fig.colours io ikz = f.spect ikz ikh io + 1e-15) ∧ fig.disp = some disp ∧
      ∀ (ikz : ℕ) kz, f.kzs[ikz]? = some kz → disp ikz = waveFreq N kh kz / N := by
  have hne : f.khs ≠ [] := by
    intro h; have := hf.hh; rw [h] at this; simp at this
  obtain ⟨kh, h1, h2⟩ := nearestIdx_spec f.khs k hne
  have hi := lt_of_some _ _ _ h1
  have hok : ∃ fig, plotKzkh N f (.kh k) emp = .ok fig ∧ fig.xaxis = aranger f.kzs.length ∧
      fig.yaxis = f.omegas.map (· / N) ∧
      (∀ io ikz, fig.colours io ikz = f.spect ikz (nearestIdx f.khs k) io + 1e-15) ∧
      fig.disp = some fun x => (nearestIdx f.khs k : ℝ) / Real.sqrt ((nearestIdx f.khs k : ℝ) ^ 2
        + (f.kzs.getD 1 0 / f.khs.getD 1 0) ^ 2 * x ^ 2) := by
    simp only [plotKzkh, resolve, hf.short, Bool.or_false]
    rw [if_neg (by simpa using hi)]
    exact ⟨_, rfl, rfl, rfl, fun _ _ => rfl, rfl⟩
  obtain ⟨fig, g1, g2, g3, g4, g5⟩ := hok
  refine ⟨fig, nearestIdx f.khs k, kh, _, g1, h1, h2, g2, g3, g4, g5, ?_⟩
  · intro ikz kz hz
    have e1 := hf.khAt _ _ h1
    have e2 := hf.kzAt _ _ hz
    have p1 := hf.ph
    generalize nearestIdx f.khs k = i at *
    rw [hf.ratio, waveFreq, sqrt_scale kh kz dkh p1]
    · rw [e1]; field_simp
    · rw [e1, e2]; field_simp

/-- **C62**: the same for `equation="kz=..."`. -/
theorem C62_plot_kz (N : ℝ) (hN : 0 < N) (f : KzFile) (dkz dkh : ℝ) (hf : Regular' f dkz dkh)
    (k : ℝ) (emp : Bool) :
    ∃ fig ikz kz disp, plotKzkh N f (.kz k) emp = .ok fig ∧ f.kzs[ikz]? = some kz ∧
      (∀ z ∈ f.kzs, |kz - k| ≤ |z - k|) ∧
      fig.xaxis = aranger f.khs.length ∧ fig.yaxis = f.omegas.map (· / N) ∧
      (∀ io ikh, fig.colours io ikh = f.spect ikz ikh io + 1e-15) ∧ fig.disp = some disp ∧
      ∀ (ikh : ℕ) kh, f.khs[ikh]? = some kh → disp ikh = waveFreq N kh kz / N := by
  have hne : f.kzs ≠ [] := by
    intro h; have := hf.hz; rw [h] at this; simp at this
  obtain ⟨kz, h1, h2⟩ := nearestIdx_spec f.kzs k hne
  have hi := lt_of_some _ _ _ h1
  have hok : ∃ fig, plotKzkh N f (.kz k) emp = .ok fig ∧ fig.xaxis = aranger f.khs.length ∧
      fig.yaxis = f.omegas.map (· / N) ∧
      (∀ io ikh, fig.colours io ikh = f.spect (nearestIdx f.kzs k) ikh io + 1e-15) ∧
      fig.disp = some fun x => x / Real.sqrt (x ^ 2
        + (f.kzs.getD 1 0 / f.khs.getD 1 0) ^ 2 * (nearestIdx f.kzs k : ℝ) ^ 2) := by
    simp only [plotKzkh, resolve, hf.short, Bool.or_false]
    rw [if_neg (by simpa using hi)]
    exact ⟨_, rfl, rfl, rfl, fun _ _ => rfl, rfl⟩
  obtain ⟨fig, g1, g2, g3, g4, g5⟩ := hok
  refine ⟨fig, nearestIdx f.kzs k, kz, _, g1, h1, h2, g2, g3, g4, g5, ?_⟩
  · intro ikh kh hh
    have e1 := hf.kzAt _ _ h1
    have e2 := hf.khAt _ _ hh
    have p1 := hf.ph
    generalize nearestIdx f.kzs k = i at *
    rw [hf.ratio, waveFreq, sqrt_scale kh kz dkh p1]
    · rw [e2]; field_simp
    · rw [e1, e2]; field_simp

/-- **C62**: `equation="omega=..."` (and the default, `omega=0`) shows the cut at the closest saved
frequency; a line is drawn if and only if internal waves of this frequency exist, and its points are
the wavenumbers of these waves. -/
theorem C62_plot_omega_partial (N : ℝ) (f : KzFile) (dkz dkh : ℝ)
    (hf : Regular' f dkz dkh) (ho : f.omegas ≠ []) (w : ℝ) (e : Equation)
    (he : e = .omega w ∨ (e = .default ∧ w = 0)) :
    ∃ fig io w', plotKzkh N f e false = .ok fig ∧ f.omegas[io]? = some w' ∧
      (∀ z ∈ f.omegas, |w' - w| ≤ |z - w|) ∧
      fig.xaxis = aranger f.khs.length ∧ fig.yaxis = aranger f.kzs.length ∧
      (∀ ikz ikh, fig.colours ikz ikh = f.spect ikz ikh io + 1e-15) ∧
      (fig.disp.isSome ↔ 0 < w' ∧ w' ≤ N) ∧
      ∀ disp, fig.disp = some disp → ∀ (ikh : ℕ) kh, f.khs[ikh]? = some kh → 0 < kh →
        0 ≤ disp ikh ∧ waveFreq N kh (dkz * disp ikh) = w' := by
  obtain ⟨w', h1, h2⟩ := nearestIdx_spec f.omegas w ho
  have hw : f.omegas.getD (nearestIdx f.omegas w) 0 = w' := by
    rw [List.getD_eq_getElem?_getD, h1]; rfl
  have hr : resolve f e = .omega w := by
    rcases he with rfl | ⟨rfl, rfl⟩ <;> rfl
  have hem : f.omegas.isEmpty = false := by simpa using ho
  have hok : ∃ fig, plotKzkh N f e false = .ok fig ∧ fig.xaxis = aranger f.khs.length ∧
      fig.yaxis = aranger f.kzs.length ∧
      (∀ ikz ikh, fig.colours ikz ikh = f.spect ikz ikh (nearestIdx f.omegas w) + 1e-15) ∧
      fig.disp = if 0 < w' ∧ w' ≤ N then some fun x => Real.sqrt (N ^ 2 / w' ^ 2 - 1)
        / (f.kzs.getD 1 0 / f.khs.getD 1 0) * x else none := by
    simp only [plotKzkh, hr, hf.short, hem, Bool.or_false, hw]
    exact ⟨_, rfl, rfl, rfl, fun _ _ => rfl, rfl⟩
  obtain ⟨fig, g1, g2, g3, g4, g5⟩ := hok
  refine ⟨fig, nearestIdx f.omegas w, w', g1, h1, h2, g2, g3, g4, ?_, ?_⟩
  · rw [g5]
    split_ifs with h <;> simp [h]
  · rw [g5]
    split_ifs with h
    · rintro disp hd ikh kh hk hk0
      obtain rfl : _ = disp := Option.some.inj hd
      have e2 := hf.khAt _ _ hk
      have p1 := hf.ph
      have p2 := hf.pz
      have hN : 0 < N := lt_of_lt_of_le h.1 h.2
      have hq : 0 ≤ N ^ 2 / w' ^ 2 - 1 := by
        rw [sub_nonneg, le_div_iff₀ (by positivity [h.1]), one_mul]
        exact pow_le_pow_left₀ h.1.le h.2 2
      dsimp only
      rw [hf.ratio]
      refine ⟨by positivity, ?_⟩
      have hz : dkz * (Real.sqrt (N ^ 2 / w' ^ 2 - 1) / (dkz / dkh) * ikh)
          = Real.sqrt (N ^ 2 / w' ^ 2 - 1) * kh := by
        rw [e2]; field_simp
      have h0 := h.1
      rw [hz, waveFreq, mul_pow, Real.sq_sqrt hq,
        show kh ^ 2 + (N ^ 2 / w' ^ 2 - 1) * kh ^ 2 = (kh * N / w') ^ 2 by field_simp; ring,
        Real.sqrt_sq (by positivity)]
      field_simp
    · rintro disp hd
      cases hd

/-- **C62**, FINDING: with `plot_omega_emp=True` and the default cut (or any cut at constant
frequency), `plot_kzkhomega` of a stratified solver always raises an exception: the variable
`omega_disp` of its return value is not defined. -/
theorem C62_plot_omega_violated (N : ℝ) (f : KzFile) (e : Equation)
    (he : e = .default ∨ ∃ w, e = .omega w) :
    plotKzkh N f e true = .error (if f.omegas = [] ∨ f.kzs.length ≤ 1 ∨ f.khs.length ≤ 1 then .index
      else .unbound) := by
  have hr : ∃ w, resolve f e = .omega w := by
    rcases he with rfl | ⟨w, rfl⟩
    exacts [⟨0, rfl⟩, ⟨w, rfl⟩]
  obtain ⟨w, hr⟩ := hr
  simp only [plotKzkh, hr, if_true, Bool.or_eq_true, List.isEmpty_iff, decide_eq_true_eq]
  split_ifs <;> rfl

/-- **C62**: the marks of the resonant modes are at the frequencies (over `N`) of the internal
waves with `nx` wavelengths in `Lx` and `nz` in `Lz`. -/
theorem C62_resonant (N Lx Lz : ℝ) (hN : 0 < N) (hx : 0 < Lx) (hz : 0 < Lz) (nx nz : ℕ)
    (h : 0 < nx) :
    resonant Lx Lz nx nz
      = waveFreq N (2 * Real.pi * nx / Lx) (2 * Real.pi * nz / Lz) / N := by
  have hp := Real.pi_pos
  have hnx : (0 : ℝ) < nx := by exact_mod_cast h
  have e : (nx : ℝ) ^ 2 / ((nx : ℝ) ^ 2 + (Lx / Lz) ^ 2 * (nz : ℝ) ^ 2)
      = (2 * Real.pi * nx / Lx) ^ 2
        / ((2 * Real.pi * nx / Lx) ^ 2 + (2 * Real.pi * nz / Lz) ^ 2) := by
    field_simp
  rw [resonant, e, Real.sqrt_div (by positivity), Real.sqrt_sq (by positivity), waveFreq]
  field_simp

/-- **C62**: for every `coef_compensate`, a spectrum `E(N) (ω / N)⁻²` compensated in the figure is
the line drawn, also compensated. -/
theorem C62_compensated (N c w EN : ℝ) (hN : 0 < N) (hw : 0 < w) :
    compensated c w (EN * (w / N) ^ (-2 : ℝ)) = scalingLine c (compensated c N EN) (w / N) := by
  have h1 : ∀ x : ℝ, 0 < x → (if c = 0 then 1 else x ^ (-c)) = x ^ (-c) := by
    intro x hx
    split_ifs with h
    · subst h; simp
    · rfl
  simp only [compensated, scalingLine, h1 w hw, h1 N hN]
  rw [Real.rpow_add (by positivity), Real.div_rpow hw.le hN.le c, Real.rpow_neg hw.le,
    Real.rpow_neg hN.le]
  have := Real.rpow_pos_of_pos hw c
  have := Real.rpow_pos_of_pos hN c
  field_simp

/-- A file with 3 `kz`, 2 `kh` and 2 frequencies. -/
noncomputable def exFile : KzFile := ⟨[0, 2, 4], [0, 3], [0, 1], fun a b c => a + b + c⟩

theorem exFile_regular : Regular' exFile 2 3 :=
  ⟨by norm_num [exFile, List.range_succ], by norm_num [exFile, List.range_succ], by simp [exFile],
    by simp [exFile], by norm_num, by norm_num⟩

example : ∃ f, Regular' f 2 3 ∧ f.omegas ≠ [] ∧ f.spect 1 1 1 ≠ f.spect 0 1 1 :=
  ⟨exFile, exFile_regular, by simp [exFile], by norm_num [exFile]⟩

/-! ### Reuse of the saved spectra -/

/-- **C62**, FINDING: `plot_temporal_spectra()` and `load_temporal_spectra()` without `tmin`, when
no spectra are saved yet, raise `TypeError` (`float(None)`) instead of using all the records. -/
theorem C62_default_tmin_violated (toFloat : String → Option ℚ) :
    plotTemporalTmin [] toFloat = .error .type := rfl

/-- **C62**: when the last name is the one of a file of temporal spectra (these names come after
the others), the default is its initial time. -/
theorem C62_default_tmin_partial (names : List (List String)) (toFloat : String → Option ℚ)
    (s : String) (rest : List String) (q : ℚ) (hs : toFloat s = some q) :
    plotTemporalTmin (names ++ ["periodogram" :: "temporal" :: s :: rest]) toFloat = .ok q := by
  simp [plotTemporalTmin, defaultTmin, hs]

section cache

variable {Q V R : Type*} [LinearOrder Q] [Zero Q]

/-- The answers expected: the spectra of the records in the interval at the time of the
request. -/
def wanted (F : List (Q × V) → R) (dflt : List (Q × V) → Q) :
    List (Q × V) → List (Ev Q V) → List R
  | _, [] => []
  | recs, .record t v :: es => wanted F dflt (recs ++ [(t, v)]) es
  | recs, .ask a b :: es => F (within recs a (b.getD (dflt recs))) :: wanted F dflt recs es

/-- The histories where the times increase and where no request is made for times which are not
recorded yet. -/
def Timely : List (Q × V) → List (Ev Q V) → Prop
  | _, [] => True
  | recs, .record t v :: es => (∀ r ∈ recs, r.1 < t) ∧ Timely (recs ++ [(t, v)]) es
  | recs, .ask _ b :: es =>
    recs ≠ [] ∧ (∀ x, b = some x → ∃ r ∈ recs, x ≤ r.1) ∧ Timely recs es

theorem lastTime_mem (recs : List (Q × V)) (h : recs ≠ []) : ∃ r ∈ recs, lastTime recs ≤ r.1 := by
  obtain ⟨l, x, rfl⟩ : ∃ l x, recs = l ++ [x] := ⟨_, _, (List.dropLast_append_getLast h).symm⟩
  exact ⟨x, by simp, by simp [lastTime]⟩

theorem within_record (recs : List (Q × V)) (a b t : Q) (v : V) (hb : b < t) :
    within (recs ++ [(t, v)]) a b = within recs a b := by
  simp only [within, List.filter_append]
  rw [show ([(t, v)] : List (Q × V)).filter (fun r => decide (a ≤ r.1) && decide (r.1 ≤ b)) = [] from by
    simp [hb], List.append_nil]

theorem fileOf_some (files : List ((Q × Q) × R)) (k : Q × Q) (r : R)
    (h : fileOf files k = some r) : (k, r) ∈ files := by
  unfold fileOf at h
  obtain ⟨f, hf, rfl⟩ := Option.map_eq_some_iff.1 h
  have h1 := List.find?_some hf
  simp only [Bool.and_eq_true, beq_iff_eq] at h1
  have h2 := List.mem_of_find?_eq_some hf
  obtain ⟨⟨a, b⟩, r⟩ := f
  obtain ⟨x, y⟩ := k
  simp only at h1
  rw [← h1.1, ← h1.2]
  exact h2

/-- **C62**: the spatiotemporal spectra, whose default `tmax` is the last recorded time, are never
stale: along every history of records and requests where no request is made for times still to be
recorded, each answer is computed from all the records of the interval, although the files saved
by earlier requests are reused. -/
theorem C62_reuse_partial (F : List (Q × V) → R) (es : List (Ev Q V)) (h : Timely [] es) :
    answers F lastTime ⟨[], []⟩ es = wanted F lastTime [] es := by
  have key : ∀ (es : List (Ev Q V)) (s : Store Q V R), Timely s.recs es →
      (∀ f ∈ s.files, (∃ r ∈ s.recs, f.1.2 ≤ r.1) ∧ f.2 = F (within s.recs f.1.1 f.1.2)) →
      answers F lastTime s es = wanted F lastTime s.recs es := by
    intro es
    induction es with
    | nil => intro s _ _; rfl
    | cons e es ih =>
      intro s ht hs
      cases e with
      | record t v =>
        refine ih ⟨s.recs ++ [(t, v)], s.files⟩ ht.2 ?_
        intro f hf
        obtain ⟨⟨r, hr, hfr⟩, h2⟩ := hs f hf
        refine ⟨⟨r, List.mem_append_left _ hr, hfr⟩, ?_⟩
        rw [h2, within_record _ _ _ _ _ (lt_of_le_of_lt hfr (ht.1 r hr))]
      | ask a b =>
        obtain ⟨hne, hb, ht'⟩ := ht
        have hlast : ∃ r ∈ s.recs, b.getD (lastTime s.recs) ≤ r.1 := by
          cases b with
          | none => exact lastTime_mem _ hne
          | some x => exact hb x rfl
        simp only [answers, wanted, answer]
        cases hk : fileOf s.files (a, b.getD (lastTime s.recs)) with
        | some r =>
          simp only
          obtain ⟨_, h2⟩ := hs _ (fileOf_some _ _ _ hk)
          simp only at h2
          rw [h2, ih s ht' hs]
        | none =>
          simp only
          congr 1
          refine ih ⟨s.recs, s.files ++ [_]⟩ ht' ?_
          intro f hf
          rcases List.mem_append.1 hf with hf | hf
          · exact hs f hf
          · rw [List.mem_singleton] at hf
            subst hf
            exact ⟨hlast, rfl⟩
  exact key es ⟨[], []⟩ h (by simp)

/-- A history: two records, a request with the default, a record, a request. -/
def exHistory : List (Ev ℚ ℕ) :=
  [.record 0 5, .record 1 6, .ask 0 none, .record 2 7, .ask 0 none, .ask 0 (some 1)]

example : Timely [] exHistory ∧
    answers (fun l => l.map Prod.snd) lastTime ⟨[], []⟩ exHistory = [[5, 6], [5, 6, 7], [5, 6]] := by
  refine ⟨?_, by decide +kernel⟩
  simp [Timely, exHistory]

/-- **C62**, FINDING: the temporal spectra, whose default `tmax` is the final time `t_end` of the
parameters (and the spatiotemporal ones when `tmax` is in the future), are stale: once spectra are
saved during the simulation, all the later requests return them, and the records made since are
ignored. For all records, whatever the spectra. -/
theorem C62_reuse_violated (F : List (Q × V) → R) (tEnd tmin : Q) (recs : List (Q × V))
    (news : List (Q × V)) :
    let s := (answer F (fun _ => tEnd) ⟨recs, []⟩ tmin none).2
    (answer F (fun _ => tEnd) { s with recs := s.recs ++ news } tmin none).1
      = F (within recs tmin tEnd) := by
  simp [answer, fileOf]

example : (within [(0, 5), (1, 6)] (0 : ℚ) 10 : List (ℚ × ℕ)) ≠ within [(0, 5), (1, 6), (2, 7)] 0 10 := by
  decide +kernel

end cache

end Verif.SpatioTemporal
