import Verif.RealForce.Model3d
import Verif.RealForce.Props

/-! # C111 in 3D (and in any dimension) -/

set_option linter.unusedSectionVars false

namespace Verif.RealForce

open Verif.Fourier Verif.Forcing Verif.Energy Verif.EndToEnd Verif.Symmetry Verif.Reality Finset

noncomputable section

variable {D : Type} [Fintype D] [DecidableEq D] {n nF : D → ℕ} {S SF : Finset (D → ℤ)} {x : D}

/-- The coefficients of the real field given by the half spectrum `f`. -/
def hermX (x : D) (f : Fld D) : Fld D := fun k =>
  if 0 < k x then f k else if k x < 0 then (starRingEnd ℂ) (f (-k)) else (f k + (starRingEnd ℂ) (f (-k))) / 2

theorem sum_opp (hS : ∀ k ∈ S, -k ∈ S) (g : (D → ℤ) → ℂ) : ∑ k ∈ S, g k = ∑ k ∈ S, g (-k) := by
  refine Finset.sum_bij' (fun k _ => -k) (fun k _ => -k) hS hS ?_ ?_ ?_
  · intro k _; exact neg_neg k
  · intro k _; exact neg_neg k
  · intro k _; rw [neg_neg]

theorem ifftHalfX_eq (hS : ∀ k ∈ S, -k ∈ S) (f : Fld D) (j : Pt n) : ((ifftHalfX n S x f j : ℝ) : ℂ) = gridVal n S (hermX x f) j := by
  rw [ifftHalfX, Complex.re_eq_add_conj, sum_filter, map_sum]
  rw [sum_opp hS (fun k => (starRingEnd ℂ) _), ← sum_add_distrib, sum_div, gridVal]
  refine sum_congr rfl fun k _ => ?_
  have hn : (-k) x = -(k x) := rfl
  rw [hn]
  have hc : (starRingEnd ℂ) (chi n (-k) j) = chi n k j := by rw [conj_chi, neg_neg]
  rcases lt_trichotomy (k x) 0 with h | h | h
  · rw [if_neg (by omega), if_pos (by omega), if_neg (by omega), map_mul, map_mul, hc, hermX,
      if_neg (by omega), if_pos h]
    have : (starRingEnd ℂ) (2 : ℂ) = 2 := map_ofNat _ 2
    rw [this]; ring
  · rw [if_pos (by omega), if_pos h, if_pos (by omega), if_pos (by omega), map_mul, map_mul, hc, hermX,
      if_neg (by omega), if_neg (by omega), map_one]
    ring
  · rw [if_pos (by omega), if_neg (by omega), if_neg (by omega), hermX, if_pos h, map_zero]
    ring

theorem projFft_eq (hg : Grid n S) (f : Fld D) {k : D → ℤ} (hk : k ∈ S) : projFft n S x f k = hermX x f k := by
  rw [projFft, if_pos hk, show (fun j => ((ifftHalfX n S x f j : ℝ) : ℂ)) = gridVal n S (hermX x f) from
    funext fun j => ifftHalfX_eq hg.opposite f j, fft_grid hg.pos hg.distinct _ hk]

/-- `fft(ifft(f))`: a real field; the stored coefficients with `0 < k x` are not changed, those with `k x = 0` are averaged with the
conjugates of the opposite ones (as in 2D); a real field is not changed. -/
theorem C111_projection_fft (hg : Grid n S) (x : D) (f : Fld D) :
    RealArrays n S (fun _ : Unit => projFft n S x f) ∧
      (∀ k ∈ S, 0 < k x → projFft n S x f k = f k) ∧
      (∀ k ∈ S, k x = 0 → projFft n S x f k = (f k + (starRingEnd ℂ) (f (-k))) / 2) ∧
      (RealArrays n S (fun _ : Unit => f) → projFft n S x f = f) := by
  have hz : ∀ (v : Unit) k, k ∉ S → projFft n S x f k = 0 := fun _ k hk => if_neg hk
  refine ⟨⟨hz, (C110_real_iff_conjugate hg _ hz).2 fun _ k hk => ?_⟩, fun k hk h => ?_, fun k hk h => ?_, fun hf => funext fun k => ?_⟩
  · simp only [projFft, if_pos hk, if_pos (hg.opposite k hk)]
    exact InitFields.fft_real_conj n _ k
  · rw [projFft_eq hg f hk, hermX, if_pos h]
  · rw [projFft_eq hg f hk, hermX, if_neg (by omega), if_neg (by omega)]
  · by_cases hk : k ∈ S
    · have h := (C110_real_iff_conjugate hg (fun _ : Unit => f) hf.modes).1 hf.real () k hk
      rw [projFft_eq hg f hk, hermX, h, Complex.conj_conj]
      split_ifs <;> first | rfl | ring
    · rw [hz () k hk]; exact (hf.modes () k hk).symm

/-- What the forces of a simulation have: conjugate coefficients, modes of the coarse grid which are not masked. -/
structure ForceOK (S : Finset (D → ℤ)) (noF : (D → ℤ) → Prop) (f : Fld D) : Prop where
  conj : ∀ k ∈ S, f (-k) = (starRingEnd ℂ) (f k)
  modes : ∀ k, k ∉ S → f k = 0
  mask : ∀ k, noF k → f k = 0

theorem raw_ok (hg : Grid n S) {noF : (D → ℤ) → Prop} (hF : ∀ k, noF (-k) ↔ noF k) (rnd : Fld D) :
    ForceOK S noF (rawRandomX n S x noF rnd) := by
  have h := (C111_projection_fft hg x (open Classical in fun k => if noF k then 0 else rnd k)).1
  refine ⟨fun k hk => (C110_real_iff_conjugate hg _ h.modes).1 h.real () k hk, h.modes (), fun k hk => ?_⟩
  by_cases hS : k ∈ S
  · rw [rawRandomX, projFft_eq hg _ hS, hermX, if_pos hk, if_pos ((hF k).2 hk)]
    simp
  · exact h.modes () k hS

theorem ForceOK.comb {noF : (D → ℤ) → Prop} {f g : Fld D} (hf : ForceOK S noF f) (hg : ForceOK S noF g) (c : ℝ) :
    ForceOK S noF (f - c • (f - g)) := by
  refine ⟨fun k hk => ?_, fun k hk => ?_, fun k hk => ?_⟩
  · simp only [Pi.sub_apply, Pi.smul_apply, Complex.real_smul, hf.conj k hk, hg.conj k hk, map_sub, map_mul, Complex.conj_ofReal]
  · simp [hf.modes k hk, hg.modes k hk]
  · simp [hf.mask k hk, hg.mask k hk]

/-- The forces `random` and `tcrandom` in 3D: at all the times of a simulation, started or restarted, whatever the random numbers and the
real coefficients of the normalisation, on every grid which contains the modes of the coarse one, the force is a real field, zero at the
masked modes (a mask which contains with each mode its opposite: the shell). -/
theorem C111_tcrandom_3d (hg : Grid n S) (hG : Grid nF SF) (hS : S ⊆ SF) (x : D) {noF : (D → ℤ) → Prop} (hF : ∀ k, noF (-k) ↔ noF k)
    {G : Type} {r : Rng G (Fld D)} (hr : ∀ g, ∃ rnd, (r.raw g).1 = rawRandomX n S x noF rnd) {save : Bool} {file : StateFile}
    {t0 period : ℝ} {g : G} {s : Tcr G (Fld D)} (hs : tcrInit r save file t0 g = .ok s) (ts : List ℝ) (c : ℝ) :
    ∀ f ∈ (tcrRun r save period ts s).2,
      RealArrays nF SF (fun _ : Unit => scale c f) ∧ ∀ k, noF k → scale c f k = 0 := by
  have hraw : ∀ g, ForceOK S noF (r.raw g).1 := fun g => by
    obtain ⟨rnd, e⟩ := hr g
    rw [e]; exact raw_ok hg hF rnd
  have hi := tcr_init (P := ForceOK S noF) hraw hs
  intro f hf
  have h := tcr_inv (P := ForceOK S noF) (fun f g hf hg c => hf.comb hg c) hraw save period ts s hi.1 hi.2 f hf
  have hz : ∀ (_ : Unit) k, k ∉ SF → scale c f k = 0 := fun _ k hk => by simp only [scale, h.modes k (fun a => hk (hS a)), zero_mul]
  refine ⟨⟨hz, (C110_real_iff_conjugate hG _ hz).2 fun _ k _ => ?_⟩, fun k hk => by simp only [scale, h.mask k hk, zero_mul]⟩
  by_cases hk : k ∈ S
  · simp only [scale, h.conj k hk, map_mul, Complex.conj_ofReal]
  · have hk' : -k ∉ S := fun a => hk (by simpa using hg.opposite _ a)
    simp only [scale, h.modes k hk, h.modes _ hk', zero_mul, map_zero]

/-- The shell of the code is such a mask. -/
theorem C111_shell_opposite (δ : D → ℝ) (kmin kmax : ℝ) (k : D → ℤ) :
    (√(∑ d, (δ d * (-k) d) ^ 2) > kmax ∨ √(∑ d, (δ d * (-k) d) ^ 2) < kmin) ↔ (√(∑ d, (δ d * k d) ^ 2) > kmax ∨ √(∑ d, (δ d * k d) ^ 2) < kmin) := by
  have : ∀ d, (δ d * ((-k) d : ℤ)) ^ 2 = (δ d * (k d : ℤ)) ^ 2 := fun d => by simp [mul_pow]
  simp only [this]

/-- Without the projection a random force is not a real field: one stored mode with `k x = 0`. -/
theorem C111_projection_needed :
    ¬ RealArrays (fun _ : Fin 3 => 4) EndToEnd.box (fun _ : Unit => fun k => if k = ![0, 1, 0] then 1 else 0) := by
  intro h
  have e := (C110_real_iff_conjugate box_grid _ h.modes).1 h.real () ![0, 1, 0] (by decide +kernel)
  simp at e

/-! ### cases of the hypotheses -/

/-- The generator of the example: the random numbers are given by the state of the generator. -/
def exampleRng : Rng ℕ (Fld (Fin 3)) where
  seed i := i
  randint g := (7 * g + 1, g + 1)
  raw g := (rawRandomX (fun _ => 4) EndToEnd.box 0 (fun k => k = 0) (fun k => (g : ℂ) + (k 1 : ℂ) * Complex.I), g + 1)

/-- A run from a file of the forcing, with changes of the fields. -/
example : ∃ s, tcrInit exampleRng true (.written 0 3 4) 0 5 = .ok s ∧
    ∀ f ∈ (tcrRun exampleRng true 1 [0, 1 / 2, 2, 3] s).2,
      RealArrays (fun _ => 4) EndToEnd.box (fun _ : Unit => scale 2 f) ∧ ∀ k, k = 0 → scale 2 f k = 0 := by
  refine ⟨_, rfl, ?_⟩
  exact C111_tcrandom_3d (file := .written 0 3 4) (save := true) (t0 := 0) (g := 5) (D := Fin 3) (n := fun _ => 4) (nF := fun _ => 4) box_grid box_grid (fun _ h => h) 0 (noF := fun k => k = 0)
    (fun k => neg_eq_zero) (fun g => ⟨_, rfl⟩) rfl _ 2

end

end Verif.RealForce
