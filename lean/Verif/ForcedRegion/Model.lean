import Mathlib.Analysis.SpecialFunctions.Trigonometric.Inverse
import Mathlib.Analysis.Real.Sqrt

/-!
# Forced modes (C36)

The masks `COND_NO_F` of the forcings, as propositions: `NoF ... i` is the value of the mask at the
index `i` of the coarse (sequential) spectral array. Real arithmetic instead of floating point.
-/

namespace Verif.ForcedRegion

noncomputable section

/-- `ky_loc / deltaky` of the sequential operators for an axis with negative wavenumbers (fluidfft):
`0, 1, ..., n // 2, -(n // 2) + 1, ..., -1` for an even size. -/
def adim (n i : ℕ) : ℤ := if i ≤ n / 2 then (i : ℤ) else (i : ℤ) - n

/-- Value of `K` in 2D (indices: ky, kx). -/
def normK2 (dky dkx : ℝ) (n : ℕ) (iy ix : ℕ) : ℝ :=
  √((dkx * ix) ^ 2 + (dky * adim n iy) ^ 2)

/-- Value of `K` in 3D (indices: kz, ky, kx). -/
def normK3 (dkz dky dkx : ℝ) (nz ny : ℕ) (iz iy ix : ℕ) : ℝ :=
  √((dkx * ix) ^ 2 + (dky * adim ny iy) ^ 2 + (dkz * adim nz iz) ^ 2)

/-- `_compute_cond_no_forcing` (fluidsim/base/forcing/specific.py 260-277) in 2D. The shape of the
coarse array is `(nky, nkx)`. -/
def noF2 (dky dkx kmin kmax : ℝ) (nky nkx : ℕ) (iy ix : ℕ) : Prop :=
  (normK2 dky dkx nky iy ix > kmax ∨ normK2 dky dkx nky iy ix < kmin) ∨ iy = nky / 2 ∨ ix = nkx - 1

/-- `_compute_cond_no_forcing` (specific.py 260-277) in 3D. -/
def noF3 (dkz dky dkx kmin kmax : ℝ) (nkz nky nkx : ℕ) (iz iy ix : ℕ) : Prop :=
  (normK3 dkz dky dkx nkz nky iz iy ix > kmax ∨ normK3 dkz dky dkx nkz nky iz iy ix < kmin) ∨
    iz = nkz / 2 ∨ iy = nky / 2 ∨ ix = nkx - 1

/-- `_compute_cond_no_forcing` (specific.py 260-277) in 1D: no mode is removed by its index. -/
def noF1 (dkx kmin kmax : ℝ) (ix : ℕ) : Prop := dkx * ix > kmax ∨ dkx * ix < kmin

/-- `kmax_forcing`, `kmin_forcing` (specific.py 179-182): `oper.deltak` is the largest of the
`deltak_i`. -/
def kForcing (deltaks : List ℝ) (nk : ℝ) : ℝ := deltaks.foldr max 0 * nk

/-- `ValueError` of specific.py 173-177. -/
def checkNk (nkmin nkmax : ℝ) : Except String Unit :=
  open Classical in if nkmax < nkmin then .error "ValueError" else .ok ()

/-- `params_coarse.oper.nx = params_coarse.oper.ny = params_coarse.oper.nz = fft_size`
(specific.py 191-200, 246-256), where `fft_size = 2 * fftw_grid_size(int(round(nkmax)))`: the same
size in all directions. `m` is the value of `fftw_grid_size` (fluiddyn), a size not smaller than its
argument. -/
def coarseSize (m : ℕ) : ℕ := 2 * m

/-! ### anisotropic forcing -/

/-- The box of the anisotropic forcing (fluidsim/base/forcing/anisotropic.py 91-93, 165-167). -/
structure Box where
  khmin : ℝ
  khmax : ℝ
  kvmin : ℝ
  kvmax : ℝ

/-- `khmin_forcing, ...` with `delta_angle is None` (anisotropic.py 91-93, 165-167). -/
def mkBox (angle kmin kmax : ℝ) : Box :=
  ⟨Real.sin angle * kmin, Real.sin angle * kmax, Real.cos angle * kmin, Real.cos angle * kmax⟩

/-- `COND_NO_F_KH or COND_NO_F_KV` (anisotropic.py 176-193). -/
def boxNoF (b : Box) (kzNegative : Bool) (kh kv : ℝ) : Prop :=
  (kh > b.khmax ∨ kh < b.khmin) ∨
    (if kzNegative then (kv > b.kvmax ∨ kv < b.kvmin) ∧ (kv < -b.kvmax ∨ kv > -b.kvmin)
      else (kv > b.kvmax ∨ kv < b.kvmin))

/-- `K_nozero` (anisotropic.py 213-214). -/
def noz (k : ℝ) : ℝ := if k = 0 then 1 / 10 ^ 14 else k

/-- `COND_NO_F_K or COND_NO_F_THETA` (anisotropic.py 213-236). -/
def sectorNoF (angle delta kmin kmax : ℝ) (kzNegative : Bool) (k kv : ℝ) : Prop :=
  let theta := Real.arccos (kv / noz k)
  (k > kmax ∨ k < kmin) ∨
    (if kzNegative then
      (theta > angle + 0.5 * delta ∨ theta < angle - 0.5 * delta) ∧
        (theta < Real.pi - angle - 0.5 * delta ∨ theta > Real.pi - angle + 0.5 * delta)
      else theta > angle + 0.5 * delta ∨ theta < angle - 0.5 * delta)

/-- The condition on the wavevector: box if `delta_angle is None`, sector otherwise
(anisotropic.py 164, 199). -/
def regionNoF (angle kmin kmax : ℝ) (delta : Option ℝ) (kzNegative : Bool) (kh kv : ℝ) : Prop :=
  match delta with
  | none => boxNoF (mkBox angle kmin kmax) kzNegative kh kv
  | some d => sectorNoF angle d kmin kmax kzNegative √(kh ^ 2 + kv ^ 2) kv

/-- `_compute_cond_no_forcing` (anisotropic.py 143-239) in 2D: `Kh = KX`, `Kv = KY`. -/
def anisoNoF2 (dky dkx angle kmin kmax : ℝ) (delta : Option ℝ) (kzNegative : Bool)
    (nky nkx : ℕ) (iy ix : ℕ) : Prop :=
  regionNoF angle kmin kmax delta kzNegative (dkx * ix) (dky * adim nky iy) ∨
    iy = nky / 2 ∨ ix = nkx - 1

/-- `_compute_cond_no_forcing` (anisotropic.py 143-239) in 3D: `Kh = sqrt(Kx**2 + Ky**2)`,
`Kv = Kz`; the last two assignments are `COND_NO_F[shapeK_loc[0] // 2] = True` and
`COND_NO_F[:, shapeK_loc[1] - 1] = True` (195-196, 236-237). -/
def anisoNoF3 (dkz dky dkx angle kmin kmax : ℝ) (delta : Option ℝ) (kzNegative : Bool)
    (nkz nky : ℕ) (iz iy ix : ℕ) : Prop :=
  regionNoF angle kmin kmax delta kzNegative (√((dkx * ix) ^ 2 + (dky * adim nky iy) ^ 2))
    (dkz * adim nkz iz) ∨ iz = nkz / 2 ∨ iy = nky - 1

/-- `khmax_forcing`, `kvmax_forcing` used for the sizes of the coarse grid
(anisotropic.py 91-108). -/
def khmaxCoarse (angle kmax : ℝ) : Option ℝ → ℝ
  | none => Real.sin angle * kmax
  | some d => Real.sin (angle + 0.5 * d) * kmax

/-- See `khmaxCoarse`. -/
def kvmaxCoarse (angle kmax : ℝ) : Option ℝ → ℝ
  | none => Real.cos angle * kmax
  | some d => Real.cos (angle - 0.5 * d) * kmax

/-- `int(k / deltak) + 1` (anisotropic.py 121-139), for non-negative wavenumbers: the argument of
`fftw_grid_size`. -/
def nbModes (k dk : ℝ) : ℕ := ⌊k / dk⌋₊ + 1

end

end Verif.ForcedRegion
