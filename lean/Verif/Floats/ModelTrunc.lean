import Verif.Floats.Model

/-!
# The spherical truncation in floating point
-/

namespace Verif.Floats

/-- `x * y`. -/
def fmul (x y : ℚ) : ℚ := rnd (x * y)

/-- The default `coef_dealiasing = 2.0 / 3` (fluidsim/operators/operators2d.py 104, operators3d.py 158). -/
def coef23 : ℚ := fdiv 2 3

/-- A wavenumber `deltakx * k` (fluidfft). -/
def wavenumber (dk : ℚ) (k : ℤ) : ℚ := fmul dk k

/-- `K2`: the sum of the squares of the wavenumbers, one direction after another (fluidfft, `K2 = KX2 + KY2`). The increments of the
wavenumbers are the same in all directions. -/
def k2 (dk : ℚ) : List ℤ → ℚ
  | [] => 0
  | k :: ks => ks.foldl (fun s k => fadd s (fmul (wavenumber dk k) (wavenumber dk k))) (fmul (wavenumber dk k) (wavenumber dk k))

/-- `kmax = self.coef_dealiasing * self.deltakx * self.nx / 2` (fluidsim/operators/base.py 57). -/
def kmax (dk : ℚ) (nx : ℕ) : ℚ := fdiv (fmul (fmul coef23 dk) nx) 2

/-- `abs(self.Kx) >= 2 / 3 * self.deltakx * self.nx / 2` (`get_region_multiple_aliases`, fluidsim/operators/operators2d.py 195-198,
operators3d.py 280-288), for one direction. -/
def aliased (dk : ℚ) (nx : ℕ) (k : ℤ) : Bool := decide (|wavenumber dk k| ≥ kmax dk nx)

/-- `self.K2 >= kmax**2` (fluidsim/operators/base.py 58-60): the mode is removed. The
square `kmax**2` (the function `pow` of C) is supposed to be rounded as a product. -/
def removed (dk : ℚ) (nx : ℕ) (ks : List ℤ) : Bool := decide (k2 dk ks ≥ fmul (kmax dk nx) (kmax dk nx))

/-- `abs(self.kx) > self.coef_dealiasing * kx_max` with `kx_max = self.deltakx * (self.nkx - 1)` (fluidsim/operators/operators1d.py 45-52): the
mode is removed. -/
def removed1d (dk : ℚ) (nx : ℕ) (k : ℕ) : Bool :=
  decide (wavenumber dk k > fmul coef23 (wavenumber dk ((nx / 2 + 1 - 1 : ℕ) : ℤ)))

end Verif.Floats
