import Mathlib.Analysis.SpecialFunctions.Exp
import Mathlib.Analysis.Complex.Exponential

/-! # Model of the dissipation frequencies -/

namespace Verif.Dissip

noncomputable section

/-- The viscosities of the parameters. -/
structure Nu where
  nu2 : ℝ
  nu4 : ℝ
  nu8 : ℝ
  num4 : ℝ

/-- `f_d` of `compute_freq_diss` (fluidsim/base/solvers/pseudo_spect.py 164-173) for a mode; `k2` is the entry
of `oper.K2`, and `K4 = K2**2`, `K8 = K4**2` (fluidsim/operators/operators1d.py 71-72, same in fluidfft). -/
def fd (nu : Nu) (k2 : ℝ) : ℝ :=
  let f := if nu.nu2 > 0 then nu.nu2 * k2 else 0
  let f := if nu.nu4 > 0 then f + nu.nu4 * k2 ^ 2 else f
  if nu.nu8 > 0 then f + nu.nu8 * (k2 ^ 2) ^ 2 else f

/-- `oper.K2_not0` (fluidsim/operators/operators3d.py 291-295 and fluidfft in two dimensions): the null
wavenumber, on the process which has it, is replaced by 1e-14. -/
def k2not0 {ι : Type} [DecidableEq ι] (k2 : ι → ℝ) (origin : Option ι) (i : ι) : ℝ :=
  if origin = some i then 1 / 10 ^ 14 else k2 i

/-- `f_d_hypo` of `compute_freq_diss` (pseudo_spect.py 175-189) in two and three dimensions: `origin` is the
local index of the null mode if this process has it and `second` the index written `[0, 1]` or `[0, 0, 1]`. -/
def fdHypo {ι : Type} [DecidableEq ι] (nu : Nu) (k2 : ι → ℝ) (origin : Option ι) (second : ι) : ι → ℝ :=
  if nu.num4 ≠ 0 then
    let f := fun i => nu.num4 / k2not0 k2 origin i ^ 2
    fun i => if origin = some i then f second else f i
  else fun _ => 0

/-- `compute_freq_diss` for an operator which has the attributes `attrs` (the operator in one dimension has no
attribute `K2_not0`: fluidsim/operators/operators1d.py 29-77). -/
def computeFreqDiss {ι : Type} [DecidableEq ι] (attrs : List String) (nu : Nu) (k2 : ι → ℝ)
    (origin : Option ι) (second : ι) : Except String ((ι → ℝ) × (ι → ℝ)) :=
  if nu.num4 ≠ 0 ∧ "K2_not0" ∉ attrs then .error "AttributeError"
  else .ok (fun i => fd nu (k2 i), fdHypo nu k2 origin second)

/-- The attributes of `OperatorsPseudoSpectral1D` (operators1d.py 29-77, base.py 93-104). -/
def attrs1d : List String :=
  ["params", "axes", "nx", "lx", "Lx", "size", "shapeX", "shapeX_seq", "shapeX_loc", "shape", "deltax", "x",
    "x_seq", "x_loc", "xs", "fft", "ifft", "fft_as_arg", "ifft_as_arg", "sum_wavenumbers", "shapeK",
    "shapeK_loc", "deltakx", "nkx", "kx", "coef_dealiasing", "where_dealiased", "nkxE", "nkxE2", "kxE", "khE",
    "nkhE", "KX", "K2", "K4", "K8", "K"]

/-- `compute_freq_diss` of plate2d (fluidsim/solvers/plate2d/solver.py 205-212): variable 0 is `w_fft`,
variable 1 is `z_fft`. -/
def fdPlate (f : ℝ) : Fin 2 → ℝ := fun v => if v = 0 then f else 0

/-- `ExactLinearCoefs`: the factor by which the linear terms multiply a mode during `dt`
(fluidsim/base/time_stepping/pseudo_spect.py 110-150), with `freq_lin = f_d + f_d_hypo` (179-189) and a possible
purely imaginary part `freq_complex`. -/
def exact (f : ℂ) (dt : ℝ) : ℂ := Complex.exp (-(dt * f))

end

end Verif.Dissip
