import Verif.Preproc.Model

/-! # Model of `set_forcing_rate` and of `set_viscosity` as a whole -/

namespace Verif.Preproc

noncomputable section

/-- `k_f` (fluidsim/base/preprocess/pseudo_spect.py 186-192, and 251-254 with 273 in `calcul_viscosity`): `//` is the integer
division. -/
def forcingWavenumber (deltak : ℝ) (nkmin nkmax : ℕ) : ℝ := deltak * ((nkmax + nkmin) / 2 : ℕ)

/-- `set_forcing_rate` (pseudo_spect.py 164-205): the value given to `params.forcing.forcing_rate`. The powers are those of real numbers;
a division by zero of Python floats raises `ZeroDivisionError`. -/
def forcingRate (scale : String) (C energy enstrophy kf : ℝ) : Except String ℝ :=
  if scale = "unity" then .ok C
  else if scale = "energy" then .ok (C * energy ^ (3 / 2 : ℝ) * kf)
  else if scale = "enstrophy" then
    if kf = 0 then .error "ZeroDivisionError" else .ok (C * enstrophy ^ (3 / 2 : ℝ) / kf ^ 2)
  else .error "ValueError"

/-- The arguments given by `set_viscosity` to `calcul_viscosity` (pseudo_spect.py 130-143). -/
def viscosityArgs (scale : String) (energy enstrophy P : ℝ) : Except String (List ℝ) :=
  if scale = "enstrophy" then .ok [enstrophy]
  else if scale = "energy" then .ok [energy]
  else if scale = "enstrophy_forcing" then .ok [enstrophy, P]
  else if scale = "forcing" then .ok [P]
  else .error "ValueError"

/-- `set_viscosity` (pseudo_spect.py 101-160) with `calcul_viscosity` called with the operators (248-366): the attributes with their
orders and values. `large_scale` (line 274) is computed whatever the scale. -/
def setViscosity (scale : String) (energy enstrophy P C coef deltax deltak : ℝ) (nkmin nkmax : ℕ) (contains : String → Bool) :
    Except String (List (String × ℤ × ℝ)) := do
  let args ← viscosityArgs scale energy enstrophy P
  let l := lengthScale C coef deltax
  let kf := forcingWavenumber deltak nkmin nkmax
  let large ← if kf = 0 then .error "ZeroDivisionError" else .ok (Real.pi / kf)
  let time ← timeScale scale args l large
  calculViscosity l time contains

end

end Verif.Preproc
