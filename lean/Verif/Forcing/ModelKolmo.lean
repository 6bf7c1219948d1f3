import Verif.Forcing.Model

/-! # C31: the Kolmogorov flow with a constant injection rate

The force computed at the initialisation is kept in `self._f_fft`; the normalisation multiplies the array that `forcingc_raw_each_time`
returns, which is this array itself: each call starts from the force of the previous call. -/

namespace Verif.Forcing

noncomputable section

/-- The data of a call of `compute`: the forced variable, the time step, and what `np.roots` returns. -/
structure KCall (ι : Type) where
  v : ι → ℂ
  dt : ℝ
  roots : Option (ℝ × ℝ)

/-- `KolmogorovFlowNormalized.compute` (fluidsim/base/forcing/kolmogorov.py 218-220 and fluidsim/base/forcing/specific.py 493-499, 677), for
the type "2nd_degree_eq" without `constant_rate_of`: the array `_f_fft` after the call, which is also the force. -/
def kolmoCall {ι : Type} (which : String) (f : ι → ℂ) (c : KCall ι) : Except String (ι → ℂ) := normalize2nd which c.roots f

/-- The successive calls of a simulation; `f` is the array of `_init_forcing` (kolmogorov.py 213-216). -/
def kolmoCalls {ι : Type} (which : String) : (ι → ℂ) → List (KCall ι) → Except String (ι → ℂ)
  | f, [] => .ok f
  | f, c :: l =>
    match kolmoCall which f c with
    | .error e => .error e
    | .ok g => kolmoCalls which g l

end

end Verif.Forcing
