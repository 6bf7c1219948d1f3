import Verif.EndToEnd.Model
import Verif.Galerkin.Model
import Verif.Burgers.Model
import Verif.Sw1l.Model

/-!
# More solvers given to the time schemes (C87)

ns2d.bouss, burgers1d, burgers1d.skew_sym, sw1l, sw1l.modified and sw1l.exactlin. No new code is modelled.
-/

namespace Verif.EndToEnd

open Verif.Fourier Verif.Energy Verif.Schemes Finset

noncomputable section

/-- `tendencies_nonlin` of ns2d.bouss (fluidsim/solvers/ns2d/bouss/solver.py 64-163): `rot_fft` (0) and `b_fft` (1). -/
def tendBouss (n : Fin 2 → ℕ) (S : Finset (Fin 2 → ℤ)) (δ : Fin 2 → ℝ) (u : Fin 2 → Fld (Fin 2)) : Fin 2 → Fld (Fin 2) :=
  fun v => if v = 0 then (Galerkin.ns2dBouss n S δ (u 0) (u 1)).1 else (Galerkin.ns2dBouss n S δ (u 0) (u 1)).2

/-- `tendencies_nonlin` of burgers1d (fluidsim/solvers/burgers1d/solver.py 69-94) and, with `skew`, of burgers1d.skew_sym
(burgers1d/skew_sym/solver.py 30-63). -/
def tendBurgers (skew : Bool) (nx : ℕ) (S : Finset (Unit → ℤ)) (δ : ℝ) (u : Unit → Fld Unit) : Unit → Fld Unit := fun _ =>
  if skew then Burgers.skewSym nx S δ (u ()) else Burgers.convective nx S δ (u ())

/-- The variables `ux_fft`, `uy_fft`, `eta_fft` (0, 1, 2) at a mode. -/
def uEta (u : Fin 3 → Fld (Fin 2)) (k : Fin 2 → ℤ) : Sw1l.UEta := ⟨u 0 k, u 1 k, u 2 k⟩

/-- The three fields `ux_fft`, `uy_fft`, `eta_fft`. -/
def ofUEta (a : (Fin 2 → ℤ) → Sw1l.UEta) : Fin 3 → Fld (Fin 2)
  | 0 => fun k => (a k).ux
  | 1 => fun k => (a k).uy
  | 2 => fun k => (a k).eta

/-- The variables `q_fft`, `ap_fft`, `am_fft` (0, 1, 2) at a mode. -/
def modes (u : Fin 3 → Fld (Fin 2)) (k : Fin 2 → ℤ) : Sw1l.QA := ⟨u 0 k, u 1 k, u 2 k⟩

/-- The three fields `q_fft`, `ap_fft`, `am_fft`. -/
def ofModes (a : (Fin 2 → ℤ) → Sw1l.QA) : Fin 3 → Fld (Fin 2)
  | 0 => fun k => (a k).q
  | 1 => fun k => (a k).ap
  | 2 => fun k => (a k).am

/-- `tendencies_nonlin` of sw1l (fluidsim/solvers/sw1l/solver.py 162-246). -/
def tendSw1l (p : Sw1l.Par) (n : Fin 2 → ℕ) (S : Finset (Fin 2 → ℤ)) (u : Fin 3 → Fld (Fin 2)) : Fin 3 → Fld (Fin 2) :=
  ofUEta (Sw1l.sw1l p n S (uEta u))

/-- `tendencies_nonlin` of sw1l.modified (fluidsim/solvers/sw1l/modified/solver.py 45-116). -/
def tendModified (p : Sw1l.Par) (n : Fin 2 → ℕ) (S : Finset (Fin 2 → ℤ)) (u : Fin 3 → Fld (Fin 2)) : Fin 3 → Fld (Fin 2) :=
  ofUEta (Sw1l.modified p n S (uEta u))

/-- `tendencies_nonlin` of sw1l.exactlin (fluidsim/solvers/sw1l/exactlin/solver.py 52-108). -/
def tendExactlin (p : Sw1l.Par) (n : Fin 2 → ℕ) (S : Finset (Fin 2 → ℤ)) (u : Fin 3 → Fld (Fin 2)) : Fin 3 → Fld (Fin 2) :=
  ofModes (Sw1l.exactlin p n S (modes u))

/-- `freq_lin` of sw1l.exactlin (`_init_freq_lin`, fluidsim/base/time_stepping/pseudo_spect.py 179-187): the dissipation and the
frequencies of the waves (sw1l/exactlin/solver.py 110-118). -/
def freqExactlin (p : Sw1l.Par) (nu : Dissip.Nu) : Fin 3 → Fld (Fin 2) := fun v k =>
  (Dissip.fd nu (waveSq p.δ k) : ℂ) + ofModes (Sw1l.freqComplex p) v k

end

end Verif.EndToEnd
