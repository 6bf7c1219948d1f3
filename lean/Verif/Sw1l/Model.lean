import Verif.Energy.Props2d

/-!
# Model of the shallow-water solvers (sw1l, sw1l.exactlin, sw1l.modified, sw1l.onlywaves)

Fields are families of Fourier coefficients indexed by the mode numbers `k : Fin 2 → ℤ`; the physical
wavenumbers are `δ 0 * k 0` and `δ 1 * k 1`. The mode `k = 0` is the element `[0, 0]` of rank 0.
`kd2 = f² / c2` (fluidsim/solvers/sw1l/solver.py 148).
-/

namespace Verif.Sw1l

open Verif.Fourier Verif.Energy Verif.Forcing Finset

noncomputable section

abbrev Mode := Fin 2 → ℤ

/-- Primitive variables of one mode. -/
@[ext] structure UEta where
  ux : ℂ
  uy : ℂ
  eta : ℂ

/-- Normal modes of one wavenumber. -/
@[ext] structure QA where
  q : ℂ
  ap : ℂ
  am : ℂ

/-- Parameters: grid spacing in Fourier space, Coriolis frequency, square of the wave speed. -/
structure Par where
  δ : Fin 2 → ℝ
  f : ℝ
  c2 : ℝ

variable (p : Par)

def Par.kx (k : Mode) : ℝ := p.δ 0 * k 0
def Par.ky (k : Mode) : ℝ := p.δ 1 * k 1

/-- `oper.K2`. -/
def Par.k2 (k : Mode) : ℝ := p.kx k ^ 2 + p.ky k ^ 2

/-- `params.kd2` (sw1l/solver.py 148). -/
def Par.kd2 : ℝ := p.f ^ 2 / p.c2

/-- `oper.Kappa2_not0` (fluidsim/solvers/sw1l/operators.py 116-118). -/
def Par.kappa2not0 (k : Mode) : ℝ := k2not0 (p.kx k) (p.ky k) + p.kd2

/-- `oper.Kappa_over_ic` (sw1l/operators.py 120-123). -/
def Par.kappaOverIc (k : Mode) : ℂ := -1 * Complex.I * (√((p.k2 k + p.kd2) / p.c2) : ℝ)

/-- `oper.rotfft_from_vecfft` (fluidfft). -/
def rotOf (k : Mode) (ux uy : ℂ) : ℂ := Complex.I * (p.kx k * uy - p.ky k * ux)

/-- `oper.divfft_from_vecfft` (fluidfft). -/
def divOf (k : Mode) (ux uy : ℂ) : ℂ := Complex.I * (p.kx k * ux + p.ky k * uy)

/-- `oper.vecfft_from_divfft` (fluidfft). -/
def vecFromDiv (k : Mode) (d : ℂ) : ℂ × ℂ :=
  (-Complex.I * p.kx k / k2not0 (p.kx k) (p.ky k) * d,
   -Complex.I * p.ky k / k2not0 (p.kx k) (p.ky k) * d)

/-- `invlaplacian_fft(a_fft, Kappa2_not0, rank)` (fluidsim/operators/operators2d.py 53-59). -/
def invLap (k : Mode) (a : ℂ) : ℂ := if k = 0 then 0 else a / p.kappa2not0 k

/-- `_qapamfft_from_uxuyetafft` (sw1l/operators.py 28-107). -/
def qapam (k : Mode) (u : UEta) : QA :=
  if k = 0 then ⟨0, u.ux + 1 * Complex.I * u.uy, u.ux - 1 * Complex.I * u.uy⟩
  else
    let delta : ℂ := 0.5 * Complex.I * p.kappaOverIc k * (p.kx k * u.ux + p.ky k * u.uy)
    if p.f ≠ 0 then
      let rot := Complex.I * (p.kx k * u.uy - p.ky k * u.ux)
      let a2 : ℂ := 0.5 * (p.k2 k * u.eta + (p.f / p.c2 : ℝ) * rot)
      ⟨rot - p.f * u.eta, a2 + delta, a2 - delta⟩
    else
      let a2 : ℂ := 0.5 * p.k2 k * u.eta
      ⟨Complex.I * (p.kx k * u.uy - p.ky k * u.ux), a2 + delta, a2 - delta⟩

/-- `divfft_from_apamfft` (sw1l/operators.py 310-328). -/
def divFromApAm (k : Mode) (ap am : ℂ) : ℂ := if k = 0 then 0 else (ap - am) / p.kappaOverIc k

/-- `etafft_from_afft` (sw1l/operators.py 261-270). -/
def etaFromA (k : Mode) (a : ℂ) : ℂ := invLap p k a

/-- `uxuyetafft_from_afft` (sw1l/operators.py 201-214). -/
def fromA (k : Mode) (a : ℂ) : UEta :=
  let eta := etaFromA p k a
  let rot : ℂ := if p.f = 0 then 0 else p.f * eta
  let v := vecFromRot (p.kx k) (p.ky k) rot
  ⟨v.1, v.2, eta⟩

/-- `uxuyetafft_from_qfft` (sw1l/operators.py 183-199). -/
def fromQ (k : Mode) (q : ℂ) : UEta :=
  let ilq := invLap p k q
  let v := vecFromRot (p.kx k) (p.ky k) (ilq * p.k2 k)
  ⟨v.1, v.2, if p.f = 0 then 0 else -p.f * ilq / p.c2⟩

/-- `uxuyetafft_from_qapamfft` (sw1l/operators.py 157-172). -/
def uEtaFrom (k : Mode) (s : QA) : UEta :=
  let a : ℂ := if k = 0 then 0 else s.ap + s.am
  let d := divFromApAm p k s.ap s.am
  let va := fromA p k a
  let vq := fromQ p k s.q
  let vd := vecFromDiv p k d
  if k = 0 then ⟨0.5 * (s.ap + s.am), 0.5 * Complex.I * (s.am - s.ap), va.eta + vq.eta⟩
  else ⟨va.ux + vq.ux + vd.1, va.uy + vq.uy + vd.2, va.eta + vq.eta⟩

/-- `rotfft_from_qfft` (sw1l/operators.py 216-227). -/
def rotFromQ (k : Mode) (q : ℂ) : ℂ := invLap p k q * p.k2 k

/-- `rotfft_from_afft` (sw1l/operators.py 229-239). -/
def rotFromA (k : Mode) (a : ℂ) : ℂ := if p.f = 0 then 0 else p.f * etaFromA p k a

/-- `etafft_from_qfft` (sw1l/operators.py 251-259). -/
def etaFromQ (k : Mode) (q : ℂ) : ℂ := if p.f = 0 then 0 else (-p.f / p.c2 : ℝ) * invLap p k q

/-- `afft_from_uxuyetafft`, `state.compute("a_fft")` (sw1l/operators.py 241-249, sw1l/state.py 90-94). -/
def aOf (k : Mode) (u : UEta) : ℂ :=
  let a := u.eta * p.k2 k
  if p.f ≠ 0 then a + (p.f / p.c2 : ℝ) * rotOf p k u.ux u.uy else a

/-- `state.compute("q_fft")` (sw1l/state.py 82-88). -/
def qOf (k : Mode) (u : UEta) : ℂ := rotOf p k u.ux u.uy - p.f * u.eta

/-! ### Initialisation of the state of sw1l -/

/-- `oper.dealiasing(state_spect)` for the set `S` of kept modes. -/
def trunc (S : Finset Mode) (u : Mode → UEta) : Mode → UEta := fun k =>
  if k ∈ S then u k else ⟨0, 0, 0⟩

/-- `init_from_qfft` (sw1l/state.py 217-222). -/
def initQ (S : Finset Mode) (q : Fld (Fin 2)) : Mode → UEta :=
  trunc S fun k =>
    let v := vecFromRot (p.kx k) (p.ky k) (rotFromQ p k (q k))
    ⟨v.1, v.2, etaFromQ p k (q k)⟩

/-- `init_from_afft` (sw1l/state.py 224-227). -/
def initA (S : Finset Mode) (a : Fld (Fin 2)) : Mode → UEta := trunc S fun k => fromA p k (a k)

/-- `init_from_qafft` (sw1l/state.py 229-238); line 237 adds `uxa_fft` to `uyq_fft`. -/
def initQA (S : Finset Mode) (q a : Fld (Fin 2)) : Mode → UEta :=
  trunc S fun k =>
    let v := vecFromRot (p.kx k) (p.ky k) (rotFromQ p k (q k))
    let w := fromA p k (a k)
    ⟨v.1 + w.ux, v.2 + w.ux, etaFromQ p k (q k) + w.eta⟩

/-! ### The velocity of the state of sw1l.exactlin -/

/-- `state.compute("ux_fft")`, `state.compute("uy_fft")` (fluidsim/solvers/sw1l/exactlin/state.py 68-113,
with "div_fft", "a_fft", "rot_fft" 47-66). -/
def exactlinVelocity (k : Mode) (s : QA) : ℂ × ℂ :=
  let rot := rotFromQ p k s.q + rotFromA p k (s.ap + s.am)
  let d := divFromApAm p k s.ap s.am
  let vr := vecFromRot (p.kx k) (p.ky k) rot
  let vd := vecFromDiv p k d
  if k = 0 then (s.ap, s.am) else (vr.1 + vd.1, vr.2 + vd.2)

/-! ### Tendencies -/

/-- `tendencies_nonlin` of sw1l (fluidsim/solvers/sw1l/solver.py 162-246, with `compute_Frot` 32-43 and
`compute_pressure` 46-48), without forcing; the fields in physical space are the ones of the state
(sw1l/state.py 136-166). -/
def sw1l (n : Fin 2 → ℕ) (S : Finset Mode) (u : Mode → UEta) : Mode → UEta :=
  let ux := gridVal n S (fun k => (u k).ux)
  let uy := gridVal n S (fun k => (u k).uy)
  let eta := gridVal n S (fun k => (u k).eta)
  let rot := gridVal n S (fun k => rotOf p k (u k).ux (u k).uy)
  let rotAbs := fun j => if p.f ≠ 0 then rot j + p.f else rot j
  let pr := fftCoef n (fun j => p.c2 * eta j + 0.5 * (ux j ^ 2 + uy j ^ 2))
  trunc S fun k =>
    ⟨fftCoef n (fun j => rotAbs j * uy j) k - Complex.I * p.kx k * pr k,
     fftCoef n (fun j => -rotAbs j * ux j) k - Complex.I * p.ky k * pr k,
     -divOf p k (fftCoef n (fun j => (eta j + 1) * ux j) k) (fftCoef n (fun j => (eta j + 1) * uy j) k)⟩

/-- The nonlinear terms for `ux`, `uy` and `eta` in `tendencies_nonlin` of sw1l.exactlin
(fluidsim/solvers/sw1l/exactlin/solver.py 60-84). -/
def exactlinN (n : Fin 2 → ℕ) (S : Finset Mode) (u : Mode → UEta) (rotFft : Fld (Fin 2)) (k : Mode) :
    UEta :=
  let ux := gridVal n S (fun k => (u k).ux)
  let uy := gridVal n S (fun k => (u k).uy)
  let eta := gridVal n S (fun k => (u k).eta)
  let rot := gridVal n S rotFft
  let u2 := fun k => fftCoef n (fun j => ux j ^ 2 + uy j ^ 2) k / 2
  ⟨fftCoef n (fun j => rot j * uy j) k - Complex.I * p.kx k * u2 k,
   fftCoef n (fun j => -rot j * ux j) k - Complex.I * p.ky k * u2 k,
   -divOf p k (fftCoef n (fun j => eta j * ux j) k) (fftCoef n (fun j => eta j * uy j) k)⟩

/-- `tendencies_nonlin` of sw1l.exactlin (exactlin/solver.py 52-108), without forcing; the fields in
physical space are computed from the normal modes (exactlin/state.py 141-184: `rot_fft = q + f eta`). -/
def exactlin (n : Fin 2 → ℕ) (S : Finset Mode) (s : Mode → QA) : Mode → QA :=
  let u := fun k => uEtaFrom p k (s k)
  fun k => if k ∈ S then
      qapam p k (exactlinN p n S u (fun k => (s k).q + p.f * (u k).eta) k)
    else ⟨0, 0, 0⟩

/-- `compute_freq_complex` of sw1l.exactlin (exactlin/solver.py 110-118) for the three variables. -/
def freqComplex (k : Mode) : QA :=
  ⟨0, 1 * Complex.I * (√(p.f ^ 2 + p.c2 * p.k2 k) : ℝ), -1 * Complex.I * (√(p.f ^ 2 + p.c2 * p.k2 k) : ℝ)⟩

/-- The right-hand side of the equation integrated by sw1l.exactlin: `dS/dt = N(S) - omega S`
(fluidsim/base/time_stepping/pseudo_spect.py; see C05). -/
def exactlinRhs (n : Fin 2 → ℕ) (S : Finset Mode) (s : Mode → QA) (k : Mode) : QA :=
  ⟨(exactlin p n S s k).q - (freqComplex p k).q * (s k).q,
   (exactlin p n S s k).ap - (freqComplex p k).ap * (s k).ap,
   (exactlin p n S s k).am - (freqComplex p k).am * (s k).am⟩

/-- `tendencies_nonlin` of sw1l.modified (fluidsim/solvers/sw1l/modified/solver.py 45-116), without
forcing and with `beta = 0` (the constructor of sw1l refuses other values). -/
def modified (n : Fin 2 → ℕ) (S : Finset Mode) (u : Mode → UEta) : Mode → UEta :=
  let ux := gridVal n S (fun k => (u k).ux)
  let uy := gridVal n S (fun k => (u k).uy)
  let rotFft : Fld (Fin 2) := fun k => rotOf p k (u k).ux (u k).uy
  let uxr := gridVal n S (fun k => (vecFromRot (p.kx k) (p.ky k) (rotFft k)).1)
  let uyr := gridVal n S (fun k => (vecFromRot (p.kx k) (p.ky k) (rotFft k)).2)
  let adv := fun (a : Fld (Fin 2)) (j : Pt n) =>
    -uxr j * gridVal n S (deriv p.δ 0 a) j - uyr j * gridVal n S (deriv p.δ 1 a) j
  trunc S fun k =>
    ⟨fftCoef n (fun j => p.f * uy j + adv (fun k => (u k).ux) j) k - Complex.I * p.kx k * (p.c2 * (u k).eta),
     fftCoef n (fun j => -p.f * ux j + adv (fun k => (u k).uy) j) k - Complex.I * p.ky k * (p.c2 * (u k).eta),
     fftCoef n (adv (fun k => (u k).eta)) k - divOf p k (u k).ux (u k).uy⟩

/-- `tendencies_nonlin(state_spect)` of sw1l.onlywaves (fluidsim/solvers/sw1l/onlywaves/solver.py 46-98),
without forcing: `s` is the state given as argument, `g` is the global state of the simulation
(`self.state`), from which the vorticity is taken when `f > 0` (line 71; onlywaves/state.py 56-62,
102-104). -/
def onlywaves (n : Fin 2 → ℕ) (S : Finset Mode) (g s : Mode → ℂ × ℂ) : Mode → ℂ × ℂ :=
  let u := fun k => uEtaFrom p k ⟨0, (s k).1, (s k).2⟩
  let rotFft : Fld (Fin 2) := if p.f > 0 then fun k => rotFromA p k ((g k).1 + (g k).2) else fun _ => 0
  fun k => if k ∈ S then
      let r := qapam p k (exactlinN p n S u rotFft k)
      (r.ap, r.am)
    else (0, 0)

end

end Verif.Sw1l
