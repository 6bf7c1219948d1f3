import Verif.SpectBudget.Model
import Verif.Spectra2d.Model

/-!
# Spectral energy budgets of the shallow-water solvers (C74)

`fluidsim/solvers/sw1l/output/normal_mode.py` and `fluidsim/solvers/sw1l/output/spect_energy_budget.py`.
A state is given by its coefficients on the set `S` of the kept modes. The distribution of the
quantities over bins (`spectrum2D_from_fft`) is `SpectBudget.spectrum`, the fluxes `SpectBudget.flux2`.
-/

namespace Verif.Sw1lBudget

open Verif.Fourier Verif.Energy Verif.Forcing Verif.Sw1l Verif.Spectra2d Verif.SpectBudget Finset

/-! ### Groups of interactions -/

/-- The exceptions of `_group_matrix_using_dict`. -/
inductive Err where
  | key (k : String)
  deriving DecidableEq, Repr

/-- The first group which contains the key (normal_mode.py 211-215). -/
def groupOf (g : List (String × List String)) (k : String) : Option String :=
  (g.find? fun e => e.2.contains k).map (·.1)

/-- `value_dict[k3] += v` (222). -/
def addTo {V : Type*} [Add V] (d : List (String × V)) (k : String) (v : V) : List (String × V) :=
  d.map fun e => if e.1 = k then (e.1, e.2 + v) else e

/-- The loops over the matrix (207-222), its elements in the order of the rows. -/
def groupLoop {V : Type*} [Add V] (g : List (String × List String)) :
    List (String × V) → List (String × V) → Except Err (List (String × V))
  | [], d => .ok d
  | e :: l, d => match groupOf g e.1 with
    | none => .error (.key e.1)
    | some k3 => groupLoop g l (addTo d k3 e.2)

/-- `_group_matrix_using_dict` (204-226). -/
def groupMatrix {V : Type*} [Add V] [Zero V] (g : List (String × List String))
    (l : List (String × V)) : Except Err (List (String × V)) :=
  groupLoop g l (g.map fun e => (e.1, 0))

/-- `np.char.add(key_modes.transpose(), key_modes)` and `np.einsum("i...,j...->ij...", Ni, Nj)`
(243, 250). -/
def outer {U V W : Type*} (f : U → V → W) (x : List (String × U)) (y : List (String × V)) :
    List (String × W) := x.flatMap fun a => y.map fun b => (a.1 ++ b.1, f a.2 b.2)

/-- `dyad_group` (229-234, 257-262). -/
def dyadGroup : List (String × List String) :=
  [("GG", ["GG"]), ("AG", ["GA", "AG"]), ("aG", ["Ga", "aG"]), ("AA", ["AA", "Aa", "aA", "aa"])]

/-- `triad_group` (291-297, 313-319). -/
def triadGroup : List (String × List String) :=
  [("GGG", ["GGG"]),
   ("AGG", ["AGG", "GAG", "GGA", "aGG", "GaG", "GGa"]),
   ("GAAs", ["aaG", "aGa", "Gaa", "AAG", "AGA", "GAA"]),
   ("GAAd", ["aAG", "AaG", "aGA", "AGa", "GaA", "GAa"]),
   ("AAA", ["AAA", "aaa", "AAa", "AaA", "aAA", "aaA", "aAa", "Aaa"])]

/-- `key_modes = np.array([["G", "A", "a"]])` (159). -/
def labelled {V : Type*} (x : Fin 3 → V) : List (String × V) := [("G", x 0), ("A", x 1), ("a", x 2)]

/-! ### Normal modes -/

inductive Var where
  | ux | uy | eta | urx | ury
  deriving DecidableEq, Repr

/-- The keys of `normalmodefft_from_keyfft`: a variable, its derivatives, the divergence. In Python the
keys are strings; a key of the physical space is the same with `_fft` added (190-193). -/
inductive Key where
  | var (v : Var) | px (v : Var) | py (v : Var) | div
  deriving DecidableEq, Repr

/-- `row_index` (160-170, 358-365). -/
def Var.row : Var → Fin 3
  | .ux => 0 | .uy => 1 | .eta => 2 | .urx => 0 | .ury => 1

noncomputable section

/-- `qmat` (normal_mode.py 113-146). -/
def qmat (p : Par) (k : Mode) (r i : Fin 3) : ℂ :=
  if k = 0 then 0
  else
    let c := p.c2 ^ (0.5 : ℝ)
    let K0 := √(k2not0 (p.kx k) (p.ky k))
    let K := √(p.k2 k)
    let ck := c * K0
    let s2 : ℝ := (2 : ℝ) ^ (0.5 : ℝ)
    let σ := sigma p k
    (!![-Complex.I * (s2 * ck * p.ky k : ℝ), Complex.I * (p.f * p.ky k : ℝ) + (p.kx k * σ : ℝ),
          Complex.I * (p.f * p.ky k : ℝ) - (p.kx k * σ : ℝ);
        Complex.I * (s2 * ck * p.kx k : ℝ), -Complex.I * (p.f * p.kx k : ℝ) + (p.ky k * σ : ℝ),
          -Complex.I * (p.f * p.kx k : ℝ) - (p.ky k * σ : ℝ);
        ((s2 * p.f * K : ℝ) : ℂ), ((c * p.k2 k : ℝ) : ℂ), ((c * p.k2 k : ℝ) : ℂ)] : Matrix (Fin 3) (Fin 3) ℂ) r i
      / (s2 * σ * K0 : ℝ)

/-- The rotational velocity `vecfft_from_rotfft(rot_fft)` and `eta_fft`
(`NormalModeDecompositionModified.compute`, 346-349). -/
def rotState (p : Par) (u : Mode → UEta) (k : Mode) : UEta :=
  let v := vecFromRot (p.kx k) (p.ky k) (rotOf p k (u k).ux (u k).uy)
  ⟨v.1, v.2, (u k).eta⟩

def QA.comp (s : QA) : Fin 3 → ℂ := ![s.q, s.ap, s.am]

/-- `self.bvec_fft` (44-60) for the states in `ux`, `uy`, `eta` and `self.bvecrot_fft` (346-351). -/
def bvecOf (p : Par) (u : Mode → UEta) (v : Var) (k : Mode) : Fin 3 → ℂ :=
  match v with
  | .urx | .ury => QA.comp (bvec p k (qapam p k (rotState p u k)))
  | _ => QA.comp (bvec p k (qapam p k (u k)))

/-- `np.einsum("i...,i...->i...", self.qmat[r], self.bvec_fft)`, and the division of `eta` by `c`
(172-185, 367-370). -/
def modeOf (p : Par) (u : Mode → UEta) (v : Var) (i : Fin 3) : Fld (Fin 2) := fun k =>
  let x := qmat p k v.row i * bvecOf p u v k i
  if v = .eta then x / (p.c2 ^ (0.5 : ℝ) : ℝ) else x

/-- `normalmodefft_from_keyfft` (148-188, 355-387). The division of `eta` by `c` is done before the
derivative here. -/
def normalMode (p : Par) (u : Mode → UEta) : Key → Fin 3 → Fld (Fin 2)
  | .var v, i => modeOf p u v i
  | .px v, i => Energy.deriv p.δ 0 (modeOf p u v i)
  | .py v, i => Energy.deriv p.δ 1 (modeOf p u v i)
  | .div, i => fun k =>
      Energy.deriv p.δ 0 (modeOf p u .ux i) k + Energy.deriv p.δ 1 (modeOf p u .uy i) k

/-- `dyad_from_keyfft(True, k1, k2)` (228-254). -/
def dyadFft (x y : Fin 3 → Fld (Fin 2)) : Except Err (List (String × Fld (Fin 2))) :=
  groupMatrix dyadGroup
    (outer (fun a b => fun k => (starRingEnd ℂ) (a k) * b k) (labelled x) (labelled y))

/-- Product in physical space of two fields, transformed and truncated (275-286). -/
def prod (n : Fin 2 → ℕ) (S : Finset Mode) (a b : Fld (Fin 2)) : Fld (Fin 2) := fun k =>
  if k ∈ S then fftCoef n (fun j => gridVal n S a j * gridVal n S b j) k else 0

/-- `dyad_from_keyphys` (256-289). -/
def dyadPhys (n : Fin 2 → ℕ) (S : Finset Mode) (x y : Fin 3 → Fld (Fin 2)) :
    Except Err (List (String × Fld (Fin 2))) :=
  groupMatrix dyadGroup (outer (prod n S) (labelled x) (labelled y))

/-- `triad_from_keyfftphys` (312-334). -/
def triad (n : Fin 2 → ℕ) (S : Finset Mode) (x y z : Fin 3 → Fld (Fin 2)) :
    Except Err (List (String × Fld (Fin 2))) :=
  match dyadPhys n S y z with
  | .error e => .error e
  | .ok d => groupMatrix triadGroup
      (outer (fun a b => fun k => (starRingEnd ℂ) (a k) * b k) (labelled x) d)

/-! ### SpectralEnergyBudgetSW1L (spect_energy_budget.py 301-470) -/

/-- One term of the transfers: its coefficient and its keys. -/
structure Term where
  coef : ℝ
  a : Key
  b : Key
  c : Key

/-- `SpectralEnergyBudgetSW1L._transfer_keys_coeff` (310-341). -/
def sw1lTerms (c2 : ℝ) : List Term :=
  [⟨-1, .var .ux, .var .ux, .px .ux⟩, ⟨-1, .var .ux, .var .uy, .py .ux⟩,
   ⟨-1, .var .uy, .var .ux, .px .uy⟩, ⟨-1, .var .uy, .var .uy, .py .uy⟩,
   ⟨0.5 * c2, .px .eta, .var .eta, .var .ux⟩, ⟨0.5 * c2, .py .eta, .var .eta, .var .uy⟩,
   ⟨-0.5, .var .ux, .var .ux, .div⟩, ⟨-0.5, .var .uy, .var .uy, .div⟩,
   ⟨0.25 * c2, .div, .var .eta, .var .eta⟩]

/-- `SpectralEnergyBudgetSW1LModified._transfer_keys_coeff` (698-718). -/
def modifiedTerms (c2 : ℝ) : List Term :=
  [⟨-1, .var .ux, .var .urx, .px .ux⟩, ⟨-1, .var .ux, .var .ury, .py .ux⟩,
   ⟨-1, .var .uy, .var .urx, .px .uy⟩, ⟨-1, .var .uy, .var .ury, .py .uy⟩,
   ⟨-c2, .var .eta, .var .urx, .px .eta⟩, ⟨-c2, .var .eta, .var .ury, .py .eta⟩]

/-- Value of a group in the result of `_group_matrix_using_dict`. -/
def valueOf (d : List (String × Fld (Fin 2))) (g : String) : Fld (Fin 2) := (d.lookup g).getD 0

/-- The loop over the terms (368-372). -/
def triads (p : Par) (n : Fin 2 → ℕ) (S : Finset Mode) (u : Mode → UEta) :
    List Term → Except Err (List (ℝ × List (String × Fld (Fin 2))))
  | [] => .ok []
  | t :: l => match triad n S (normalMode p u t.a) (normalMode p u t.b) (normalMode p u t.c) with
    | .error e => .error e
    | .ok d => match triads p n S u l with
      | .error e => .error e
      | .ok ds => .ok ((t.coef, d) :: ds)

/-- `Tq_fft` (364-379): for each group the real part of the sum of the terms. -/
def tq (p : Par) (n : Fin 2 → ℕ) (S : Finset Mode) (u : Mode → UEta) (terms : List Term) :
    Except Err (List (String × (Mode → ℝ))) :=
  match triads p n S u terms with
  | .error e => .error e
  | .ok ds => .ok (triadGroup.map fun g =>
      (g.1, fun k => (ds.map fun t => ((t.1 : ℂ) * valueOf t.2 g.1 k).re).sum))

/-- `Cq_fft` (386-399). -/
def cq (p : Par) (u : Mode → UEta) : Except Err (List (String × (Mode → ℝ))) :=
  match dyadFft (normalMode p u (.var .ux)) (normalMode p u (.px .eta)),
      dyadFft (normalMode p u (.var .uy)) (normalMode p u (.py .eta)) with
  | .ok ue, .ok ve => .ok (dyadGroup.map fun g =>
      (g.1, fun k => ((-p.c2 : ℝ) * valueOf ue g.1 k : ℂ).re + ((-p.c2 : ℝ) * valueOf ve g.1 k : ℂ).re))
  | .error e, _ => .error e
  | _, .error e => .error e

/-- `fnonlinfft_from_uxuy_funcfft(ux, uy, f_fft)` (base/output/spect_energy_budget.py 97-117). -/
def fnlOf (n : Fin 2 → ℕ) (S : Finset Mode) (δ : Fin 2 → ℝ) (ux uy a : Fld (Fin 2)) : Fld (Fin 2) :=
  fun k => if k ∈ S then
    fftCoef n (fun j => -gridVal n S ux j * gridVal n S (Energy.deriv δ 0 a) j
      - gridVal n S uy j * gridVal n S (Energy.deriv δ 1 a) j) k
  else 0

/-- `Tnq_fft` (357-361, 406-431). -/
def tnq (p : Par) (n : Fin 2 → ℕ) (S : Finset Mode) (u : Mode → UEta) (k : Mode) : ℝ :=
  let ux : Fld (Fin 2) := fun k => (u k).ux
  let uy : Fld (Fin 2) := fun k => (u k).uy
  let eta : Fld (Fin 2) := fun k => (u k).eta
  let Mx := prod n S eta ux
  let My := prod n S eta uy
  let F := fnlOf n S p.δ ux uy
  let u_udM := (starRingEnd ℂ) (ux k) * F Mx k + (starRingEnd ℂ) (uy k) * F My k
  let M_udu := Mx k * (starRingEnd ℂ) (F ux k) + My k * (starRingEnd ℂ) (F uy k)
  let divM : Fld (Fin 2) := fun k => divOf p k (Mx k) (My k)
  let u_u_divM := (starRingEnd ℂ) (ux k) * prod n S ux divM k + (starRingEnd ℂ) (uy k) * prod n S uy divM k
  0.5 * (M_udu + u_udM - u_u_divM).re

/-- `Tens_fft` (436). -/
def tens (p : Par) (tqGGG : Mode → ℝ) (k : Mode) : ℝ := p.k2 k * tqGGG k

/-! ### SpectralEnergyBudgetMSW1L (39-173) -/

/-- The quantities of `SpectralEnergyBudgetMSW1L.compute`, mode by mode. -/
structure Msw where
  EK : Mode → ℝ
  Errr : Mode → ℝ
  Edrd : Mode → ℝ
  Clfromqq : Mode → ℝ
  Edrr_rrd : Mode → ℝ
  EA : Mode → ℝ
  convA : Mode → ℝ
  CPE : Mode → ℝ

/-- `SpectralEnergyBudgetMSW1L.compute` (40-173), before the distribution over the bins; `transfer2D_EK`
(154) is a sum of spectra, here of the transfers. -/
def msw (p : Par) (n : Fin 2 → ℕ) (S : Finset Mode) (u : Mode → UEta) : Msw :=
  let eta : Fld (Fin 2) := fun k => (u k).eta
  let rot : Fld (Fin 2) := fun k => rotOf p k (u k).ux (u k).uy
  let urx := ux2 p.δ rot
  let ury := uy2 p.δ rot
  let q : Fld (Fin 2) := fun k => qOf p k (u k)
  let div : Fld (Fin 2) := fun k => divOf p k (u k).ux (u k).uy
  let udx : Fld (Fin 2) := fun k => (vecFromDiv p k (div k)).1
  let udy : Fld (Fin 2) := fun k => (vecFromDiv p k (div k)).2
  let F := fnl n S p.δ rot
  let Errr := fun k => innerProd (urx k) (F urx k) + innerProd (ury k) (F ury k)
  let Edrd := fun k => innerProd (udx k) (F udx k) + innerProd (udy k) (F udy k)
  let Cl := fun k => innerProd (udx k) (F urx k) + innerProd (udy k) (F ury k)
  let Ex := fun k => Cl k + innerProd (urx k) (F udx k) + innerProd (ury k) (F udy k)
  { EK := fun k => Errr k + Edrd k + Ex k
    Errr := Errr
    Edrd := Edrd
    Clfromqq := Cl
    Edrr_rrd := Ex
    EA := fun k => p.c2 * innerProd (eta k) (F eta k)
    convA := fun k => p.c2 * innerProd (eta k) (div k)
    CPE := fun k => innerProd (q k) (F q k) }

end

/-! ### plot (190-298, 541-690) -/

/-- `np.argmin(abs(times - t))`. -/
def nearest {Q : Type*} [Field Q] [LinearOrder Q] (times : List Q) (t : Q) : ℕ :=
  PhysFiles.argmin (times.map fun x => |x - t|)

/-- The curves of `plot`: the records drawn one by one for the energy (241, 600) and for the Charney
potential enstrophy (290), and the records which are averaged (249-262, 607-613). -/
structure Curves where
  energy : List ℕ
  cpe : List ℕ
  mean : List ℕ
  deriving DecidableEq, Repr

/-- `range(a, b, s)` for `s > 0`. -/
def rangeStep (a b s : ℕ) : List ℕ := (List.range' a ((b - a + (s - 1)) / s) s)

/-- The choice of the records in `plot` (208-218, 240-241, 249, 289-290), for a step of at least one
record. -/
def curves {Q : Type*} [Field Q] [LinearOrder Q] (times : List Q) (tmin tmax : Q) (step : ℕ) : Curves :=
  let imin := nearest times tmin
  let imax := nearest times tmax
  { energy := rangeStep imin imax step
    cpe := rangeStep imin (imax + 1) step
    mean := rangeStep imin imax 1 }

end Verif.Sw1lBudget
