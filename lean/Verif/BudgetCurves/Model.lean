import Mathlib.Data.Real.Basic
import Mathlib.Algebra.BigOperators.Fin

/-!
# Model of the curves which check the budgets of energy

Models `plot_dt_energy` and `plot_dt_enstrophy` (fluidsim/solvers/ns2d/output/spatial_means.py 201-265), `plot_dt_energy`
(fluidsim/solvers/ns2d/strat/output/spatial_means.py 312-357), `plot_dt_E` (fluidsim/solvers/ns3d/output/spatial_means.py 298-330),
`plot(with_dtE=True)` (fluidsim/solvers/plate2d/output/spatial_means.py 219-273) and `plot_rates`
(fluidsim/solvers/sw1l/output/spatial_means.py 365-410).

An array of `n` numbers is a function of the index, used for the indices `< n`. Numbers are real; a division by zero (two records with the
same time: `inf` or `nan` in the code) is not modelled, the theorems are for increasing times. The figures are the curves which are
drawn, in the order; the labels, the colours and the axes are left out.
-/

namespace Verif.BudgetCurves

noncomputable section

/-- The exceptions. -/
inductive Err | valueError | unboundLocal | keyError | indexError
  deriving DecidableEq, Repr

/-- A curve: the number of points, the abscissae and the ordinates. -/
structure Curve where
  n : ℕ
  x : ℕ → ℝ
  y : ℕ → ℝ

/-- `np.gradient(f, x)` (NumPy, `edge_order=1`; the formula for uniform spacings is a special case with real numbers). -/
def gradient (n : ℕ) (f x : ℕ → ℝ) : Except Err (ℕ → ℝ) :=
  if n < 2 then .error .valueError
  else .ok fun i =>
    if i = 0 then (f 1 - f 0) / (x 1 - x 0)
    else if i = n - 1 then (f (n - 1) - f (n - 2)) / (x (n - 1) - x (n - 2))
    else
      let h1 := x i - x (i - 1)
      let h2 := x (i + 1) - x i;
      -h2 / (h1 * (h1 + h2)) * f (i - 1) + (h2 - h1) / (h1 * h2) * f i + h1 / (h2 * (h1 + h2)) * f (i + 1)

/-- The arrays given by `load`; `P = none`: without the arrays of the injection rates. -/
structure Means where
  n : ℕ
  t : ℕ → ℝ
  E : ℕ → ℝ
  P : Option (ℕ → ℝ)
  eps : ℕ → ℝ

/-- ns2d/output/spatial_means.py 213-217 and ns3d/output/spatial_means.py 310-316: injection minus dissipation. -/
def Means.budget (d : Means) : ℕ → ℝ := match d.P with
  | some P => fun i => P i - d.eps i
  | none => fun i => -d.eps i

/-- `plot_dt_energy` of ns2d (201-229) and, for the energy and the sum of the terms, `plot_dt_E` of ns3d and ns3d.strat (298-330): the curve
of the time derivative and the one of the budget. -/
def plotDtEnergy (d : Means) : Except Err (Curve × Curve) :=
  match gradient d.n d.E d.t with
  | .error e => .error e
  | .ok g => .ok (⟨d.n, d.t, g⟩, ⟨d.n, d.t, d.budget⟩)

/-- `plot_dt_enstrophy` of ns2d (231-265). The second figure uses `PZ_tot`, which is a local variable only with a forcing. -/
def plotDtEnstrophy (d : Means) : Except Err (Curve × Curve) :=
  match gradient d.n d.E d.t with
  | .error e => .error e
  | .ok g => match d.P with
    | none => .error .unboundLocal
    | some _ => .ok (⟨d.n, d.t, g⟩, ⟨d.n, d.t, d.budget⟩)

/-- `plot_dt_energy` of ns2d.strat (312-357): the derivative at the middles of the intervals; then `times[:-1] += np.diff(times) / 2` and the
budget without its first value as a function of these times without the first one. -/
def plotDtEnergyStrat (d : Means) : Curve × Curve :=
  let mid : ℕ → ℝ := fun i => (d.t (i + 1) + d.t i) / 2
  let times : ℕ → ℝ := fun i => if i + 1 < d.n then d.t i + (d.t (i + 1) - d.t i) / 2 else d.t i
  (⟨d.n - 1, mid, fun i => (d.E (i + 1) - d.E i) / (d.t (i + 1) - d.t i)⟩,
    ⟨d.n - 1, fun i => times (i + 1), fun i => d.budget (i + 1)⟩)

/-- `dtE` of `plot(with_dtE=True)` of plate2d (232-239). -/
def dtEPlate (d : Means) : Except Err (ℕ → ℝ) :=
  if d.n < 2 then .error .indexError
  else .ok fun i =>
    if i = d.n - 1 then (d.E (d.n - 1) - d.E (d.n - 2)) / (d.t (d.n - 1) - d.t (d.n - 2))
    else if i = 0 then (d.E 1 - d.E 0) / (d.t 1 - d.t 0)
    else (d.E (i + 1) - d.E (i - 1)) / (d.t (i + 1) - d.t (i - 1))

/-- `should_be_zeros` of plate2d (268-270) for a value `g` of `dtE`. -/
def Means.residual (d : Means) (g : ℝ) (i : ℕ) : ℝ := match d.P with
  | some P => g + d.eps i - P i
  | none => g + d.eps i

/-- The curve `should_be_zeros` of plate2d (265-273). -/
def plotPlate (d : Means) : Except Err Curve :=
  match dtEPlate d with
  | .error e => .error e
  | .ok g => .ok ⟨d.n, d.t, fun i => d.residual (g i) i⟩

/-- `np.gradient(f, 1.0)`. -/
def gradient1 (n : ℕ) (f : ℕ → ℝ) : Except Err (ℕ → ℝ) :=
  if n < 2 then .error .valueError
  else .ok fun i =>
    if i = 0 then f 1 - f 0 else if i = n - 1 then f (n - 1) - f (n - 2) else (f (i + 1) - f (i - 1)) / 2

/-- One turn of the loop of `plot_rates` of sw1l (392-397): the curve and the number of the legend (before its formatting). -/
def rateOf (n : ℕ) (t E : ℕ → ℝ) : Except Err (Curve × ℝ) :=
  match gradient1 n t, gradient1 n E with
  | .ok dt, .ok dE => .ok (⟨n, t, fun i => |dE i / dt i|⟩, (∑ i : Fin n, |dE i / dt i|) / n)
  | .error e, _ => .error e
  | _, .error e => .error e

/-- The keys which the loop of `plot_rates` takes: `for k in keys`, so the characters when `keys` is a string. -/
inductive Keys | str (s : List Char) | list (l : List (List Char))

def Keys.iter : Keys → List (List Char)
  | .str s => s.map fun c => [c]
  | .list l => l

/-- `plot_rates` of sw1l (389-410), for the arrays `load` of `n` numbers. -/
def plotRates (n : ℕ) (t : ℕ → ℝ) (load : List Char → Option (ℕ → ℝ)) (keys : Keys) : Except Err (List (Curve × ℝ)) :=
  keys.iter.mapM fun k => match load k with
    | none => .error .keyError
    | some E => rateOf n t E

end

end Verif.BudgetCurves
