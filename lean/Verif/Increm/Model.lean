import Verif.Reduce.Model
import Mathlib.Analysis.SpecialFunctions.Log.Basic
import Mathlib.Algebra.Order.Floor.Ring
import Mathlib.Algebra.Order.Round

/-! # Model of the increments and of the time signals in spectral space -/

namespace Verif.Increm

noncomputable section

/-- `np.round` (half to even). -/
def npRound (x : ℝ) : ℤ :=
  if Int.fract x < 1 / 2 then ⌊x⌋
  else if 1 / 2 < Int.fract x then ⌊x⌋ + 1
  else if Even ⌊x⌋ then ⌊x⌋ else ⌊x⌋ + 1

/-! ### Separations -/

/-- The loop which makes the separations different (fluidsim/base/output/increments.py 68-70), after the element
`prev`. -/
def dedupeFrom (prev : ℤ) : List ℤ → List ℤ
  | [] => []
  | x :: xs =>
    let y := if prev ≥ x then prev + 1 else x
    y :: dedupeFrom y xs

/-- The loop over the whole array. -/
def dedupe : List ℤ → List ℤ
  | [] => []
  | x :: xs => x :: dedupeFrom x xs

/-- `nrx` (increments.py 59-60). -/
def nbSeparations (nx : ℕ) : ℕ := max (min (nx / 16) 128) (nx / 2)

/-- `rmax = int(0.8 * nx)` (increments.py 62), with an exact product. -/
def rMax (nx : ℕ) : ℕ := 4 * nx / 5

/-- The rounded values (increments.py 63-66), with exact functions. -/
def separations0 (nx : ℕ) : List ℤ :=
  let delta := Real.log ((rMax nx : ℝ) / 1) / ((nbSeparations nx : ℝ) - 1)
  (List.range (nbSeparations nx)).map fun i : ℕ => npRound (Real.exp (Real.log 1 + delta * i))

/-- `self.rxs` (increments.py 56-70). -/
def separations (nx : ℕ) : List ℤ := dedupe (separations0 nx)

end

/-- `compute_increments_dim1` for one line (fluidsim/operators/operators2d.py 63-69). -/
def increments {K : Type} [Field K] (line : List K) (irx : ℕ) : List K :=
  List.zipWith (· - ·) (line.drop irx) (line.take (line.length - irx))

/-- `compute_values_inc` (increments.py 139-140, `_bins` line 88). -/
def valuesInc {K : Type} [Field K] (n : ℕ) (valmin valmax : K) (i : Fin n) : K :=
  valmin + (valmax - valmin) * (((i : ℕ) + 1 / 2) / n)

/-- `strfunc_from_pdf` for one separation (increments.py 28-39), for integer orders. -/
def strfunc {K : Type} [Field K] [LinearOrder K] {n : ℕ} (hn : 2 ≤ n) (pdf values : Fin n → K) (order : ℕ)
    (absolute : Bool) : K :=
  let values := if absolute then fun i => |values i| else values
  |values ⟨1, hn⟩ - values ⟨0, by omega⟩| * ∑ i, pdf i * values i ^ order

/-! ### Shells of the time signals -/

/-- The loop over the shells (fluidsim/base/output/time_signals_fft.py 91-93), in units of `deltak`. -/
def shellsFrom (prev : ℤ) : List ℤ → List ℤ
  | [] => []
  | x :: xs =>
    let y := if prev = x then x + 1 else x
    y :: shellsFrom y xs

/-- The loop over the whole array. -/
def shells : List ℤ → List ℤ
  | [] => []
  | x :: xs => x :: shellsFrom x xs

/-- `kh_shell / deltak` before the loop (time_signals_fft.py 75-89); `nxc = nx / 2 * coef_dealiasing`. -/
noncomputable def shells0 (nxc : ℝ) (nbShells : ℕ) : List ℤ :=
  (List.range nbShells).map fun i : ℕ =>
    npRound (Real.exp (Real.log nxc / ((nbShells : ℝ) + 3) * ((i : ℝ) + 3)))

/-- The assignments in `kx_array_ik_approx` (time_signals_fft.py 107-117): index and (shell, number in the
shell). -/
def slotWrites (nbShells nbK : ℕ) : List (ℕ × (ℕ × ℕ)) :=
  (List.range nbShells).flatMap fun s => (List.range nbK).map fun k => (s * nbShells + k, (s, k))

/-- The array of size `nb_k_tot`, created by `np.empty` (`none`: not initialised), after the assignments.
`nb_k_per_shell = 1` divides by zero (line 107). -/
def slots (nbShells nbK : ℕ) : Except String (ℕ → Option (ℕ × ℕ)) :=
  if nbK = 1 then .error "ZeroDivisionError"
  else (slotWrites nbShells nbK).foldlM (fun a w =>
    if w.1 < nbShells * nbK then .ok (fun i => if i = w.1 then some w.2 else a i) else .error "IndexError")
    (fun _ => none)

/-- The period of the saving: `_init_save` computes `pi / (8 omega_max)` (time_signals_fft.py 166-175), then
`SpecificOutput.__init__` sets the parameter (time_signals_fft.py 61-65, fluidsim/base/output/base.py 543). -/
def periodSave {K : Type} (param computed : K) : K :=
  let self_period_save := computed
  let _ := self_period_save
  param

end Verif.Increm
