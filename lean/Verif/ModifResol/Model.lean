import Verif.Modes.Model
import Verif.Fourier.Model
import Mathlib.Data.Fin.VecNotation

/-!
# The tool which changes the resolution of a file (C79)

`modif_resolution_from_dir_memory_efficient` with `StatePhysLike` and `MiniOperModifResol` (fluidsim/util/util.py
449-605, fluidsim/util/mini_oper_modif_resol.py). Real fields on the grid `n` (`n 0` along the first axis of the
arrays, the last direction being x), half spectra with the shape of the arrays.
The transforms of FFTW are represented by their definition (external contract): forward transform divided by the
number of points, backward transform which does not modify its input (`FFTW*Real2Complex.ifft_as_arg` copies it).
-/

namespace Verif.ModifResol

open Verif.Fourier Verif.Modes Finset

noncomputable section

/-- Weight of the stored mode of index `m` along x in the backward real transform: the modes which are not stored are
the conjugates of the stored ones. -/
def weight (nx m : ℕ) : ℝ := if m = 0 ∨ 2 * m = nx then 1 else 2

/-- `oper.fft_as_arg(field, field_spect)` in 2D (mini_oper_modif_resol.py 67, 74): index `(ik0, ik1)` of the half
spectrum. -/
def r2c2 (n : Fin 2 → ℕ) (X : Pt n → ℝ) : ℕ × ℕ → ℂ :=
  fun i => fftCoef n (fun j => (X j : ℂ)) ![(i.1 : ℤ), i.2]

/-- `oper2.ifft_as_arg(field2_spect, field2)` in 2D (mini_oper_modif_resol.py 67, 75). -/
def c2r2 (n : Fin 2 → ℕ) (c : ℕ × ℕ → ℂ) (j : Pt n) : ℝ :=
  ∑ i ∈ range (n 0) ×ˢ range (n 1 / 2 + 1), weight (n 1) i.2 * (c i * chi n ![(i.1 : ℤ), i.2] j).re

/-- The same in 3D (mini_oper_modif_resol.py 71, 74). -/
def r2c3 (n : Fin 3 → ℕ) (X : Pt n → ℝ) : ℕ × ℕ × ℕ → ℂ :=
  fun i => fftCoef n (fun j => (X j : ℂ)) ![(i.1 : ℤ), i.2.1, i.2.2]

def c2r3 (n : Fin 3 → ℕ) (c : ℕ × ℕ × ℕ → ℂ) (j : Pt n) : ℝ :=
  ∑ i ∈ range (n 0) ×ˢ range (n 1) ×ˢ range (n 2 / 2 + 1),
    weight (n 2) i.2.2 * (c i * chi n ![(i.1 : ℤ), i.2.1, i.2.2] j).re

/-- `StatePhysLike.get_var` (util.py 485-517) in 2D for the field `X` read in the file; `spect2` is the array
`field2_spect`, kept between the calls. Result: the new array and `field2`. -/
def getVar2 (nI nO : Fin 2 → ℕ) (spect2 : ℕ × ℕ → ℂ) (X : Pt nI → ℝ) :
    Except String ((ℕ × ℕ → ℂ) × (Pt nO → ℝ)) :=
  match fill2d (shapeK2 (nI 1) (nI 0)) (shapeK2 (nO 1) (nO 0)) (r2c2 nI X) spect2 with
  | .error e => .error e
  | .ok s => .ok (s, c2r2 nO s)

def getVar3 (nI nO : Fin 3 → ℕ) (spect2 : ℕ × ℕ × ℕ → ℂ) (X : Pt nI → ℝ) :
    Except String ((ℕ × ℕ × ℕ → ℂ) × (Pt nO → ℝ)) :=
  match fill3dMini (shapeK3 (nI 2, nI 1, nI 0)) (shapeK3 (nO 2, nO 1, nO 0)) (r2c3 nI X) spect2 with
  | .error e => .error e
  | .ok s => .ok (s, c2r3 nO s)

/-- The loop of `save_file` on the variables (fluidsim/util/output.py 69-72), each array being written before the
next call of `get_var`: the fields of the new file, in the order of the keys. -/
def saveAll {A X Y : Type*} (getVar : A → X → Except String (A × Y)) : A → List X → Except String (List Y)
  | _, [] => .ok []
  | s, X :: l =>
    match getVar s X with
    | .error e => .error e
    | .ok (s', Y) =>
      match saveAll getVar s' l with
      | .error e => .error e
      | .ok Ys => .ok (Y :: Ys)

/-- The fields of the new file: `field2_spect` is created with zeros (util.py 466, 592-601). -/
def modif2 (nI nO : Fin 2 → ℕ) (Xs : List (Pt nI → ℝ)) : Except String (List (Pt nO → ℝ)) :=
  saveAll (getVar2 nI nO) (fun _ => 0) Xs

def modif3 (nI nO : Fin 3 → ℕ) (Xs : List (Pt nI → ℝ)) : Except String (List (Pt nO → ℝ)) :=
  saveAll (getVar3 nI nO) (fun _ => 0) Xs

/-- `int(n * coef_modif_resol)` (util.py 557-561). Simplification: exact numbers. -/
def newSize (coef : ℚ) (n : ℕ) : ℤ := if 0 ≤ n * coef then ⌊n * coef⌋ else ⌈n * coef⌉

/-- The name of the new directory (util.py 584-587), for the sizes `[nx, ny]` or `[nx, ny, nz]`. -/
def dirName (sizes : List ℕ) : List Char :=
  "State_phys_".toList ++ ((sizes.map fun n => Nat.toDigits 10 n).intersperse ['x']).flatten

end

end Verif.ModifResol
