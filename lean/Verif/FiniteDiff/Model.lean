import Mathlib.Data.Matrix.Mul
import Mathlib.LinearAlgebra.Matrix.Notation
import Mathlib.Data.Fin.Basic
import Mathlib.Algebra.Group.Fin.Basic
import Mathlib.Data.Real.Basic

/-! # Model of the finite-difference operators and of the Crank-Nicolson time stepping -/

namespace Verif.FiniteDiff

section
variable {K : Type} [Field K]

/-- `scipy.sparse.diags` with constant diagonals: each couple is (value, offset); the entry `(i, j)` of the
matrix is the value of the diagonal of offset `j - i` (contract of scipy: offsets which appear twice or which
are out of bounds raise `ValueError`). -/
def diags (n : ℕ) (l : List (K × ℤ)) : Except String (Matrix (Fin n) (Fin n) K) :=
  if ¬ (l.map Prod.snd).Nodup then .error "ValueError"
  else if l.any (fun d => decide ((n : ℤ) ≤ |d.2|)) then .error "ValueError"
  else .ok fun i j => ((l.filter fun d => decide (d.2 = (j.val : ℤ) - i.val)).map Prod.fst).sum

/-- The diagonals of `sparse_px` before the division (fluidsim/operators/op_finitediff1d.py 29-32). -/
def pxDiags (n : ℕ) : List (K × ℤ) := [(-1, -1), (1, 1), (-1, (n : ℤ) - 1), (1, -((n : ℤ) - 1))]

/-- The diagonals of `sparse_pxx` before the division (op_finitediff1d.py 35-38). -/
def pxxDiags (n : ℕ) : List (K × ℤ) :=
  [(1, -1), (-2, 0), (1, 1), (1, (n : ℤ) - 1), (1, -((n : ℤ) - 1))]

/-- The operator object. -/
structure Oper (K : Type) (n : ℕ) where
  deltax : K
  xs : Fin n → K
  px : Matrix (Fin n) (Fin n) K
  pxx : Matrix (Fin n) (Fin n) K

/-- `OperatorFiniteDiff1DPeriodic.__init__` (op_finitediff1d.py 23-40) after `OperatorsBase1D.__init__`
(fluidsim/operators/base.py: `deltax = Lx / nx`, `xs = deltax * arange(nx)`). -/
def Oper.init (n : ℕ) (Lx : K) : Except String (Oper K n) :=
  let dx := Lx / n
  match diags n (pxDiags n), diags n (pxxDiags n) with
  | .ok px, .ok pxx =>
    .ok ⟨dx, fun i => dx * i.val, fun i j => px i j / (2 * dx), fun i j => pxx i j / dx ^ 2⟩
  | .error e, _ => .error e
  | _, .error e => .error e

/-- `linear_operator` of `ad1d` (fluidsim/solvers/ad1d/solver.py 80-86). -/
def linOp {n : ℕ} (o : Oper K n) (nu U : K) : Matrix (Fin n) (Fin n) K := nu • o.pxx - U • o.px

/-- `right_hand_side` (fluidsim/base/time_stepping/finite_diff.py 122-123). -/
def rhs {n : ℕ} (L : Matrix (Fin n) (Fin n) K) (dt : K) (S N : Fin n → K) : Fin n → K :=
  S + (dt / 2) • L.mulVec S + dt • N

/-- The matrix of the linear system (finite_diff.py 116). -/
def sysMat {n : ℕ} (L : Matrix (Fin n) (Fin n) K) (dt : K) : Matrix (Fin n) (Fin n) K :=
  1 - (dt / 2) • L

/-- `_time_step_RK2` (finite_diff.py 113-119) with the contract of `spsolve`: the array returned is a solution
of the linear system. `N` is the array returned by `tendencies_nonlin` (the forcing, or zero:
ad1d/solver.py 62-76). -/
def Step {n : ℕ} (L : Matrix (Fin n) (Fin n) K) (dt : K) (N S S' : Fin n → K) : Prop :=
  (sysMat L dt).mulVec S' = rhs L dt S N

end

/-! ### Two dimensions -/

/-- The global names of the module fluidsim/operators/op_finitediff2d.py (12-17). -/
def globals2d : List String :=
  ["np", "OperatorFiniteDiff1DPeriodic", "OperatorFiniteDiff2DPeriodic"]

/-- The local names of `_create_sparse` (op_finitediff2d.py 115-127). -/
def localsCreateSparse : List String :=
  ["self", "values", "func_i1_mat", "size", "nb_values", "data", "i0s", "i1s", "i0_mat", "iv", "v"]

/-- Resolution of a name by Python (builtins given by a list). -/
def resolve (locals globals builtins : List String) (name : String) : Except String Unit :=
  if name ∈ locals then .ok () else if name ∈ globals then .ok ()
  else if name ∈ builtins then .ok () else .error "NameError"

/-- The functions `func_i1_mat` for the x derivative (op_finitediff2d.py 51-61): shift `+1` and `-1`
(python's `%` of a possibly negative integer). -/
def ixShift (nx : ℤ) (s : ℤ) (i0_mat : ℤ) : ℤ :=
  let i1 := i0_mat % nx
  let i0 := i0_mat / nx
  i0 * nx + (i1 + s) % nx

/-- The functions `func_i1_mat` for the y derivative (op_finitediff2d.py 83-93). -/
def iyShift (nx ny : ℤ) (s : ℤ) (i0_mat : ℤ) : ℤ :=
  let size := nx * ny
  let i1 := i0_mat % nx
  let i0 := i0_mat / nx
  ((i0 + s) * nx) % size + i1

section
variable {K : Type} [Field K]

/-- The entries that `_create_sparse` gives to `coo_matrix` (op_finitediff2d.py 122-126) for a list of
(value, index function): entries at the same place are added (contract of `coo_matrix`). -/
def coo (size : ℕ) (l : List (K × (ℤ → ℤ))) : Matrix (Fin size) (Fin size) K :=
  fun i j => ((l.filter fun d => decide (d.2 i.val = (j.val : ℤ))).map Prod.fst).sum

/-- The matrix meant to be `sparse_px` (op_finitediff2d.py 63-64). -/
def px2 (nx ny : ℕ) (dx : K) : Matrix (Fin (nx * ny)) (Fin (nx * ny)) K :=
  coo _ [(1 / (2 * dx), ixShift nx 1), (-1 / (2 * dx), ixShift nx (-1))]

/-- The matrix meant to be `sparse_pxx` (op_finitediff2d.py 66-81). -/
def pxx2 (nx ny : ℕ) (dx : K) : Matrix (Fin (nx * ny)) (Fin (nx * ny)) K :=
  coo _ [(-2 / dx ^ 2, id), (1 / dx ^ 2, ixShift nx 1), (1 / dx ^ 2, ixShift nx (-1))]

/-- The matrix meant to be `sparse_py` (op_finitediff2d.py 95-96). -/
def py2 (nx ny : ℕ) (dy : K) : Matrix (Fin (nx * ny)) (Fin (nx * ny)) K :=
  coo _ [(1 / (2 * dy), iyShift nx ny 1), (-1 / (2 * dy), iyShift nx ny (-1))]

/-- The matrix meant to be `sparse_pyy` (op_finitediff2d.py 98-113): the code divides by `dx**2`. -/
def pyy2 (nx ny : ℕ) (dx : K) : Matrix (Fin (nx * ny)) (Fin (nx * ny)) K :=
  coo _ [(-2 / dx ^ 2, id), (1 / dx ^ 2, iyShift nx ny 1), (1 / dx ^ 2, iyShift nx ny (-1))]

/-- `np.linspace(0, L, n)` (op_finitediff2d.py 48-49). -/
def linspace (L : K) (n : ℕ) (i : ℕ) : K := L * i / (n - 1)

/-- `OperatorFiniteDiff2DPeriodic.__init__` (op_finitediff2d.py 25-113): the matrices, or the error raised
by the first call of `_create_sparse`, whose last line looks for the name `sparse`. -/
def init2 (builtins : List String) (nx ny : ℕ) (Lx Ly : K) :
    Except String (Matrix (Fin (nx * ny)) (Fin (nx * ny)) K × Matrix (Fin (nx * ny)) (Fin (nx * ny)) K ×
      Matrix (Fin (nx * ny)) (Fin (nx * ny)) K × Matrix (Fin (nx * ny)) (Fin (nx * ny)) K) :=
  if nx = 0 ∨ ny = 0 then .error "ZeroDivisionError"
  else match resolve localsCreateSparse globals2d builtins "sparse" with
    | .error e => .error e
    | .ok () =>
      let dx := Lx / nx
      let dy := Ly / ny
      .ok (px2 nx ny dx, pxx2 nx ny dx, py2 nx ny dy, pyy2 nx ny dx)

end

end Verif.FiniteDiff
