import Mathlib.Analysis.SpecialFunctions.Log.Deriv
import Mathlib.Analysis.SpecialFunctions.Sqrt

/-! # Model of the 0d models (Lorenz, Lotka-Volterra) and of the output of the second -/

namespace Verif.Models0d

noncomputable section

/-! ### Lorenz -/

structure Lorenz where
  sigma : ℝ
  beta : ℝ
  rho : ℝ

/-- The default parameters (fluidsim/solvers/models0d/lorenz/solver.py 72). -/
def Lorenz.default : Lorenz := ⟨10, 8 / 3, 28⟩

/-- `tendencies_nonlin` (models0d/lorenz/solver.py 128-130). -/
def Lorenz.tend (p : Lorenz) (s : ℝ × ℝ × ℝ) : ℝ × ℝ × ℝ :=
  let X := s.1
  let Y := s.2.1
  let Z := s.2.2
  (p.sigma * (Y - X), p.rho * X - Y - X * Z, X * Y - p.beta * Z)

/-- `math.sqrt`. -/
def pySqrt (x : ℝ) : Except String ℝ := if x < 0 then .error "ValueError" else .ok √x

/-- The end of `Simul.__init__` (models0d/lorenz/solver.py 75-80): the points `(Xs0, Ys0, Zs0)` and
`(Xs1, Ys1, Zs1)`. -/
def Lorenz.init (p : Lorenz) : Except String ((ℝ × ℝ × ℝ) × (ℝ × ℝ × ℝ)) :=
  let Zs := p.rho - 1
  match pySqrt (p.beta * Zs) with
  | .error e => .error e
  | .ok x => .ok ((x, x, Zs), (-x, -x, Zs))

/-! ### Lotka-Volterra -/

structure Lotka where
  A : ℝ
  B : ℝ
  C : ℝ
  D : ℝ

/-- The default parameters (fluidsim/solvers/models0d/predaprey/solver.py 69). -/
def Lotka.default : Lotka := ⟨1, 1, 1, 1 / 2⟩

/-- `tendencies_nonlin` (models0d/predaprey/solver.py 122-123). -/
def Lotka.tend (p : Lotka) (s : ℝ × ℝ) : ℝ × ℝ :=
  (p.A * s.1 - p.B * s.1 * s.2, -p.C * s.2 + p.D * s.1 * s.2)

/-- The point `(Xs, Ys)` (models0d/predaprey/solver.py 75-76). -/
def Lotka.fixed (p : Lotka) : ℝ × ℝ := (p.C / p.D, p.A / p.B)

/-- `compute_potential` (models0d/predaprey/output/__init__.py 46-52). -/
def Lotka.potential (p : Lotka) (s : ℝ × ℝ) : ℝ :=
  p.C * Real.log s.1 - p.D * s.1 + p.A * Real.log s.2 - p.B * s.2

/-! ### `PrintStdOutPredaPrey` -/

/-- Attributes of the object used to print (models0d/predaprey/output/print_stdout.py). -/
structure Printer where
  potential0 : ℝ
  potential_tmp : ℝ
  potential_temp : Option ℝ

/-- `complete_init_with_state` (print_stdout.py 26-35). -/
def Printer.init (potential : ℝ) : Printer := ⟨potential, potential, none⟩

/-- `_make_str_info` (print_stdout.py 37-61): the printed couple (potential, Delta pot) and the attributes
after the call; line 60 sets `potential_temp`. -/
def Printer.print (o : Printer) (potential : ℝ) : (ℝ × ℝ) × Printer :=
  ((potential, potential - o.potential_tmp), { o with potential_temp := some potential })

/-- All the couples printed for a sequence of values of the potential. -/
def Printer.run (o : Printer) : List ℝ → List (ℝ × ℝ)
  | [] => []
  | v :: vs => (o.print v).1 :: (o.print v).2.run vs

/-! ### `PrintStdOutPredaPrey.load` -/

/-- The lines of `stdout.txt`: the three lines of one print (base/output/print_stdout.py 99-103,
predaprey/output/print_stdout.py 42-55) or another line (the text of the line is abstracted to the numbers
parsed by `load`). -/
inductive Line where
  | it (it : ℕ) (t deltat : ℝ)
  | xy (X Y : ℝ)
  | pot (P deltaP : ℝ)
  | other

/-- One print. -/
structure Rec where
  it : ℕ
  t : ℝ
  deltat : ℝ
  X : ℝ
  Y : ℝ
  P : ℝ
  deltaP : ℝ

/-- The lines of one print. -/
def Rec.lines (r : Rec) : List Line := [.it r.it r.t r.deltat, .xy r.X r.Y, .pot r.P r.deltaP]

def itOf : Line → Option (ℕ × ℝ × ℝ)
  | .it a b c => some (a, b, c)
  | _ => none

def xyOf : Line → Option (ℝ × ℝ)
  | .xy a b => some (a, b)
  | _ => none

def potOf : Line → Option (ℝ × ℝ)
  | .pot a b => some (a, b)
  | _ => none

/-- The values put at index `il` of the arrays (predaprey/output/print_stdout.py 97-116), or the `IndexError`
of `lines_P[il]` or `lines_X[il]`. -/
def recAt (linesT : List (ℕ × ℝ × ℝ)) (linesP linesX : List (ℝ × ℝ)) (il : ℕ) : Except String Rec :=
  match linesT[il]?, linesP[il]?, linesX[il]? with
  | some (it, t, dt), some (P, dP), some (X, Y) => .ok ⟨it, t, dt, X, Y, P, dP⟩
  | _, _, _ => .error "IndexError"

/-- `load` (predaprey/output/print_stdout.py 63-118): the records, or the `IndexError` of
`lines_P[il]` or `lines_X[il]`. -/
def load (lines : List Line) : Except String (List Rec) :=
  let linesT := lines.filterMap itOf
  let linesP := lines.filterMap potOf
  let linesX := lines.filterMap xyOf
  let nt := if linesT.length > 1 then linesT.length - 1 else linesT.length
  (List.range nt).mapM (recAt linesT linesP linesX)

end

end Verif.Models0d
