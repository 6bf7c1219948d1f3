import Mathlib.Algebra.Field.Rat
import Mathlib.Algebra.Order.Ring.Rat
import Mathlib.Data.Nat.Log
import Mathlib.Data.List.Infix

/-!
# Model of the commands `fluidsim-bench`, `fluidsim-bench-analysis` and `fluidsim-profile`

Files: `fluidsim/util/console/util.py`, `bench.py`, `bench_analysis.py`, `profile.py` and the function
`get_dim_from_solver_key` of `fluidsim/util/util.py`.
-/

namespace Verif.Bench

/-- The exceptions of these commands. -/
inductive Err
  | console
  | value
  | notImplemented
  | zeroDivision
  | overflow
  | index
  deriving DecidableEq, Repr

/-! ### Grid and box -/

/-- The grid and the box of `params.oper` (`nz` and `Lz` are used only in 3D). -/
structure Oper (Q : Type) where
  nx : ℕ
  ny : ℕ
  nz : ℕ
  Lx : Q
  Ly : Q
  Lz : Q
  deriving DecidableEq, Repr

variable {Q : Type} [Field Q]

/-- `modif_box_size` (`util.py` 35-79); the messages printed are left out. -/
def modifBoxSize (p : Oper Q) (n0 n1 : ℕ) (n2 : Option ℕ) : Oper Q :=
  let nx : ℕ := match n2 with | none => n1 | some n2 => n2
  let ny : ℕ := match n2 with | none => n0 | some _ => n1
  let nz := n0
  let p := if nx ≠ ny then
      (if nx < ny then { p with Ly := p.Ly * ny / nx } else { p with Lx := p.Lx * nx / ny })
    else p
  match n2 with
  | none => p
  | some n2 => if n2 ≠ n0 then { p with Lz := p.Lx * nz / nx } else p

/-- The grid and the box after `modif_params2d` (`util.py` 103-110). -/
def modifParams2d (p : Oper Q) (n0 : ℕ) (n1 : Option ℕ) : Oper Q :=
  let n1 := n1.getD n0
  modifBoxSize { p with nx := n1, ny := n0 } n0 n1 none

/-- The grid and the box after `modif_params3d` (`util.py` 169-180). -/
def modifParams3d (p : Oper Q) (n0 : ℕ) (n1 n2 : Option ℕ) : Oper Q :=
  let n1 := n1.getD n0
  let n2 := n2.getD n0
  modifBoxSize { p with nx := n2, ny := n1, nz := n0 } n0 n1 (some n2)

/-! ### Arguments of the commands -/

/-- `get_dim_from_solver_key` (`fluidsim/util/util.py` 86-102), from the name of the class of the operators of the
solver. -/
def dimOfClass (className : List Char) : Except Err (List Char) :=
  if className = "OperatorsPseudoSpectralSW1L".toList then .ok ['2']
  else match ['0', '1', '2', '3'].find? (· ∈ className) with
    | some d => .ok [d]
    | none => .error .notImplemented

/-- The arguments of the command line read by `init_parser_base` (`util.py` 218-238). The solver is given with the name
of the class of its operators. -/
structure Args where
  n0 : Option ℕ
  n1 : Option ℕ
  n2 : Option ℕ
  dim : Option (List Char)
  solver : Option (List Char × List Char)
  deriving DecidableEq, Repr

/-- The arguments after `parse_args_dim`. -/
structure Parsed where
  n0 : ℕ
  n1 : ℕ
  n2 : Option ℕ
  dim : List Char
  solver : List Char
  deriving DecidableEq, Repr

/-- `parse_args_dim` (`util.py` 241-294). -/
def parseArgsDim (a : Args) : Except Err Parsed := do
  let dim ← match a.solver with
    | some (_, cls) => (dimOfClass cls).map some
    | none => .ok a.dim
  let dim ← match dim with
    | some d => .ok d
    | none =>
      if a.n0.isSome ∧ a.n1.isSome ∧ a.n2.isNone then .ok "2d".toList
      else if a.n0.isSome ∧ a.n1.isSome ∧ a.n2.isSome then .ok "3d".toList
      else .error .console
  let low := dim.map Char.toLower
  if low = "3".toList ∨ low = "3d".toList then
    let n0 := a.n0.getD 128
    let n2 := a.n2.getD n0
    .ok ⟨n0, a.n1.getD n0, some n2, "3d".toList, match a.solver with | some (s, _) => s | none => "ns3d".toList⟩
  else if low = "2".toList ∨ low = "2d".toList then
    let n0 := a.n0.getD 512
    .ok ⟨n0, a.n1.getD n0, a.n2, "2d".toList, match a.solver with | some (s, _) => s | none => "ns2d".toList⟩
  else .error .console

/-- The dimension of the classes of FFT in which `get_opfft` looks (`bench.py` 92-97). With `n2` and no dimension: the
classes in 3D. -/
def dimOpfft (n2 : Option ℕ) (dim : Option (List Char)) : ℕ :=
  if n2.isNone ∨ dim = some "2d".toList then 2 else 3

/-! ### Shapes for the weak scaling -/

/-- `estimate_shapes_weak_scaling` (`bench.py` 119-183): the list of the numbers of processes with the numbers of the
text of the shape. The shape of the operator of FFT (`get_shapeX_seq`) is the one asked for. The logarithms are exact
(the code uses floating point numbers, whose rounding can give one step less). In 3D the format has two fields for
three numbers. -/
def estimateShapes (n0 n1 : ℕ) (n2 : Option ℕ) (pmin pmax : ℕ) : Except Err (List (ℕ × List ℕ)) :=
  if pmin ≥ pmax then .error .value
  else if pmin = 0 then .error .zeroDivision
  else if pmax % pmin ≠ 0 then .error .value
  else if pmin = 1 then .error .overflow
  else
    let num := Nat.log pmin pmax
    let pmax := pmin ^ num
    .ok ((List.range num).map fun i =>
      let nproc := pmin ^ (i + 1)
      let divisor := pmax / nproc
      match n2 with
      | none => (nproc, [n0, n1 / divisor])
      | some n2 => (nproc, [n0, n1, n2 / divisor].take 2))

/-! ### Files of the benchmarks -/

/-- The result of a benchmark: what `bench` writes (`util.py` 356-387) and the name of the file (`get_path_file`,
`util.py` 297-326). `rest` is the text of the grid, of the number of processes, of the type of FFT and of the time. -/
structure Result where
  keySolver : List Char
  rest : List Char
  hostname : List Char
  deriving DecidableEq, Repr

/-- The name of the file (`util.py` 309-323). -/
def Result.name (r : Result) : List Char :=
  "result_bench_".toList ++ r.keySolver ++ ['_'] ++ r.rest ++ ".json".toList

/-- `glob(path_dir + "/result_bench_{solver}*.json")` on a name: `bench_analysis.py` 28 (the names of the solvers have
no special character). -/
def globMatch (solver name : List Char) : Bool :=
  let pre := "result_bench_".toList ++ solver
  pre.isPrefixOf name && ".json".toList.isSuffixOf (name.drop pre.length)

/-- `solver.split(".", 1)[1]` (`bench_analysis.py` 25). -/
def afterDot (solver : List Char) : Except Err (List Char) :=
  match solver.dropWhile (· ≠ '.') with
  | [] => .error .index
  | _ :: t => .ok t

/-- `load_bench` (`bench_analysis.py` 21-40): the results kept. -/
def loadBench (files : List Result) (solver hostname : List Char) : Except Err (List Result) := do
  let solver ← if "fluidsim".toList.isPrefixOf solver then afterDot solver else .ok solver
  .ok (files.filter fun r =>
    globMatch solver r.name && (hostname = "any".toList || hostname.isPrefixOf r.hostname))

/-! ### Scaling -/

/-- A row of the table of the times per iteration: the type of FFT, the number of processes, the time (after the
grouping, one row per type of FFT and number of processes; `bench_analysis.py` 121-141). -/
structure Row (Q : Type) where
  type : ℕ
  nproc : ℕ
  time : Q
  deriving DecidableEq, Repr

variable [LinearOrder Q]

/-- `df[df.nb_proc > 1]` (124). -/
def parallel (rows : List (Row Q)) : List (Row Q) := rows.filter fun r => 1 < r.nproc

/-- `nb_proc_min` (126). -/
def nprocMin (rows : List (Row Q)) : Option ℕ := ((parallel rows).map (·.nproc)).min?

/-- The smallest time for `nb_proc_min` processes (`get_min`, 143-153). -/
def timeMin (rows : List (Row Q)) (nb : ℕ) : Option Q :=
  (((parallel rows).filter fun r => r.nproc = nb).map (·.time)).min?

/-- `speedup` (`bench_analysis.py` 201, 221). -/
def speedup (tmin : Q) (nbMin : ℕ) (r : Row Q) : Q := tmin / r.time * nbMin

/-- `efficiency` (`bench_analysis.py` 222-226). -/
def efficiency (strong : Bool) (tmin : Q) (nbMin : ℕ) (r : Row Q) : Q :=
  if strong then speedup tmin nbMin r / r.nproc * 100 else speedup tmin nbMin r / 2 * 100

/-- The numbers of the curves of one directory, as (type, processes, speedup, efficiency), and the time kept for the next
directory: `plot_scaling` (`bench_analysis.py` 83-250), `none` when the table is empty (the command ends). -/
def plotScaling (strong : Bool) (rows : List (Row Q)) (tCum : Q) : Option (List (ℕ × ℕ × Q × Q) × Q) := do
  let nb ← nprocMin rows
  let t ← timeMin rows nb
  let t := min t tCum
  some ((parallel rows).map fun r => (r.type, r.nproc, speedup t nb r, efficiency strong t nb r), t)

/-- The loop on the directories (`run`, `bench_analysis.py` 292-306). -/
def plotDirs (strong : Bool) : List (List (Row Q)) → Q → Option (List (List (ℕ × ℕ × Q × Q)))
  | [], _ => some []
  | d :: ds, tCum => do
    let (c, t) ← plotScaling strong d tCum
    let cs ← plotDirs strong ds t
    some (c :: cs)

/-! ### Profile -/

/-- A function of the table of the profile: the file, the name, the time spent in it, and the times of its calls by the
other functions. -/
structure Func (Q : Type) where
  file : List Char
  name : List Char
  time : Q
  callers : List (List Char × List Char × Q)
  deriving DecidableEq, Repr

/-- `s in t` for texts. -/
def isIn (s t : List Char) : Bool := decide (s <:+: t)

/-- `kinds` (`profile.py` 329, 358-359), for a solver in `d` dimensions. -/
def kinds (d : Char) : List (List Char) :=
  ["fft_as".toList, "pythran".toList, ".pyx".toList, ".py".toList, "built-in".toList, "numpy".toList,
    ['f', 'f', 't', d, 'd']]

/-- Whether a function is counted in a kind (`profile.py` 367-400). -/
def counted (d : Char) (k : List Char) (f : Func Q) : Bool :=
  (isIn k f.name || isIn k f.file) &&
  !(k = ".pyx".toList && (isIn "fft/Sources".toList f.file || isIn "fft_as_arg".toList f.name)) &&
  !(k = ['f', 'f', 't', d, 'd'] && (isIn "__pythran__".toList f.name || isIn "operators.py".toList f.file
      || isIn "fft_as_arg".toList f.name)) &&
  !(k = "fft_as".toList && isIn ".pyx".toList f.file) &&
  !(k = ".py".toList && isIn "fft_as_arg".toList f.name) &&
  !(k = "built-in".toList && isIn "pythran".toList f.name)

/-- The time counted: for the FFT, the time of the calls which do not come from the functions `fft_as_arg`
(`profile.py` 382-390). -/
def timeIn (d : Char) (k : List Char) (f : Func Q) : Q :=
  if k = ['f', 'f', 't', d, 'd'] then
    ((f.callers.filter fun c => !isIn "fft_as_arg".toList c.2.1 && !isIn "fft_as_arg".toList c.1).map (·.2.2)).sum
  else f.time

/-- `total_time` (`profile.py` 351-354). -/
def total (fs : List (Func Q)) : Q := (fs.map (·.time)).sum

/-- `times[k]` (`profile.py` 362-402). -/
def times (d : Char) (fs : List (Func Q)) (k : List Char) : Q :=
  ((fs.filter (counted d k)).map (timeIn d k)).sum

/-- Assignment in a dictionary. -/
def dictSet (l : List (List Char × Q)) (name : List Char) (t : Q) : List (List Char × Q) :=
  match l with
  | [] => [(name, t)]
  | (n, u) :: l => if n = name then (n, t) :: l else (n, u) :: dictSet l name t

/-- `long_functions` with the times (`profile.py` 404-407). -/
def longFunctions (d : Char) (threshold : Q) (fs : List (Func Q)) : List (List Char × Q) :=
  fs.foldl (fun l f =>
    (kinds d).foldl (fun l k =>
      if counted d k f && decide (threshold < timeIn d k f / total fs) then dictSet l f.name (timeIn d k f) else l) l)
    []

/-- The percentages of the pie, with the part of the other functions at the end (`plot_pie`, `profile.py` 274-283). -/
def pie (d : Char) (threshold : Q) (fs : List (Func Q)) : List Q :=
  let ps := (longFunctions d threshold fs).map fun e => 100 * e.2 / total fs
  ps ++ [100 - ps.sum]

end Verif.Bench
