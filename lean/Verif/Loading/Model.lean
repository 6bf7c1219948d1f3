import Verif.RunDirs.Model

/-!
# Model of the files touched by a simulation, and of the functions which load a simulation

Files: `fluidsim/util/util.py` (`load_sim_for_plot`, `load_state_phys_file`, `load_for_restart`),
`lib/fluidsim_core/output/base.py`, `fluidsim/base/output/base.py`, `fluidsim/base/solvers/base.py`,
`fluidsim/base/output/print_stdout.py`, `fluidsim/base/forcing/specific.py` (state of the forcing).

A directory is the list of its files with the records written in them (text lines, times of a series, states). What the
records contain is the subject of other properties; here a record is a text. When an output is due is given by the
schedule (an argument; the cadence is C15).
-/

namespace Verif.Loading

open RunDirs (Path Fs hasDir content endOfSimul)
open PhysFiles (Str)

/-- The exceptions. -/
inductive Err
  | attribute
  | notFound
  | retry
  | move (text : String)
  deriving DecidableEq, Repr

/-- The files of a directory: their names and their records (no record: no file). -/
abbrev Dir := Str → List Str

/-- What is done to a file. -/
inductive Act
  | append (r : Str)
  | replace (r : Str)
  | create (r : Str)
  deriving DecidableEq

/-- The records of a file afterwards. `create`: only if there is no file. -/
def Act.on : Act → List Str → List Str
  | .append r, l => l ++ [r]
  | .replace r, _ => [r]
  | .create r, l => if l = [] then [r] else l

/-- Writing in a file of a directory; the directory has to exist. -/
def write (fs : Fs Dir) (p : Path) (file : Str) (a : Act) : Except Err (Fs Dir) :=
  if hasDir fs p then
    .ok (fs.map fun e => if e.1 = p then (e.1, fun n => if n = file then a.on (e.2 n) else e.2 n) else e)
  else .error .notFound

/-- A list of writings in the directory of the simulation. -/
def writes (p : Path) : List (Str × Act) → Fs Dir → Except Err (Fs Dir)
  | [], fs => .ok fs
  | (file, a) :: l, fs => do
    let fs ← write fs p file a
    writes p l fs

/-! ### Parameters -/

/-- `params.init_fields.type` and the path of the file. -/
inductive Init
  | constant
  | fromFile (dir : Path) (file : Str)
  | other (type : Str)
  deriving DecidableEq

/-- The parameters of a simulation which concern the files. `none`: the parameter does not exist. `rest` stands for all the
other ones. -/
structure Params where
  hasToSave : Bool
  onlinePlot : Bool
  newDir : Bool
  pathRun : Option Path
  init : Init
  modifAfterInit : Bool
  onlyCoarse : Bool
  preprocess : Option Bool
  typeFft : Option Str
  typeFft2d : Option Str
  periods : List (Str × ℚ)
  rest : ℕ

/-- `try: params.oper.type_fft = "default"; params.oper.type_fft2d = "sequential"` (`util.py` 226-230, 312-316): the
second one is reached only if the first parameter exists. -/
def defaultFft (p : Params) : Params :=
  match p.typeFft with
  | none => p
  | some _ => { p with typeFft := some "default".toList, typeFft2d := p.typeFft2d.map fun _ => "sequential".toList }

/-- The parameters of `load_sim_for_plot` (`util.py` 208-231), from those of `params_simul.xml`. -/
def plotParams (dir : Path) (p : Params) : Params :=
  defaultFft { p with
    pathRun := some dir, init := .constant, modifAfterInit := false, onlyCoarse := true, newDir := false,
    hasToSave := false, onlinePlot := false, preprocess := p.preprocess.map fun _ => false }

/-- The parameters of `load_for_restart` (`util.py` 371-385), from those of the file. -/
def restartParams (dir : Path) (file : Str) (p : Params) : Params :=
  { p with
    pathRun := some dir, newDir := false, init := .fromFile dir file, modifAfterInit := false,
    preprocess := p.preprocess.map fun _ => false }

/-- The parameters of `load_state_phys_file` (`util.py` 302-316). -/
def stateParams (dir : Path) (file : Str) (modifSave : Bool) (p : Params) : Params :=
  let p := restartParams dir file p
  let p := if modifSave then { p with hasToSave := false, onlinePlot := false } else p
  defaultFft { p with onlyCoarse := false }

/-! ### A simulation and its files -/

/-- The system: FLUIDSIM_PATH, the base path of the new runs (FLUIDDYN_PATH_SCRATCH or FLUIDSIM_PATH), the sub-directory, and
the names of run for the successive seconds. -/
structure Sys where
  final : Path
  base : Path
  sub : Path
  names : List Str

/-- A simulation object. -/
structure Sim where
  hasToSave : Bool
  path : Path
  name : Str
  periods : List (Str × ℚ)

/-- The first name which is not the one of a directory (`lib/fluidsim_core/output/base.py` 264-288). -/
def freshName (fs : Fs Dir) (dir : Path) : List Str → Option Str
  | [] => none
  | n :: l => if hasDir fs (dir ++ [n]) then freshName fs dir l else some n

/-- A new directory for the run (`_init_path_run`, `lib/fluidsim_core/output/base.py` 240-300): made only if the results are
saved. -/
def newRun (y : Sys) (fs : Fs Dir) (hasToSave : Bool) : Except Err (Fs Dir × Path × Str × Bool) :=
  if hasToSave then
    match freshName fs (y.base ++ y.sub) y.names with
    | none => .error .retry
    | some n => .ok ((y.base ++ y.sub ++ [n], fun _ => []) :: fs, y.base ++ y.sub ++ [n], n, true)
  else .ok (fs, y.base ++ y.sub ++ [y.names.headD []], y.names.headD [], true)

/-- `OutputCore.__init__` (`lib/fluidsim_core/output/base.py` 180-231): the file system, the path of the run, its name, and
whether the directory is new. `sameRes`: the resolution is the one of the simulation of the directory. -/
def choosePath (y : Sys) (fs : Fs Dir) (p : Params) (sameRes : Bool) : Except Err (Fs Dir × Path × Str × Bool) :=
  if p.newDir then newRun y fs p.hasToSave
  else match p.pathRun with
    | none => .error .attribute
    | some d =>
      if p.hasToSave && !sameRes then newRun y fs p.hasToSave else .ok (fs, d, y.names.headD [], false)

/-- The lock file (`fluidsim/base/solvers/base.py` 136). -/
def lockFile : Str := "is_being_advanced.lock".toList

/-- The log file (`print_stdout.py` 56). -/
def stdoutFile : Str := "stdout.txt".toList

/-- The state of the forcing (`forcing/specific.py` 793). -/
def forcingFile : Str := "_forcing_state.txt".toList

/-- The periods of the outputs once `Output.__init__` has put them to zero if nothing has to be saved
(`base/output/base.py` 156-158). -/
def effectivePeriods (p : Params) : List (Str × ℚ) :=
  if p.hasToSave then p.periods else p.periods.map fun o => (o.1, 0)

/-- The writings of the construction of the object (`solvers/base.py` 128-230, `base/output/base.py` 190-309): the lock, the
messages, the two xml files in a new directory, the state of a time correlated forcing (`tcrandom`), the first records of the
outputs. -/
def initWrites (hasToSave new tcrandom : Bool) (periods : List (Str × ℚ)) : List (Str × Act) :=
  if hasToSave then
    [(lockFile, .create "pid".toList), (stdoutFile, .append "Program fluidsim".toList)]
    ++ (if new then [("info_solver.xml".toList, .append "info".toList), ("params_simul.xml".toList, .append "params".toList)]
        else [])
    ++ (if tcrandom then [(forcingFile, .create "seeds".toList)] else [])
    ++ ((periods.filter fun o => o.2 ≠ 0).map fun o => (o.1, .append "init".toList))
  else []

/-- The construction of a simulation. -/
def launch (y : Sys) (fs : Fs Dir) (p : Params) (sameRes tcrandom : Bool) : Except Err (Fs Dir × Sim) := do
  let (fs, path, name, new) ← choosePath y fs p sameRes
  let periods := effectivePeriods p
  let fs ← writes path (initWrites p.hasToSave new tcrandom periods) fs
  .ok (fs, ⟨p.hasToSave, path, name, periods⟩)

/-- What is due at a time step: whether a message is printed, the outputs which are due with their records, the new state of
the forcing. -/
structure Due where
  msg : Option Str
  outputs : List (Str × Str)
  forcing : Option Str

/-- The writings of one time step (`base/output/base.py` 311-327, `print_stdout.py` 76-84, `forcing/specific.py` 845-853). -/
def stepWrites (s : Sim) (d : Due) : List (Str × Act) :=
  if s.hasToSave then
    (match d.forcing with | some r => [(forcingFile, .replace r)] | none => [])
    ++ (match d.msg with | some r => [(stdoutFile, .append r)] | none => [])
    ++ ((d.outputs.filter fun o => s.periods.any fun q => q.1 = o.1 ∧ q.2 ≠ 0).map fun o => (o.1, .append o.2))
  else []

/-- Time steps. -/
def steps (s : Sim) : List Due → Fs Dir → Except Err (Fs Dir)
  | [], fs => .ok fs
  | d :: ds, fs => do
    let fs ← writes s.path (stepWrites s d) fs
    steps s ds fs

/-- `end_of_simul` (`base/output/base.py` 354-405): the last outputs and messages, then the move of the directory. -/
def finish (y : Sys) (s : Sim) (d : Due) (same : Bool) (fs : Fs Dir) : Except Err (Fs Dir × Path) := do
  let fs ← writes s.path (stepWrites s d) fs
  match endOfSimul fs y.final y.sub s.name same s.path with
  | .error e => .error (.move e)
  | .ok r => .ok r

end Verif.Loading
