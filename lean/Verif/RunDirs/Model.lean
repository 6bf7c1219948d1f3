import Verif.PhysFiles.Model

/-!
# Directories of runs: creation (C20), final move (C21), lock file (C22)
-/

namespace Verif.RunDirs

/-! ### C20: creation of the directory of a new run -/

/-- Who made a directory. -/
inductive Owner where
  /-- the process number `i` of the model -/
  | proc (i : ℕ)
  /-- anything else: earlier runs, other programs -/
  | other
  deriving DecidableEq

/-- Where a process is in `_init_path_run` (lib/fluidsim_core/output/base.py 244-296), for
rank 0 and `HAS_TO_SAVE`: before `path_run.exists()` (line 268), before `path_run.mkdir`
(line 270), or after the loop. The name is `self.name_run`. -/
inductive Phase (N : Type*) where
  | test (n : N)
  | mk (n : N)
  | done (n : N)

/-- The directory `path_base` (by whom each entry was made, `none` if absent) and the
processes that run `_init_path_run` in it. -/
structure World (N : Type*) where
  dir : N → Option Owner
  proc : ℕ → Phase N

/-- Update of a function. -/
def set {A B : Type*} [DecidableEq A] (f : A → B) (a : A) (b : B) : A → B :=
  fun x => if x = a then b else f x

/-- One atomic action of one process or of the environment
(lib/fluidsim_core/output/base.py 264-288). `n'` is the name given by `_init_name_run()`:
any name (it contains the time of the clock, in seconds). `mkdir` is atomic and fails on an
existing path. Directories are never removed. -/
inductive Step {N : Type*} [DecidableEq N] : World N → World N → Prop
  /-- lines 284-286: the path exists, new name -/
  | testExists (w : World N) (i : ℕ) (n n' : N) : w.proc i = .test n → w.dir n ≠ none →
      Step w ⟨w.dir, set w.proc i (.test n')⟩
  /-- line 268: the path does not exist -/
  | testFree (w : World N) (i : ℕ) (n : N) : w.proc i = .test n → w.dir n = none →
      Step w ⟨w.dir, set w.proc i (.mk n)⟩
  /-- lines 270, 282-283: `mkdir` succeeds -/
  | mkOk (w : World N) (i : ℕ) (n : N) : w.proc i = .mk n → w.dir n = none →
      Step w ⟨set w.dir n (some (.proc i)), set w.proc i (.done n)⟩
  /-- lines 271-281: `mkdir` raises OSError since the path exists by now -/
  | mkFails (w : World N) (i : ℕ) (n n' : N) : w.proc i = .mk n → w.dir n ≠ none →
      Step w ⟨w.dir, set w.proc i (.test n')⟩
  /-- lines 271-281: `mkdir` raises another OSError -/
  | mkError (w : World N) (i : ℕ) (n n' : N) : w.proc i = .mk n →
      Step w ⟨w.dir, set w.proc i (.test n')⟩
  /-- another program makes a directory -/
  | env (w : World N) (n : N) : w.dir n = none → Step w ⟨set w.dir n (some .other), w.proc⟩

/-- Finite executions. -/
inductive Steps {N : Type*} [DecidableEq N] : World N → World N → Prop
  | refl (w : World N) : Steps w w
  | tail {a b c : World N} : Steps a b → Step b c → Steps a c

/-- Beginning: the processes have their first name, all the existing entries were made by
others. -/
def Init {N : Type*} (w : World N) : Prop :=
  (∀ i, ∃ n, w.proc i = .test n) ∧ ∀ n, w.dir n = none ∨ w.dir n = some .other

/-- The loop of `_init_path_run` for a lone process (lib/fluidsim_core/output/base.py
264-286): `names k` is the name after `k` calls of `_init_name_run`; `fuel` bounds the number
of iterations. Returns the name of the directory which is made. -/
def initPathRun {N : Type*} (exists_ : N → Bool) (names : ℕ → N) : ℕ → ℕ → Option N
  | 0, _ => none
  | fuel + 1, k =>
    if exists_ (names k) then initPathRun exists_ names fuel (k + 1) else some (names k)

/-- Which directory is used (lib/fluidsim_core/output/base.py 176-232), on rank 0.
`pathRun`: `params.path_run` if there is one. `saved`: what `_load_params_simul(path_run)`
gives: the resolution of the directory, or `none` for an IOError. A resolution is a list of
`(name, value)` of the attributes nx, ny, nz which exist in `params.oper`.
Result: `some path` if the old directory is used, `none` if a new one is made. -/
def chooseDir (newDir hasToSave : Bool) (pathRun : Option String)
    (saved : Option (List (String × ℕ))) (res : List (String × ℕ)) :
    Except String (Option String) :=
  if newDir then .ok none
  else match pathRun with
    -- `_init_name_run` (line 177) reads `params.path_run` before the `try` of line 182
    | none => .error "AttributeError"
    | some path =>
      if hasToSave then match saved with
        | none => .error "ValueError"
        | some old =>
          -- lines 203-215
          if ["nx", "ny", "nz"].any (fun n => match res.lookup n, old.lookup n with
            | some a, some b => a != b
            | _, _ => false)
          then .ok none else .ok (some path)
      else .ok (some path)

/-! ### C21: move of the directory at the end -/

open PhysFiles (Str digs)

/-- A path: its components. -/
abbrev Path := List Str

/-- The text of a path. -/
def text : Path → Str
  | [] => []
  | c :: l => '/' :: c ++ text l

/-- The directories with results and their contents (`C`: everything below). -/
abbrev Fs (C : Type*) := List (Path × C)

/-- `Path.exists` for the directories of the model. -/
def hasDir {C : Type*} (fs : Fs C) (p : Path) : Bool := fs.any fun e => e.1 == p

/-- The content of a directory. -/
def content {C : Type*} (fs : Fs C) (p : Path) : Option C := fs.lookup p

/-- `new_path_run.with_name(self.sim.name_run + f"_{i}")`. -/
def suffixed (base : Path) (name : Str) (i : ℕ) : Path :=
  if i = 0 then base ++ [name] else base ++ [name ++ '_' :: digs i]

/-- The loop `while new_path_run.exists()` (fluidsim/base/output/base.py 383-386). -/
def freshPath {C : Type*} (fs : Fs C) (base : Path) (name : Str) : ℕ → ℕ → Option Path
  | 0, _ => none
  | fuel + 1, i =>
    if hasDir fs (suffixed base name i) then freshPath fs base name fuel (i + 1)
    else some (suffixed base name i)

/-- `shutil.move(src, dst)` for directories: inside `dst` if it is an existing directory (and
an error if it has already an entry of this name). Simplification: the existence of parents is
not tracked (`os.makedirs(path_base)` at lines 389-390 makes them). -/
def moveDir {C : Type*} (fs : Fs C) (src dst : Path) : Except String (Fs C) :=
  match content fs src with
  | none => .error "FileNotFoundError"
  | some c =>
    let real := if hasDir fs dst then dst ++ src.getLast?.toList else dst
    if hasDir fs real then .error "shutil.Error"
    else .ok ((real, c) :: fs.filter fun e => e.1 != src)

/-- The new path of `end_of_simul` (fluidsim/base/output/base.py 368-386) or `none` if the
method leaves the directory where it is. `same` is the result of `samefile` on the parents
(`False` if it raises OSError). The fuel is enough (proved). -/
def newPath {C : Type*} (fs : Fs C) (final sub : Path) (name : Str) (same : Bool)
    (pathRun : Path) : Option Path :=
  if (text final).isPrefixOf (text pathRun) then none
  else if same then none
  else freshPath fs (final ++ sub) name (fs.length + 1) 0

/-- `end_of_simul` on rank 0 (fluidsim/base/output/base.py 368-401): the directories and
`path_run` afterwards. -/
def endOfSimul {C : Type*} (fs : Fs C) (final sub : Path) (name : Str) (same : Bool)
    (pathRun : Path) : Except String (Fs C × Path) :=
  match newPath fs final sub name same pathRun with
  | none => .ok (fs, pathRun)
  | some p =>
    if hasDir fs pathRun then
      match moveDir fs pathRun p with
      | .error e => .error e
      | .ok fs' => .ok (fs', p)
    else .ok (fs, p)

/-! ### C22: the lock file -/

/-- A process that works on a run directory. -/
inductive PState where
  | idle
  /-- after `self._lockfile.exists()` (fluidsim/base/solvers/base.py 136), with its result -/
  | tested (saw : Bool)
  /-- advancing the simulation; has it received SIGTERM? -/
  | running (term : Bool)
  deriving DecidableEq

/-- The lock file of one directory and the processes. -/
structure Lock where
  exists_ : Bool
  proc : ℕ → PState

/-- What can happen. -/
inductive Ev where
  /-- line 136: existence test -/
  | test (i : ℕ)
  /-- lines 137-146: warning if it exists, otherwise it is written -/
  | create (i : ℕ)
  /-- SIGTERM: lines 154-159 -/
  | term (i : ℕ)
  /-- SIGINT: the lock is released and KeyboardInterrupt ends the process (lines 154-157) -/
  | int (i : ℕ)
  /-- the simulation ends, in the same directory: lines 108-115 and `release_lock` -/
  | finish (i : ℕ)
  /-- the simulation ends and `end_of_simul` moves the directory with its lock file: the path
  tested at line 114 and in `release_lock` is the old one, which does not exist any more -/
  | finishMoved (i : ℕ)
  /-- SIGKILL or a crash of the machine -/
  | kill (i : ℕ)
  deriving DecidableEq

/-- Effect of an event (fluidsim/base/solvers/base.py 101-163). Events which are not possible
in a state change nothing. Only `HAS_TO_SAVE` and rank 0. -/
def lockStep (s : Lock) : Ev → Lock
  | .test i => match s.proc i with
    | .idle => ⟨s.exists_, set s.proc i (.tested s.exists_)⟩
    | _ => s
  | .create i => match s.proc i with
    | .tested saw => ⟨if saw then s.exists_ else true, set s.proc i (.running false)⟩
    | _ => s
  | .term i => match s.proc i with
    | .running _ => ⟨false, set s.proc i (.running true)⟩
    | _ => s
  | .int i => match s.proc i with
    | .running _ => ⟨false, set s.proc i .idle⟩
    | _ => s
  | .finish i => match s.proc i with
    | .running _ => ⟨false, set s.proc i .idle⟩
    | _ => s
  | .finishMoved i => match s.proc i with
    | .running _ => ⟨s.exists_, set s.proc i .idle⟩
    | _ => s
  | .kill i => match s.proc i with
    | .running _ => ⟨s.exists_, set s.proc i .idle⟩
    | .tested _ => ⟨s.exists_, set s.proc i .idle⟩
    | .idle => s

/-- A directory which nobody works on. -/
def lock0 : Lock := ⟨false, fun _ => .idle⟩

/-- A history. -/
def lockRun (evs : List Ev) : Lock := evs.foldl lockStep lock0

end Verif.RunDirs
