import Mathlib.Data.List.Basic

/-!
# Time series appended to HDF5 files (C16)

Model of the files written by `SpecificOutput` and its children. Values are elements of an
arbitrary type `V` with a fill value (what HDF5 puts in the cells created by `resize`);
times are elements of an arbitrary type `T` with a fill value.
-/

namespace Verif.Series

/-- Names of the datasets. -/
abbrev Key := String

variable {T V : Type*} [Inhabited T] [Inhabited V]

/-- A time-series file: the dataset `times` and the extendable datasets
(fluidsim/base/output/base.py 614-643). The arrays saved only at creation
(`arrays_1st_time`) and the attributes are left out: nothing modifies them. -/
structure File (T V : Type*) where
  times : List T
  dsets : List (Key × List V)

/-- h5py's `Dataset.resize` along the first axis: truncates or extends with the fill
value. -/
def resize {A : Type*} [Inhabited A] (l : List A) (n : ℕ) : List A :=
  l.take n ++ List.replicate (n - l.length) default

/-- One primitive operation on the file. -/
inductive Op (T V : Type*) where
  | resizeTimes (n : ℕ)
  | setTime (i : ℕ) (t : T)
  | resizeKey (k : Key) (n : ℕ)
  | setKey (k : Key) (i : ℕ) (v : V)

/-- Apply a function to the dataset `k`. -/
def updKey (ds : List (Key × List V)) (k : Key) (g : List V → List V) : List (Key × List V) :=
  ds.map fun e => if e.1 = k then (e.1, g e.2) else e

/-- Effect of one primitive operation. -/
def applyOp (f : File T V) : Op T V → File T V
  | .resizeTimes n => { f with times := resize f.times n }
  | .setTime i t => { f with times := f.times.set i t }
  | .resizeKey k n => { f with dsets := updKey f.dsets k (fun l => resize l n) }
  | .setKey k i v => { f with dsets := updKey f.dsets k (fun l => l.set i v) }

/-- A dictionary of results, in iteration order. -/
abbrev Dict (V : Type*) := List (Key × V)

/-- The primitive operations of `_add_dict_arrays_to_file` when there are `n` saved times
(fluidsim/base/output/base.py 650-663; the two branches, numbers and arrays, differ only in
the shape of a record). Also `_add_dict_arrays_to_open_file` (665-673), where `n` is the
argument `nb_saved_times`. -/
def appendOps (n : ℕ) (t : T) (d : Dict V) : List (Op T V) :=
  .resizeTimes (n + 1) :: .setTime n t ::
    d.flatMap fun e => [.resizeKey e.1 (n + 1), .setKey e.1 n e.2]

/-- What is in the file after the first `m` primitive operations; `m` is the crash point
(beyond the end: no crash). It is assumed that the operations made before a crash are in
the file. -/
def appendUpTo (m : ℕ) (n : ℕ) (f : File T V) (t : T) (d : Dict V) : File T V :=
  ((appendOps n t d).take m).foldl applyOp f

/-- The errors raised. `keyError`: h5py's for an unknown dataset. -/
inductive Err where
  | valueError
  | keyError
  deriving DecidableEq

/-- Is the dataset in the file? -/
def hasKey (f : File T V) (k : Key) : Bool := f.dsets.any fun e => e.1 = k

/-- Number of primitive operations executed before the first unknown dataset. -/
def opsBeforeError (f : File T V) (d : Dict V) : ℕ :=
  2 + 2 * (d.takeWhile fun e => hasKey f e.1).length

/-- `_add_dict_arrays_to_file` (fluidsim/base/output/base.py 645-663) on an existing or
missing file: the new content and the error, if any. -/
def addDict (f : Option (File T V)) (t : T) (d : Dict V) : Option (File T V) × Option Err :=
  match f with
  | none => (none, some .valueError)
  | some f =>
    if d.all fun e => hasKey f e.1 then
      (some (appendUpTo (appendOps f.times.length t d).length f.times.length f t d), none)
    else
      (some (appendUpTo (opsBeforeError f d) f.times.length f t d), some .keyError)

/-- `_create_file_from_dict_arrays` (fluidsim/base/output/base.py 614-643): one record per
key. -/
def createFile (t : T) (d : Dict V) : File T V :=
  ⟨[t], d.map fun e => (e.1, [e.2])⟩

/-- `_init_files` (fluidsim/base/output/base.py 580-595): create the file, or append a record
to the file left by a previous process. -/
def initFiles (f : Option (File T V)) (t : T) (d : Dict V) : Option (File T V) × Option Err :=
  match f with
  | none => (some (createFile t d), none)
  | some f => addDict (some f) t d

/-- The life of a file. `start`: a process (first one or restart) creates its output object
at time `t`. `save`: it saves a record. `crash m`: it is killed while saving, after `m`
primitive operations. -/
inductive Ev (T V : Type*) where
  | start (t : T) (d : Dict V)
  | save (t : T) (d : Dict V)
  | crash (m : ℕ) (t : T) (d : Dict V)

/-- The file after one event (fluidsim/base/output/base.py 580-612). -/
def step (f : Option (File T V)) : Ev T V → Option (File T V)
  | .start t d => (initFiles f t d).1
  | .save t d => (addDict f t d).1
  | .crash m t d => f.map fun f => appendUpTo m f.times.length f t d

/-- The file after a history, starting without file. -/
def run (h : List (Ev T V)) : Option (File T V) := h.foldl step none

/-! ### `time_signals_fft` keeps its own counter -/

/-- The file and `nb_saved_times` (fluidsim/base/output/time_signals_fft.py 179-201). -/
structure Sig (T V : Type*) where
  file : Option (File T V)
  nb : ℕ

/-- `TimeSignalsK._init_files` (time_signals_fft.py 179-201): a record only if the file does
not exist; the counter is set to one in all cases. -/
def sigStart (s : Sig T V) (t : T) (d : Dict V) : Sig T V :=
  match s.file with
  | none => ⟨some (createFile t d), 1⟩
  | some f => ⟨some f, 1⟩

/-- `TimeSignalsK._online_save` when the test is fulfilled (time_signals_fft.py 206-213). -/
def sigSave (s : Sig T V) (t : T) (d : Dict V) : Sig T V :=
  match s.file with
  | none => s
  | some f => ⟨some (appendUpTo (appendOps s.nb t d).length s.nb f t d), s.nb + 1⟩

/-- History of a `time_signals_fft` file (`crash` is not used here). -/
def sigStep (s : Sig T V) : Ev T V → Sig T V
  | .start t d => sigStart s t d
  | .save t d => sigSave s t d
  | .crash _ _ _ => s

/-- The state after a history. -/
def sigRun (h : List (Ev T V)) : Sig T V := h.foldl sigStep ⟨none, 0⟩

/-! ### Probes: files of bounded size -/

/-- Output of probes (`temporal_spectra`, `spatiotemporal_spectra`): the files by name in
order of creation, the name of the current one, the number of times in it
(fluidsim/base/output/temporal_spectra.py 210-330). One dataset is enough. -/
structure Probes (T V : Type*) where
  files : List (String × File T V)
  cur : String
  nb : ℕ

/-- `_init_new_file` (temporal_spectra.py 308-349, spatiotemporal_spectra.py 397-437): the
file is opened with mode "w" (an existing file of this name is emptied) and its datasets are
created with one cell. -/
def newFile (p : Probes T V) (name : String) (keys : List Key) : Probes T V :=
  ⟨(p.files.filter fun e => e.1 ≠ name) ++ [(name, ⟨[default], keys.map fun k => (k, [default])⟩)],
    name, 0⟩

/-- `_write_to_file` (temporal_spectra.py 351-368) with `nb` the new number of times: the
datasets are resized to `nb` and the last cell is written. -/
def writeOps (nb : ℕ) (t : T) (d : Dict V) : List (Op T V) :=
  .resizeTimes nb :: .setTime (nb - 1) t ::
    d.flatMap fun e => [.resizeKey e.1 nb, .setKey e.1 (nb - 1) e.2]

/-- `_online_save` when the test is fulfilled (temporal_spectra.py 377-390): a new file if
`nb >= max`, then one record; `name` gives the file name for a time. -/
def probeSave (name : T → String) (max : ℕ) (p : Probes T V) (t : T) (d : Dict V) :
    Probes T V :=
  let p := if p.nb ≥ max then newFile p (name t) (d.map Prod.fst) else p
  let nb := p.nb + 1
  { p with
    files := p.files.map fun e =>
      if e.1 = p.cur then (e.1, (writeOps nb t d).foldl applyOp e.2) else e
    nb := nb }

/-- Construction at time `t` (temporal_spectra.py 192-293): without file a new one; otherwise
the current file is the last one and the number of times is the size of its dataset.
Simplification: `sorted(glob)` returns the files in order of creation (names contain the
zero-padded time). -/
def probeStart (name : T → String) (p : Probes T V) (t : T) (keys : List Key) : Probes T V :=
  match p.files.getLast? with
  | none => newFile p (name t) keys
  | some e => { p with cur := e.1, nb := e.2.times.length }

/-- One event of the life of the probes' files. -/
def probeStep (name : T → String) (max : ℕ) (keys : List Key) (p : Probes T V) :
    Ev T V → Probes T V
  | .start t _ => probeStart name p t keys
  | .save t d => probeSave name max p t d
  | .crash _ _ _ => p

/-- After a history. -/
def probeRun (name : T → String) (max : ℕ) (keys : List Key) (h : List (Ev T V)) :
    Probes T V := h.foldl (probeStep name max keys) ⟨[], "", 0⟩

end Verif.Series
