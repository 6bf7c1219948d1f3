import Mathlib.Algebra.Order.Field.Basic
import Mathlib.Data.Int.Init
import Mathlib.Data.List.Sort
import Mathlib.Logic.Function.Basic
import Verif.Modes.Model

/-!
Model of the files of the probes of `spatiotemporal_spectra` and `temporal_spectra` and of the
functions which load time series from them
(/repo/fluidsim/base/output/spatiotemporal_spectra.py,
/repo/fluidsim/base/output/temporal_spectra.py).

Times are elements of an ordered field `Q`; rounding is not modelled except where a theorem
says so. A record of a file is a time together with the values of the probes of the process.
-/

namespace Verif.SpatioTemporal

open Verif.Modes

/-- The exceptions which can be raised: `ValueError` and `IndexError`. -/
inductive Err
  | value
  | index
  deriving DecidableEq, Repr

/-- One file `rank<r>_tmin<t>.h5` of one process: the time in its name, then its records
(`times[i]`, `<key>_Fourier_loc[:, i]`) (spatiotemporal_spectra.py 387-432). One key is
enough: all keys are written and read in the same way. -/
structure File (Q V : Type*) where
  tmin : Q
  recs : List (Q × List V)

/-- `file["times"][:]`. -/
def File.times {Q V : Type*} (f : File Q V) : List Q := f.recs.map Prod.fst

/-- All files of one process, with the nondimensional wavenumbers of its probes
(`probes_k0adim_loc`, `probes_k1adim_loc`, `probes_k2adim_loc`: 365-375, written by 404-411). -/
structure Rank (Q V : Type*) where
  probes : List (ℤ × ℤ × ℤ)
  files : List (File Q V)

section search

variable {Q : Type*}

/-- `find_index_first_geq`, `find_index_first_g`, `find_index_first_l`
(spatiotemporal_spectra.py 43-70): `ValueError` when no element fulfils the condition. -/
def firstIdx (p : Q → Bool) (l : List Q) : Except Err ℕ :=
  match l.findIdx? p with
  | some i => .ok i
  | none => .error .value

/-- `np.diff`. -/
def diffs [Sub Q] : List Q → List Q
  | a :: b :: l => (b - a) :: diffs (b :: l)
  | _ => []

variable [Field Q] [LinearOrder Q]

/-- `filter_tmins_paths` (spatiotemporal_spectra.py 73-78). `diffs.min()` raises `ValueError`
on an empty array (no file at all). -/
def filterFiles {V : Type*} (tmin : Q) (files : List (File Q V)) :
    Except Err (List (File Q V)) :=
  if files.length = 1 then .ok files
  else
    match (diffs (files.map File.tmin)).min? with
    | none => .error .value
    | some delta =>
      match firstIdx (fun t => decide (t < delta)) (files.map fun f => tmin - f.tmin) with
      | .error e => .error e
      | .ok start => .ok (files.drop start)

/-- `get_arange_minmax` (spatiotemporal_spectra.py 92-109). `times[0]` raises `IndexError` on
an empty array. -/
def arangeMinMax (times : List Q) (tmin tmax : Q) : Except Err (List ℕ) :=
  match times.head?, times.getLast? with
  | some first, some last =>
    match (if tmin ≤ first then .ok 0 else firstIdx (fun t => decide (tmin ≤ t)) times) with
    | .error e => .error e
    | .ok start =>
      match (if last ≤ tmax then .ok times.length
        else firstIdx (fun t => decide (tmax < t)) times) with
      | .error e => .error e
      | .ok stop => .ok (List.range' start (stop - start))
  | _, _ => .error .index

/-- `sort_files_tmin` (spatiotemporal_spectra.py 81-89). -/
def sortFiles {V : Type*} (files : List (File Q V)) : List (File Q V) :=
  files.insertionSort (fun f g => f.tmin ≤ g.tmin)

end search

/-- Bounds of the region along one axis of the spectral arrays: `iksmin[dims_order][j]` and
`iksmax[dims_order][j]` (spatiotemporal_spectra.py 294-300, 532-537). -/
structure Bounds where
  lo : ℤ
  hi : ℤ
  deriving DecidableEq, Repr

/-- The bounds of the three physical axes (0 = z, 1 = y, 2 = x) for
`probes_region = (ikxmax, ikymax, ikzmax)`. -/
def physBounds (ikxmax ikymax ikzmax : ℤ) : ℕ → Bounds
  | 0 => ⟨1 - ikzmax, ikzmax⟩
  | 1 => ⟨1 - ikymax, ikymax⟩
  | _ => ⟨0, ikxmax⟩

/-- `iksmax[dims_order]`, `iksmin[dims_order]`: the bounds of the three axes of the arrays, for
`dims_order = dimX_K` (the physical axis stored along each axis of the arrays). -/
def axisBounds (phys : ℕ → Bounds) (order : ℕ × ℕ × ℕ) : Bounds × Bounds × Bounds :=
  (phys order.1, phys order.2.1, phys order.2.2)

/-- `ikmax + 1 - ikmin`: size of an axis of the series (spatiotemporal_spectra.py 538-543). -/
def Bounds.size (b : Bounds) : ℕ := (b.hi + 1 - b.lo).toNat

/-- `np.r_[0 : ikmax + 1, ikmin:0]` (spatiotemporal_spectra.py 617-622). -/
def Bounds.adims (b : Bounds) : List ℤ :=
  (List.range (b.hi + 1).toNat).map Int.ofNat
    ++ (List.range (0 - b.lo).toNat).map fun i => b.lo + Int.ofNat i

/-- `cond_region` (spatiotemporal_spectra.py 336-348) along one axis. -/
def Bounds.has (b : Bounds) (k : ℤ) : Prop := b.lo ≤ k ∧ k ≤ b.hi

/-- Shape of the series without the time axis. -/
def shape (bs : Bounds × Bounds × Bounds) : ℕ × ℕ × ℕ := (bs.1.size, bs.2.1.size, bs.2.2.size)

/-- `series[key]`: the array of shape `shape + (times.size,)` created by `np.empty`
(spatiotemporal_spectra.py 558-560): a cell without value is `none`. -/
abbrev Arr (V : Type*) := ℕ × ℕ × ℕ → ℕ → Option V

section load

variable {Q V : Type*} [Field Q] [LinearOrder Q]

/-- `series[skey][ik0, ik1, ik2, it] = data[:, i]` (spatiotemporal_spectra.py 602-604): the
indices are the wavenumbers themselves, negative ones count from the end. -/
def writeCol (sh : ℕ × ℕ × ℕ) (it : ℕ) : List ((ℤ × ℤ × ℤ) × V) → Arr V → Except Err (Arr V)
  | [], arr => .ok arr
  | (k, v) :: l, arr =>
    match pyIdx3 sh k with
    | none => .error .index
    | some c => writeCol sh it l (Function.update arr c (Function.update (arr c) it (some v)))

/-- The loop `for i, it in enumerate(its)` (602-604): `cols` are the columns
`data[:, 0], data[:, 1], ...`; an `IndexError` if there are less columns than indices. -/
def writeCols (sh : ℕ × ℕ × ℕ) (probes : List (ℤ × ℤ × ℤ)) :
    List ℕ → List (List V) → Arr V → Except Err (Arr V)
  | [], _, arr => .ok arr
  | _ :: _, [], _ => .error .index
  | it :: its, col :: cols, arr =>
    match writeCol sh it (probes.zip col) arr with
    | .error e => .error e
    | .ok arr => writeCols sh probes its cols arr

/-- Body of the loop on the files of a process (spatiotemporal_spectra.py 584-608). -/
def loadFile (sh : ℕ × ℕ × ℕ) (probes : List (ℤ × ℤ × ℤ)) (times : List Q) (tmin tmax : Q)
    (arr : Arr V) (f : File Q V) : Except Err (Arr V) :=
  match f.times.getLast? with
  | none => .error .index
  | some last =>
    if last < tmin then .ok arr
    else
      match arangeMinMax f.times tmin tmax with
      | .error e => .error e
      | .ok itsFile =>
        match itsFile.head?.bind (f.times[·]?), itsFile.getLast?.bind (f.times[·]?) with
        | some tminKeep, some tmaxKeep =>
          match arangeMinMax times tminKeep tmaxKeep with
          | .error e => .error e
          | .ok its =>
            writeCols sh probes its (itsFile.filterMap fun i => f.recs[i]?.map Prod.snd) arr
        | _, _ => .error .index

/-- A loop which stops at the first exception. -/
def loop {A S : Type*} (body : S → A → Except Err S) : List A → S → Except Err S
  | [], s => .ok s
  | a :: l, s =>
    match body s a with
    | .error e => .error e
    | .ok s => loop body l s

/-- Body of the loop on the processes (spatiotemporal_spectra.py 565-611); the `break` at the
first file whose name is after `tmax` is `takeWhile`. -/
def loadRank (sh : ℕ × ℕ × ℕ) (times : List Q) (tmin tmax : Q) (arr : Arr V) (r : Rank Q V) :
    Except Err (Arr V) :=
  match filterFiles tmin (sortFiles r.files) with
  | .error e => .error e
  | .ok files =>
    loop (loadFile sh r.probes times tmin tmax) (files.takeWhile fun f => decide (f.tmin ≤ tmax)) arr

/-- The times found in the files of the first process (spatiotemporal_spectra.py 488-520). -/
def getTimes (files : List (File Q V)) (tmin tmax : Q) : List Q :=
  (files.takeWhile fun f => decide (f.tmin ≤ tmax)).flatMap fun f =>
    f.times.filter fun t => decide (tmin ≤ t) && decide (t ≤ tmax)

/-- What `load_time_series` returns for one key: the times and the array. -/
structure Loaded (Q V : Type*) where
  times : List Q
  arr : Arr V

/-- `load_time_series(tmin, tmax)` (spatiotemporal_spectra.py 461-640) for given axis bounds;
`tmax = none` is the default: the last time of the last file of the first process
(503-505). `times.min()` raises `ValueError` if there is no time. -/
def load (bs : Bounds × Bounds × Bounds) (ranks : List (Rank Q V)) (tmin : Q) (tmax : Option Q) :
    Except Err (Loaded Q V) :=
  match ranks with
  | [] => .error .index
  | r0 :: _ =>
    match filterFiles tmin (sortFiles r0.files) with
    | .error e => .error e
    | .ok files =>
      match (tmax <|> files.getLast?.bind fun f => f.times.getLast?) with
      | none => .error .index
      | some tmax =>
        let times := getTimes files tmin tmax
        match times.min?, times.max? with
        | some tmin, some tmax =>
          match loop (loadRank (shape bs) times tmin tmax) ranks (fun _ _ => none) with
          | .error e => .error e
          | .ok arr => .ok ⟨times, arr⟩
        | _, _ => .error .value

/-- `TemporalSpectra3D.load_time_series` (temporal_spectra.py 394-511) for one key: in the
loop on the files of a process the test of the `break` reads `tmins_files[ip]` where `ip` is
the variable of the loop over the files of the first process, which has ended
(temporal_spectra.py 436, 477). Probes of the region are all kept. `ip` is the index of the
file at which that loop was left. -/
def leftAt (files : List (File Q V)) (tmax : Q) : ℕ :=
  min (files.takeWhile fun f => decide (f.tmin ≤ tmax)).length (files.length - 1)

/-- Body of the loop on the files (temporal_spectra.py 477-502): the columns of the times in
the interval. -/
def temporalFile (tmin tmax : Q) (acc : List (List V)) (f : File Q V) :
    Except Err (List (List V)) :=
  match arangeMinMax f.times tmin tmax with
  | .error e => .error e
  | .ok its => .ok (acc ++ its.filterMap fun i => f.recs[i]?.map Prod.snd)

/-- `series[skey].append(...)` of a value which may raise. -/
def collect {A B : Type*} (f : A → Except Err B) (acc : List B) (x : A) : Except Err (List B) :=
  match f x with
  | .error e => .error e
  | .ok d => .ok (acc ++ [d])

/-- The records of the files of one process (temporal_spectra.py 468-508): each file gives the
columns of the times of `get_arange_minmax`; `np.concatenate` of nothing raises
`ValueError`. -/
def temporalRank (ip : ℕ) (tmin tmax : Q) (r : Rank Q V) : Except Err (List (List V)) :=
  match filterFiles tmin (sortFiles r.files) with
  | .error e => .error e
  | .ok files =>
    match (files.map File.tmin)[ip]? with
    | none => .error .index
    | some t =>
      if tmax < t then .error .value
      else loop (temporalFile tmin tmax) files []

/-- `load_time_series` (temporal_spectra.py 394-511): the times and, for each process, the
columns. -/
def temporalLoad (ranks : List (Rank Q V)) (tmin tmax : Q) :
    Except Err (List Q × List (List (List V))) :=
  match ranks with
  | [] => .error .index
  | r0 :: _ =>
    match filterFiles tmin (sortFiles r0.files) with
    | .error e => .error e
    | .ok files =>
      let times := getTimes files tmin tmax
      match times.min?, times.max? with
      | some tmin', some tmax' =>
        match loop (collect (temporalRank (leftAt files tmax) tmin' tmax')) ranks [] with
        | .error e => .error e
        | .ok d => .ok (times, d)
      | _, _ => .error .value

end load

end Verif.SpatioTemporal
