import Verif.StdOut.Model
import Mathlib.Algebra.BigOperators.Group.Finset.Basic

/-! # C68: the mean values of a simulation and their cache

`DataframeMaker.get_mean_values_from_path` (lib/fluidsim_core/output/dataframe_from_paths.py), used by
`sim.output.get_mean_values`, `fluidsim.util.get_mean_values_from_path` and
`get_dataframe_from_paths` (fluidsim/util/util.py 766-794, base/output/base.py 420-499), and
`compute_isotropy_dissipation` (ns3d/output/spect_energy_budget.py 353-381).

Parameters of the model (`Maker`): what is computed from the files of the simulation, the functions
`customize`, the texts of the numbers and of the results (json). -/

namespace Verif.MeanValues

open Verif.PhysFiles (Str)
open Verif.StdOut (startsWith afterLast)

inductive Err where
  | ValueError
  | TypeError
  | JSONDecodeError
  /-- any exception of the functions which read the files of the simulation -/
  | other
  deriving DecidableEq, Repr

/-- `D`: the files of the simulation; `Q`: numbers; `R`: results (dict); `C`: functions given as `customize`. -/
structure Maker (D Q R C : Type) where
  /-- `get_time_start_from_path` -/
  start : D → Except Err Q
  /-- `get_time_last_from_path` -/
  last : D → Except Err Q
  /-- `load_sim(path).output._compute_mean_values(tmin, tmax)` -/
  compute : D → Q → Q → Except Err R
  /-- `customize(result, sim)` -/
  custom : C → D → R → Except Err R
  /-- `hashlib.sha256(inspect.getsource(customize)...).hexdigest()[:16]` -/
  hash : C → Str
  /-- `json.dump(result, file, indent=2)`: the text; if an object is not serialisable, what has been written before
  the exception -/
  dumps : R → Except Str Str
  /-- `json.load(file)` -/
  loads : Str → Option R
  /-- `str(x)` for a float -/
  fmt : Q → Str
  /-- `float(text)` -/
  pyFloat : Str → Option Q

/-- An argument `tmin` or `tmax`. -/
inductive Time (Q : Type) where
  | none
  | num (q : Q)
  | text (s : Str)

/-- The arguments of `get_mean_values_from_path`. -/
structure Args (Q C : Type) where
  tmin : Time Q
  tmax : Time Q
  useCache : Bool
  customize : Option C

variable {D Q R C : Type}

def Time.isNum : Time Q → Bool
  | .num _ => true
  | _ => false

/-- `t_start + float(tmin.split("t_start+")[-1])`, ... (dataframe_from_paths.py 78-90, 92-104); `dflt` is the value
for `None`. -/
def resolve [Add Q] [Sub Q] (M : Maker D Q R C) (tStart tLast dflt : Q) : Time Q → Except Err Q
  | .none => .ok dflt
  | .num q => .ok q
  | .text s =>
    if startsWith "t_start+".toList s then
      match M.pyFloat (afterLast "t_start+".toList s) with
      | none => .error .ValueError
      | some x => .ok (tStart + x)
    else if startsWith "t_last-".toList s then
      match M.pyFloat (afterLast "t_last-".toList s) with
      | none => .error .ValueError
      | some x => .ok (tLast - x)
    else .error .ValueError

/-- The range of times (dataframe_from_paths.py 69-104). -/
def range [Add Q] [Sub Q] (M : Maker D Q R C) (d : D) (tmin tmax : Time Q) : Except Err (Q × Q) :=
  match tmin, tmax with
  | .num a, .num b => .ok (a, b)
  | _, _ =>
    match M.start d with
    | .error e => .error e
    | .ok s =>
      match M.last d with
      | .error e => .error e
      | .ok l =>
        match resolve M s l s tmin with
        | .error e => .error e
        | .ok a =>
          match resolve M s l l tmax with
          | .error e => .error e
          | .ok b => .ok (a, b)

/-- The name of the file of the cache (dataframe_from_paths.py 109-118). -/
def fileName (M : Maker D Q R C) (a b : Q) (c : Option C) : Str :=
  "mean_values_tmin".toList ++ M.fmt a ++ "_tmax".toList ++ M.fmt b ++
    (match c with
    | none => []
    | some f => "_customize".toList ++ M.hash f) ++ ".json".toList

/-- The computation without the cache (dataframe_from_paths.py 124-128). -/
def computeAll (M : Maker D Q R C) (d : D) (a b : Q) (c : Option C) : Except Err R :=
  match M.compute d a b with
  | .error e => .error e
  | .ok r =>
    match c with
    | none => .ok r
    | some f => M.custom f d r

/-- The files of the simulation and the files of the cache. -/
structure St (D : Type) where
  data : D
  files : Str → Option Str

def St.write (s : St D) (name txt : Str) : St D :=
  ⟨s.data, fun n => if n = name then some txt else s.files n⟩

/-- The computation and the writing of the file (dataframe_from_paths.py 124-133), killed after `kill` characters
have been written (`none`: not killed). The file is emptied when it is opened. -/
def store (M : Maker D Q R C) (kill : Option ℕ) (s : St D) (a b : Q) (c : Option C) : St D × Except Err R :=
  match computeAll M s.data a b c with
  | .error e => (s, .error e)
  | .ok r =>
    let cut := fun txt : Str => match kill with
      | none => txt
      | some m => txt.take m
    match M.dumps r with
    | .ok txt => (s.write (fileName M a b c) (cut txt), .ok r)
    | .error part => (s.write (fileName M a b c) (cut part), .error .TypeError)

/-- `get_mean_values_from_path` (dataframe_from_paths.py 36-133). -/
def get [Add Q] [Sub Q] (M : Maker D Q R C) (kill : Option ℕ) (s : St D) (x : Args Q C) : St D × Except Err R :=
  match range M s.data x.tmin x.tmax with
  | .error e => (s, .error e)
  | .ok (a, b) =>
    if x.useCache then
      match s.files (fileName M a b x.customize) with
      | some txt =>
        (s, match M.loads txt with
          | some r => .ok r
          | none => .error .JSONDecodeError)
      | none => store M kill s a b x.customize
    else store M kill s a b x.customize

/-- What happens to a directory. `grow`: the simulation goes on (or is restarted) and the files change. `call`: a call
which is not interrupted. `killed`: a call killed while it writes the cache. -/
inductive Ev (D Q C : Type) where
  | grow (d : D)
  | call (x : Args Q C)
  | killed (m : ℕ) (x : Args Q C)

def stepEv [Add Q] [Sub Q] (M : Maker D Q R C) (s : St D) : Ev D Q C → St D
  | .grow d => ⟨d, s.files⟩
  | .call x => (get M none s x).1
  | .killed m x => (get M (some m) s x).1

/-- A history, from a simulation without cache. -/
def run [Add Q] [Sub Q] (M : Maker D Q R C) (d : D) (h : List (Ev D Q C)) : St D :=
  h.foldl (stepEv M) ⟨d, fun _ => none⟩

/-- `get_dataframe_from_paths` (dataframe_from_paths.py 135-150) for the directories `ss`: one row per path; an exception
stops the function. -/
def dataframe [Add Q] [Sub Q] (M : Maker D Q R C) (x : Args Q C) : List (St D) → Except Err (List R)
  | [] => .ok []
  | s :: ss =>
    match (get M none s x).2 with
    | .error e => .error e
    | .ok r =>
      match dataframe M x ss with
      | .error e => .error e
      | .ok rs => .ok (r :: rs)

/-! ## The values -/

section
variable {K : Type} [Field K] [LinearOrder K]

/-- The records averaged for the range `tmin`, `tmax` (`_compute_indices_tmin_tmax`,
ns3d/output/spatial_means.py 443-450; the same in `load_mean` of the budget,
ns3d/output/spect_energy_budget.py 196-211): from the closest one to `tmin` to the closest one to `tmax`, or to
the last one without `tmax`. -/
def records {A : Type} (times : List K) (vals : List A) (tmin : K) (tmax : Option K) : List A :=
  let stop := match tmax with
    | none => vals.length
    | some t => PhysFiles.closest times t + 1
  (vals.take stop).drop (PhysFiles.closest times tmin)

/-- `q[itmin:stop].mean()` (ns3d/output/spatial_means.py 392-396); `none`: nan. -/
def average (times vals : List K) (tmin : K) (tmax : Option K) : Option K :=
  let l := records times vals tmin tmax
  if l.length = 0 then none else some (l.sum / l.length)

/-- The range given to `compute_isotropy_dissipation` by `_compute_mean_values` (base/output/base.py 495-497): the
records of the budget. -/
def dissRecords {A : Type} (times : List K) (vals : List A) (tmin _tmax : K) : List A := records times vals tmin none

/-- `freq_diss` (ns3d/output/spect_energy_budget.py 362-369) for the bin `i` of `(kh, kz)`; `i = 0` is the bin
`(0, 0)`. -/
def freqDiss (nu2 nu4 : K) (kh kz : ℕ → K) (i : ℕ) : K :=
  let K2 := kh i ^ 2 + kz i ^ 2
  if i = 0 then 1 / 10 ^ 16 else nu2 * K2 + nu4 * K2 ^ 2

/-- `compute_isotropy_dissipation` (ns3d/output/spect_energy_budget.py 353-381) for `n` bins: `diss` is
`diss_Kh + diss_Kz`; `none`: the result is not finite (a division by zero). -/
def isotropyDiss (nu2 nu4 : K) (n : ℕ) (kh kz diss : ℕ → K) : Option K :=
  if (∃ i < n, freqDiss nu2 nu4 kh kz i = 0) ∨ ∑ i ∈ Finset.range n, diss i = 0 then none
  else
    let EK := fun i => diss i / freqDiss nu2 nu4 kh kz i
    let ratio := (∑ i ∈ Finset.range n, (nu2 * kz i ^ 2 + nu4 * kz i ^ 4) * EK i) / ∑ i ∈ Finset.range n, diss i
    some ((1 - ratio) / (1 - 1 / 3))

end

end Verif.MeanValues
