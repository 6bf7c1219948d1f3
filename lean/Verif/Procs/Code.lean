import Verif.Procs.Model
import Mathlib.Data.Rat.Defs
import Mathlib.Algebra.Order.Ring.Rat

/-!
# Model of the code which communicates

Each definition is the program of process `me` among `n`. The code of fluidsim branches on `mpi.rank` and on `mpi.nb_proc > 1`; here
the branch of several processes is modelled (`n` can be 1, and the operations are then without effect).

Simplifications common to all of them: rational numbers for floats; the printed messages and the logs are left out; arrays are
lists; the exchanges inside a Fourier transform are all-to-all exchanges.
-/

namespace Verif.Procs

variable {n : ℕ} {S : Type}

/-! ### The values -/

/-- A number received. -/
def Val.toQ : Val → ℚ
  | .num q => q
  | _ => 0

/-- A truth value received (`None` is false). -/
def Val.toB : Val → Bool
  | .bool b => b
  | _ => false

/-- An array received. -/
def Val.toArr : Val → List ℚ
  | .arr l => l
  | _ => []

/-- Names received. -/
def Val.toNames : Val → List (List Char)
  | .names l => l
  | _ => []

/-- `op=mpi.MPI.SUM`. -/
def sumNums (l : List Val) : Val := .num (l.map Val.toQ).sum

/-- `op=mpi.MPI.MAX` (the contributions are never negative). -/
def maxNums (l : List Val) : Val := .num ((l.map Val.toQ).foldr max 0)

/-! ### Means over the domain -/

/-- `OperatorBase.mean_space` (fluidsim/operators/base.py lines 74-81). -/
def meanSpace (local_ : List ℚ) : Prog n S ℚ := do
  let sumGlobal ← Prog.allreduce sumNums (.num local_.sum)
  let nbGlobal ← Prog.allreduce sumNums (.num local_.length)
  return sumGlobal.toQ / nbGlobal.toQ

/-! ### The time loop -/

/-- What the environment gives at one moment: the clock and whether a stop signal has just been received by the process. -/
structure Env where
  clock : ℚ
  signal : Bool
  deriving Inhabited

/-- The environment of all processes, in the order of the observations: an arbitrary sequence (fluidsim/base/time_stepping/base.py
lines 106-112 and 216: the handler of the signals, `time()`). -/
abbrev World := ℕ → Env

/-- One observation of the environment. -/
def observe : Prog n World Env := .acc (fun w k => w (k + 1)) fun w => .ret (w 0)

/-- The parameters of the time stepping and the local computations. `tmp`: the local maximum of the CFL condition; `exchanges`: the
number of exchanges of a time step and of its outputs, which depends only on what all processes share; `update`: the local
computation between two exchanges. -/
structure Stepping (n : ℕ) where
  useTEnd : Bool
  tEnd : ℚ
  itEnd : ℕ
  useCfl : Bool
  cfl : ℚ
  dtMax : ℚ
  maxElapsed : Option ℚ
  tmp : Fin n → List ℚ → ℚ
  exchanges : ℚ → ℕ → ℕ
  update : Fin n → ℕ → ℚ → List (List ℚ) → List ℚ

/-- The state of a process. -/
structure Loc where
  t : ℚ
  dt : ℚ
  it : ℕ
  stop : Bool
  signal : Bool
  tStop : ℚ
  data : List ℚ

/-- `_compute_time_increment_CLF_from_tmp` after the reduction (fluidsim/base/time_stepping/base.py lines 345-354). -/
def newDt (cfl dtMax dt tmp : ℚ) : ℚ :=
  let dtCfl := if tmp > 0 then cfl / tmp else dtMax
  let maybe := min dtCfl dtMax
  if |dt - maybe| / maybe > 2 / 100 then maybe else dt

/-- The time increment of a step (fluidsim/base/time_stepping/base.py lines 210-211 and 341-354). -/
def stepDt (P : Stepping n) (me : Fin n) (st : Loc) : Prog n World ℚ :=
  if P.useCfl then do
    let tmp ← Prog.allreduce maxNums (.num (P.tmp me st.data))
    return newDt P.cfl P.dtMax st.dt tmp.toQ
  else return st.dt

/-- The test of the elapsed time (fluidsim/base/time_stepping/base.py lines 214-225): the clock of process 0 is used. -/
def stepElapsed [NeZero n] (P : Stepping n) (me : Fin n) (clock : ℚ) (st : Loc) : Prog n World Bool :=
  match P.maxElapsed with
  | none => return st.stop
  | some _ => do
    let now ← Prog.bcast 0 (if me = 0 then .num clock else .unit)
    return st.stop || decide (now.toQ > st.tStop)

/-- The computation of the step and its outputs: exchanges (fluidsim/base/time_stepping/base.py lines 241-242). -/
def stepCompute (P : Stepping n) (me : Fin n) (t dt : ℚ) (it : ℕ) (data : List ℚ) : Prog n World (List ℚ) :=
  Prog.loop (List.range (P.exchanges t it)) (fun j d => do
    let all ← Prog.allgather (.arr d)
    return P.update me j dt (all.map Val.toArr)) data

/-- `one_time_step` (fluidsim/base/time_stepping/base.py lines 208-244): `_has_to_stop` is set by the elapsed time and by the signal
received by process 0. -/
def oneTimeStep [NeZero n] (P : Stepping n) (me : Fin n) (st : Loc) : Prog n World Loc := do
  let dt ← stepDt P me st
  let env ← observe
  let stop ← stepElapsed P me env.clock st
  let signal ← Prog.bcast 0 (.bool (st.signal || env.signal))
  let data ← stepCompute P me st.t dt st.it st.data
  return { st with
    t := st.t + dt, dt := dt, it := st.it + 1, stop := stop || signal.toB, signal := st.signal || env.signal, data := data }

/-- The condition of the loop (fluidsim/base/time_stepping/base.py lines 201 and 205). -/
def Stepping.goesOn (P : Stepping n) (st : Loc) : Bool :=
  (if P.useTEnd then decide (st.t < P.tEnd) else decide (st.it < P.itEnd)) && !st.stop

/-- `main_loop` (fluidsim/base/time_stepping/base.py lines 199-206), at most `fuel` steps. -/
def mainLoop [NeZero n] (P : Stepping n) (me : Fin n) : ℕ → Loc → Prog n World Loc
  | 0, st => .ret st
  | fuel + 1, st => if P.goesOn st then (oneTimeStep P me st).bind (mainLoop P me fuel) else .ret st

/-- The clock at which the loop should stop (fluidsim/base/time_stepping/base.py lines 135-142): the beginning is the one of
process 0. -/
def timeStop [NeZero n] (P : Stepping n) (me : Fin n) : Prog n World ℚ :=
  match P.maxElapsed with
  | none => .ret 0
  | some m => do
    let env ← observe
    let tStart ← Prog.bcast 0 (if me = 0 then .num env.clock else .unit)
    return tStart.toQ + m

/-- The initialisation of the time stepping and the loop (fluidsim/base/time_stepping/base.py lines 100-142 and 199-206). -/
def timeLoop [NeZero n] (P : Stepping n) (fuel : ℕ) (me : Fin n) (data : List ℚ) : Prog n World Loc :=
  (timeStop P me).bind fun tStop => mainLoop P me fuel ⟨0, P.dtMax, 0, false, false, tStop, data⟩

/-! ### Horizontal means -/

/-- `sum_global[iz_start : iz_start + nz_loc] += data` (fluidsim/base/output/horiz_means.py lines 116-117). -/
def addAt (g : List ℚ) (start : ℕ) (d : List ℚ) : List ℚ :=
  g.zipIdx.map fun (x, i) => if start ≤ i then x + (d[i - start]?).getD 0 else x

/-- One turn of the loop of `_compute_hmean` (fluidsim/base/output/horiz_means.py lines 102-117). -/
def hmeanBody [NeZero n] (starts : Fin n → ℕ) (me : Fin n) (sumLocal : List ℚ) (rank : Fin n) (g : List ℚ) :
    Prog n S (List ℚ) :=
  if rank = 0 ∧ me = 0 then .ret (addAt g (starts rank) sumLocal)
  else if me = 0 then .recv rank (42 * rank) fun d => .ret (addAt g (starts rank) d.toArr)
  else if me = rank then .send 0 (42 * rank) (.arr sumLocal) (.ret g)
  else .ret g

/-- `_compute_hmean` (fluidsim/base/output/horiz_means.py lines 92-120): `None` on the other processes. -/
def computeHmean [NeZero n] (starts : Fin n → ℕ) (nz : ℕ) (nh : ℚ) (me : Fin n) (sumLocal : List ℚ) :
    Prog n S (Option (List ℚ)) :=
  (Prog.loop (List.finRange n) (hmeanBody starts me sumLocal) (List.replicate nz 0)).bind fun g =>
    .ret (if me = 0 then some (g.map (· / nh)) else none)

/-- `_hmean_to_3d_local` (fluidsim/base/output/horiz_means.py lines 122-129): the levels of the process. -/
def hmeanToLocal [NeZero n] (start nzLocal : ℕ) (profile : Option (List ℚ)) : Prog n S (List ℚ) :=
  (Prog.bcast 0 (match profile with | some l => .arr l | none => .unit)).bind fun v =>
    .ret ((v.toArr.drop start).take nzLocal)

/-- One mean of `compute` followed by its return to the local levels (fluidsim/base/output/horiz_means.py lines 173-183). -/
def hmeanLocal [NeZero n] (starts nzs : Fin n → ℕ) (nz : ℕ) (nh : ℚ) (me : Fin n) (sumLocal : List ℚ) :
    Prog n S (List ℚ) :=
  (computeHmean starts nz nh me sumLocal).bind (hmeanToLocal (starts me) (nzs me))

/-! ### Modes -/

/-- The value of a mode goes from its owner to process 0 (fluidsim/base/output/time_signals_fft.py lines 241-255;
fluidsim/operators/operators2d.py lines 293-316; fluidsim/operators/operators3d.py lines 570-597 and 616-628). -/
def collectOne [NeZero n] (me owner : Fin n) (tag : ℕ) (v : Val) : Prog n S Val :=
  if owner ≠ 0 then
    if me = owner then .send 0 tag v (.ret .unit)
    else if me = 0 then .recv owner tag .ret
    else .ret .unit
  else if me = 0 then .ret v
  else .ret .unit

/-- The value of a mode goes from process 0 to its owner (fluidsim/operators/operators2d.py lines 563-577;
fluidsim/operators/operators3d.py lines 431-444, 471-486 and 512-519). -/
def distributeOne [NeZero n] (me owner : Fin n) (tag : ℕ) (v : Val) : Prog n S Val :=
  if owner ≠ 0 then
    if me = 0 then .send owner tag v (.ret .unit)
    else if me = owner then .recv 0 tag .ret
    else .ret .unit
  else if me = 0 then .ret v
  else .ret .unit

/-- `TimeSignalsK.compute` (fluidsim/base/output/time_signals_fft.py lines 215-271) before the change of variables, and
`coarse_seq_from_fft_loc` in 2D (fluidsim/operators/operators2d.py lines 283-319): process 0 gets the values of all modes;
`owners` gives the process of each of them and `value ik` the value in the process. -/
def collectModes [NeZero n] (owners : List (Fin n)) (me : Fin n) (value : ℕ → Val) : Prog n S (List Val) :=
  Prog.loop owners.zipIdx (fun o acc => (collectOne me o.1 o.2 (value o.2)).bind fun v => .ret (acc ++ [v])) []

/-- `put_coarse_array_in_array_fft` in 2D (fluidsim/operators/operators2d.py lines 548-586): `owner` is `where_is_wavenumber`
(process and local index); the rows of the local array. -/
def putCoarse [NeZero n] (owner : ℕ → Fin n × ℕ) (nk : ℕ) (coarse : ℕ → Val) (me : Fin n) (rows : ℕ → Val) :
    Prog n S (ℕ → Val) :=
  Prog.loop (List.range nk) (fun k rows => (distributeOne me (owner k).1 k (if me = 0 then coarse k else .unit)).bind fun v =>
    .ret (if me = (owner k).1 then Function.update rows (owner k).2 v else rows)) rows

/-- The wavenumbers (indices along the three axes). -/
abbrev K3 := ℕ × ℕ × ℕ

/-- `where_is_wavenumber` in 3D when two axes are shared between the processes (fluidsim/operators/operators3d.py lines 654-710):
`holds` tells whether the process has the mode, `loc` its local indices. `none`: `ValueError` (raised by all processes). -/
def whereIs (holds : Fin n → K3 → Bool) (loc : Fin n → K3 → List ℚ) (me : Fin n) (k : K3)
    (cache : List (K3 × Fin n × List ℚ)) : Prog n S (Option (Fin n × List ℚ) × List (K3 × Fin n × List ℚ)) :=
  match cache.lookup k with
  | some r => .ret (some r, cache)
  | none =>
    (Prog.allgather (.bool (holds me k))).bind fun l =>
      match (List.finRange n).find? fun i => ((l[i.val]?).getD .unit).toB with
      | none => .ret (none, cache)
      | some r =>
        (Prog.bcast r (if me = r then .arr (loc me k) else .unit)).bind fun b =>
          .ret (some (r, b.toArr), (k, r, b.toArr) :: cache)

/-- `coarse_seq_from_fft_loc` in 3D when two axes are shared (fluidsim/operators/operators3d.py lines 599-628): the indices of the
modes in the order of the loops. The tag is the index along the third axis. -/
def coarseSeq3 [NeZero n] (holds : Fin n → K3 → Bool) (loc : Fin n → K3 → List ℚ) (ks : List (ℕ × K3))
    (me : Fin n) (value : List ℚ → Val) : Prog n S (Option (List Val)) :=
  (Prog.loop ks (fun k st =>
    match st with
    | (none, cache) => .ret (none, cache)
    | (some acc, cache) =>
      (whereIs holds loc me k.2 cache).bind fun w =>
        match w.1 with
        | none => .ret (none, w.2)
        | some (r, l) => (collectOne me r k.1 (value l)).bind fun v => .ret (some (acc ++ [v]), w.2))
    ((some [] : Option (List Val)), ([] : List (K3 × Fin n × List ℚ)))).bind fun st => .ret st.1

/-! ### Saving the fields -/

/-- The files of the directory of the run which matter: the iteration recorded in the file named with the time and in the file
named with the time and the iteration. -/
structure RunDir where
  byTime : Option ℕ
  byIt : Option ℕ
  deriving Inhabited

/-- The `nf` fields gathered by process 0, one after another (fluidsim/util/output.py lines 77-82). -/
def gatherFields [NeZero n] (nf : ℕ) (me : Fin n) (field : ℕ → List ℚ) : Prog n S (List (List Val)) :=
  Prog.loop (List.range nf) (fun v acc =>
    (.coll (.gather 0) (.arr (field v)) fun a =>
      .ret (acc ++ [if me = 0 then (List.finRange n).map fun i => (a i).getD .unit else []]))) []

/-- `save_file` without parallel HDF5 (fluidsim/util/output.py lines 65-82 and 110-123): process 0 creates the file. -/
def saveFile [NeZero n] (nf : ℕ) (me : Fin n) (create : RunDir → RunDir) (field : ℕ → List ℚ) :
    Prog n RunDir (Option (List (List Val))) :=
  (if me = 0 then Prog.change create else .ret ⟨⟩ : Prog n RunDir PUnit).bind fun _ =>
    (gatherFields nf me field).bind fun l => .ret (some l)

/-- `PhysFieldsBase.save` (fluidsim/base/output/phys_fields.py lines 158-201): `none` when nothing is saved because the file
already has the same iteration. -/
def save [NeZero n] (it nf : ℕ) (me : Fin n) (field : ℕ → List ℚ) : Prog n RunDir (Option (List (List Val))) :=
  (if me = 0 then Prog.look fun d => Val.bool d.byTime.isSome else .ret .unit : Prog n RunDir Val).bind fun e =>
  (Prog.bcast 0 e).bind fun e =>
    if e.toB then
      (if me = 0 then Prog.look fun d => Val.num (d.byTime.getD 0) else .ret .unit : Prog n RunDir Val).bind fun i =>
      (Prog.bcast 0 i).bind fun i =>
        if i.toQ = it then .ret none
        else saveFile nf me (fun d => { d with byIt := some it }) field
    else saveFile nf me (fun d => { d with byTime := some it }) field

/-! ### Code where process 0 reads for the others -/

/-- What process 0 finds in the file of the initial state: an error, or the names of the variables, their values, the time and the
iteration. -/
structure StateFile where
  vars : List (List Char × List ℚ)
  time : ℚ
  it : ℕ

/-- The variables of the state: those of the file are scattered (each process keeps its part), the others are zero
(fluidsim/base/init_fields.py lines 261-276). A scatter needs the data of process 0 only, as a broadcast. -/
def readVars [NeZero n] (part : Fin n → List ℚ → List ℚ) (zero : Fin n → List ℚ) (needed : List (List Char))
    (file : StateFile) (names : List (List Char)) (me : Fin n) : Prog n S (List (List ℚ)) :=
  Prog.loop needed (fun k acc =>
    if k ∈ names then
      (Prog.bcast 0 (if me = 0 then .arr ((file.vars.lookup k).getD []) else .unit)).bind fun v =>
        .ret (acc ++ [part me v.toArr])
    else .ret (acc ++ [zero me])) []

/-- `InitFieldsFromFile.__call__` (fluidsim/base/init_fields.py lines 153-297): process 0 opens the file and checks it (lines
163-256); an error there ends process 0 before the first broadcast. The file does not change. -/
def fromFile [NeZero n] (part : Fin n → List ℚ → List ℚ) (zero : Fin n → List ℚ) (needed : List (List Char))
    (file : Except String StateFile) (me : Fin n) : Prog n S (List (List ℚ) × ℚ × ℚ) :=
  match file with
  | .error e =>
    if me = 0 then .err e
    else (Prog.bcast 0 (.names [])).bind fun _ => .ret ([], 0, 0)
  | .ok f =>
    (Prog.bcast 0 (.names (if me = 0 then f.vars.map Prod.fst else []))).bind fun names =>
    (readVars part zero needed f names.toNames me).bind fun vars =>
    (Prog.bcast 0 (.num (if me = 0 then f.time else 0))).bind fun time =>
    (Prog.bcast 0 (.num (if me = 0 then f.it else 0))).bind fun it =>
      .ret (vars, time.toQ, it.toQ)

/-- The shape of the coarse operator of a forcing (fluidsim/base/forcing/specific.py lines 204-239): process 0 counts the forced
modes before it broadcasts the shape. -/
def forcingInit [NeZero n] (nbForced : ℕ) (shape : List ℚ) (me : Fin n) : Prog n S (List ℚ) :=
  if me = 0 ∧ nbForced = 0 then .err "0 modes forced."
  else (Prog.bcast 0 (if me = 0 then .arr shape else .unit)).bind fun v => .ret v.toArr

/-- The check of the directory of the previous run (lib/fluidsim_core/output/base.py lines 194-228): `info` is the resolution found
by process 0 in the directory, `none` without info_simul.h5. -/
def outputInit [NeZero n] (resolution : List ℕ) (info : Option (List ℕ)) (me : Fin n) : Prog n S Bool :=
  match info with
  | none =>
    if me = 0 then .err "Strange, no info_simul.h5 in self.path_run"
    else (Prog.bcast 0 (.bool false)).bind fun v => .ret v.toB
  | some r => (Prog.bcast 0 (.bool (if me = 0 then decide (resolution ≠ r) else false))).bind fun v => .ret v.toB

/-- `load_for_restart` (fluidsim/util/util.py lines 367-399 and lib/fluidsim_core/extend_simul.py lines 93-110): process 0 reads the
names of the extenders then the parameters; each reading can fail. -/
def loadForRestart [NeZero n] (extenders params : Except String (List (List Char))) (me : Fin n) :
    Prog n S (List (List Char) × List (List Char)) :=
  let read (f : Except String (List (List Char))) : Prog n S (List (List Char)) :=
    if me = 0 then
      match f with
      | .error e => .err e
      | .ok l => (Prog.bcast 0 (.names l)).bind fun v => .ret v.toNames
    else (Prog.bcast 0 .unit).bind fun v => .ret v.toNames
  (read extenders).bind fun e => (read params).bind fun p => .ret (e, p)

/-- The end of a time step and the beginning of the next one (fluidsim/base/time_stepping/pseudo_spect.py lines 242-243 and
fluidsim/base/time_stepping/base.py line 343): the test of the values is local. -/
def nanCheck (nan : Fin n → Bool) (tmp : Fin n → ℚ) (me : Fin n) : Prog n S ℚ :=
  if nan me then .err "nan"
  else (Prog.allreduce maxNums (.num (tmp me))).bind fun v => .ret v.toQ

/-! ### Code where each process looks at the files -/

/-- The initialisation of the probes of `TemporalSpectra` (fluidsim/base/output/temporal_spectra.py lines 192-293) and
`SpatioTemporalSpectra` (fluidsim/base/output/spatiotemporal_spectra.py lines 228-288 and 366-381): the state of the directory
is, for each process, whether it has a file. The result is the number of probes of the process. -/
def probesInit (nbProbes : Fin n → ℕ) (me : Fin n) : Prog n (Fin n → Option ℕ) ℕ :=
  .coll .barrier .unit fun _ =>
    .acc id fun files =>
      if ∃ i, (files i).isSome then
        match files me with
        | some nb => .ret nb
        | none => .ret 0
      else if nbProbes me > 0 then
        .acc (fun files => Function.update files me (some (nbProbes me))) fun _ => .ret (nbProbes me)
      else .ret 0

/-- The first name which is not used, from `i` (fluidsim/base/output/base.py lines 384-387). -/
def freeName (used : List ℕ) : ℕ → ℕ → ℕ
  | 0, i => i
  | fuel + 1, i => if i ∈ used then freeName used fuel (i + 1) else i

/-- The end of a run in a scratch directory (fluidsim/base/output/base.py lines 376-405): the directory gets the name `name_run` (0) or
`name_run_i` which is not used in the final place; process 0 moves it; each process looks for the name. The search is one access. -/
def moveEnd [NeZero n] (me : Fin n) : Prog n (List ℕ) ℕ :=
  .acc id fun used =>
    let i := freeName used (used.length + 1) 0
    if me = 0 then .acc (fun used => i :: used) fun _ => .coll .barrier .unit fun _ => .ret i
    else .coll .barrier .unit fun _ => .ret i

end Verif.Procs
