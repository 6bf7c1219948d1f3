import Verif.Modes.Model
import Mathlib.Data.Rat.Floor
import Mathlib.Algebra.Order.Floor.Ring

/-!
# Probes of the temporal spectra and their rearrangement as 3D arrays (C93)

`TemporalSpectra3D.__init__`, `_get_data_probe_from_field`, `_online_save` and `save_data_as_phys_fields`
(fluidsim/base/output/temporal_spectra.py 100-293, 308-392, 699-796), in three dimensions. Positions and times are rational numbers (the floats
are), with exact operations. Triples are in the order of the arrays: z, y, x. One key of the state; the other keys are treated in the same way.
The coordinates and the fields of a process are those of a block of the grid (`oper.get_XYZ_loc`).
-/

namespace Verif.Probes

open Verif.Modes

/-- One direction of the grid: number of points and `oper.deltax`. -/
structure Axis where
  n : ℕ
  delta : ℚ
  deriving DecidableEq

/-- The parameters of the probes for one direction: `params.output.temporal_spectra.probes_deltax` and the two values of `probes_region`. -/
structure Par where
  delta : ℚ
  lo : ℚ
  hi : ℚ
  deriving DecidableEq

/-- The values used without `probes_region` (134-143). -/
def defaultRegion (a : Axis) (delta : ℚ) : Par := ⟨delta, 0, a.n * a.delta⟩

/-- `self.probes_deltax` (164-167). -/
def spacing (a : Axis) (p : Par) : ℚ := max a.delta (a.delta * roundEven (p.delta / a.delta))

/-- `xmin` (168). -/
def first (a : Axis) (p : Par) : ℚ := a.delta * roundEven (p.lo / a.delta)

/-- `np.arange(start, stop, step)` for a positive step. -/
def arange (start stop step : ℚ) : List ℚ := (List.range ⌈(stop - start) / step⌉.toNat).map fun i : ℕ => start + i * step

/-- `self.probes_x_seq` (185-192). -/
def seq (a : Axis) (p : Par) : List ℚ := arange (first a p) (p.hi + 1 / 10 ^ 15) (spacing a p)

/-- The part of one direction of a process: its points have the indices `lo`, ..., `lo + len - 1`. -/
structure Part where
  lo : ℕ
  len : ℕ
  deriving DecidableEq

/-- The first definition of `self.probes_x_loc` (235-237): `X.min()` and `X.max()` are the coordinates of the first and of the last point of the
process. -/
def locSeq (a : Axis) (p : Par) (b : Part) : List ℚ :=
  (seq a p).filter fun x => decide (a.delta * b.lo ≤ x) && decide (x ≤ a.delta * ((b.lo : ℚ) + b.len - 1))

/-- `int` of a float: rounding toward zero. -/
def pyInt (x : ℚ) : ℤ := if 0 ≤ x then ⌊x⌋ else ⌈x⌉

/-- `probe_ix` (268). -/
def locIdx (a : Axis) (b : Part) (x : ℚ) : ℤ := pyInt ((x - a.delta * b.lo) / a.delta)

/-- The block of a process. -/
structure Block where
  z : Part
  y : Part
  x : Part
  deriving DecidableEq

/-- The grid and the parameters of the probes in the three directions. -/
structure Setup where
  az : Axis
  ay : Axis
  ax : Axis
  pz : Par
  py : Par
  px : Par

/-- `self.probes_iz_loc, self.probes_iy_loc, self.probes_ix_loc` (258-279). -/
def localIndices (s : Setup) (b : Block) : List (ℤ × ℤ × ℤ) :=
  (locSeq s.ax s.px b.x).flatMap fun x => (locSeq s.ay s.py b.y).flatMap fun y => (locSeq s.az s.pz b.z).map fun z =>
    (locIdx s.az b.z z, locIdx s.ay b.y y, locIdx s.ax b.x x)

/-- The exceptions. -/
inductive Err
  | index
  | value
  | overflow
  deriving DecidableEq, Repr

/-- `field[self.probes_iz_loc, self.probes_iy_loc, self.probes_ix_loc]` (370-371), for the part in the block of a field `u` of the whole grid. -/
def probe {V : Type*} (b : Block) (u : ℕ × ℕ × ℕ → V) : List (ℤ × ℤ × ℤ) → Except Err (List V)
  | [] => .ok []
  | i :: l =>
    match pyIdx3 (b.z.len, b.y.len, b.x.len) i with
    | none => .error .index
    | some c =>
      match probe b u l with
      | .error e => .error e
      | .ok vs => .ok (u (b.z.lo + c.1, b.y.lo + c.2.1, b.x.lo + c.2.2) :: vs)

/-- The coordinates of the probes written in the files (281-285, 329-331): the fields X, Y and Z at the indices of the probes. -/
def coords (s : Setup) (b : Block) : Except Err (List (ℚ × ℚ × ℚ)) :=
  probe b (fun g => (s.az.delta * g.1, s.ay.delta * g.2.1, s.ax.delta * g.2.2)) (localIndices s b)

/-- A file: its times and its columns. -/
abbrev File (V : Type*) := List (ℚ × List V)

/-- The files of one process. -/
structure Rank (V : Type*) where
  coords : List (ℚ × ℚ × ℚ)
  files : List (File V)

/-- The files written by one process (287-293, 368-392) when it saves the states of `chunks`, one list per file: times and fields of the whole grid. A
process without probes has no file. -/
def writeRank {V : Type*} (s : Setup) (b : Block) (chunks : List (List (ℚ × (ℕ × ℕ × ℕ → V)))) : Except Err (Option (Rank V)) :=
  if localIndices s b = [] then .ok none
  else
    match coords s b with
    | .error e => .error e
    | .ok cs =>
      match chunks.mapM fun ch => ch.mapM fun r => (probe b r.2 (localIndices s b)).map fun vs => (r.1, vs) with
      | .error e => .error e
      | .ok fs => .ok (some ⟨cs, fs⟩)

/-- An array of `np.empty_like(probes_X)`: `none` is a cell which has not been written. -/
abbrev Arr (V : Type*) := ℕ × ℕ × ℕ → Option V

/-- `probes_x_seq.min()` and `probes_x_seq[1] - xmin` (733-738). -/
def origin (l : List ℚ) : Except Err (ℚ × ℚ) :=
  match l.min? with
  | none => .error .value
  | some m =>
    match l[1]? with
    | none => .error .index
    | some x1 => .ok (m, x1 - m)

/-- `np.rint((coord_loc - xmin) / deltax).astype("int")` (765-770). -/
def cellIdx (o : ℚ × ℚ) (x : ℚ) : ℤ := roundEven ((x - o.1) / o.2)

/-- `dict_arrays[key][iz, iy, ix] = ...` (774-776). -/
def writeCells {V : Type*} (sh : ℕ × ℕ × ℕ) (oz oy ox : ℚ × ℚ) : List ((ℚ × ℚ × ℚ) × V) → Arr V → Except Err (Arr V)
  | [], arr => .ok arr
  | ((z, y, x), v) :: l, arr =>
    match pyIdx3 sh (cellIdx oz z, cellIdx oy y, cellIdx ox x) with
    | none => .error .index
    | some c => writeCells sh oz oy ox l (Function.update arr c (some v))

/-- The loop on the files of a process (749-779): the first file whose interval of times contains `t` is used. The assignment needs exactly one
column at this time (with another number the shapes do not match). -/
def fromRank {V : Type*} (sh : ℕ × ℕ × ℕ) (oz oy ox : ℚ × ℚ) (t : ℚ) (cs : List (ℚ × ℚ × ℚ)) : List (File V) → Arr V → Except Err (Arr V)
  | [], arr => .ok arr
  | f :: fs, arr =>
    match f.head?, f.getLast? with
    | some r0, some r1 =>
      if t < r0.1 ∨ r1.1 < t then fromRank sh oz oy ox t cs fs arr
      else
        match f.filter fun r => decide (r.1 = t) with
        | [r] => writeCells sh oz oy ox (cs.zip r.2) arr
        | _ => .error .value
    | _, _ => .error .index

/-- The loop on the processes (747-779). -/
def fromRanks {V : Type*} (sh : ℕ × ℕ × ℕ) (oz oy ox : ℚ × ℚ) (t : ℚ) : List (Rank V) → Arr V → Except Err (Arr V)
  | [], arr => .ok arr
  | r :: rs, arr =>
    match fromRank sh oz oy ox t r.coords r.files arr with
    | .error e => .error e
    | .ok arr => fromRanks sh oz oy ox t rs arr

/-- `l[::d]` for a positive `d`. -/
def stride {A : Type*} (d : ℕ) (l : List A) : List A := (l.zipIdx.filter fun p => p.2 % d = 0).map Prod.fst

/-- The directory `phys_fields`: the file `probes_fields_t<time>.h5`, with the time in thousandths rounded by the format `.3f` (782-784). -/
abbrev Dir (V : Type*) := ℤ → Option (Arr V)

/-- The loop on the times (744-796). -/
def saveTimes {V : Type*} (sh : ℕ × ℕ × ℕ) (oz oy ox : ℚ × ℚ) (ranks : List (Rank V)) : List ℚ → Dir V → Except Err (Dir V)
  | [], dir => .ok dir
  | t :: ts, dir =>
    match fromRanks sh oz oy ox t ranks fun _ => none with
    | .error e => .error e
    | .ok arr => saveTimes sh oz oy ox ranks ts (Function.update dir (roundEven (1000 * t)) (some arr))

/-- `save_data_as_phys_fields(delta_index_times=d)` (699-796). `ranks[0]` raises `IndexError` without files; `times[::0]` and `times.max()` of an empty
array raise `ValueError`; `int(np.log10(0))` raises `OverflowError` and `int(nan)` `ValueError`. -/
def saveAsFields {V : Type*} (s : Setup) (ranks : List (Rank V)) (d : ℕ) : Except Err (Dir V) :=
  match ranks with
  | [] => .error .index
  | r0 :: _ =>
    if d = 0 then .error .value
    else
      let times := stride d (r0.files.flatMap fun f => f.map Prod.fst)
      match times.max? with
      | none => .error .value
      | some tmax =>
        if tmax = 0 then .error .overflow
        else if tmax < 0 then .error .value
        else
          match origin (seq s.ax s.px), origin (seq s.ay s.py), origin (seq s.az s.pz) with
          | .ok ox, .ok oy, .ok oz =>
            saveTimes ((seq s.az s.pz).length, (seq s.ay s.py).length, (seq s.ax s.px).length) oz oy ox ranks times fun _ => none
          | .error e, _, _ => .error e
          | _, .error e, _ => .error e
          | _, _, .error e => .error e

end Verif.Probes
