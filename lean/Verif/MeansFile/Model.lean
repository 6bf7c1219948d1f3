import Verif.PhysFiles.Model
import Mathlib.Data.List.Basic

/-! # C60: the file of the spatial means, written line by line and loaded again

Models the text written by `_save_one_time` and read by `load` in
fluidsim/solvers/{ns2d,ns2d/strat,ns3d,ns3d/strat,plate2d}/output/spatial_means.py, and the shared
part in fluidsim/base/output/spatial_means.py (`_init_files`, `_get_nb_points_from_lines`,
`time_first_saved`, `time_last_saved`, `compute_time_means`, the JSON variant).

Simplification: characters are bytes (the files contain only ASCII text).  The formatting of a
number (`f"{x:11.5e}"`, ...) and `float(...)` are parameters (`Num`), with the contract of
`Spec.lean`. -/

namespace Verif.MeansFile

open Verif.PhysFiles (Str)

inductive Err where
  | IndexError
  | ValueError
  | UnboundLocalError
  | JSONDecodeError
  deriving DecidableEq, Repr

/-- What separates the words for `str.split()` (the ASCII whitespace). -/
def isWs (c : Char) : Bool :=
  c == ' ' || c == '\n' || c == '\t' || c == '\r' || c == Char.ofNat 11 || c == Char.ofNat 12

/-- `str.split()`; the first argument is the word being read, reversed. -/
def splitAux : Str → Str → List Str
  | acc, [] => if acc = [] then [] else [acc.reverse]
  | acc, c :: s =>
    if isWs c then (if acc = [] then splitAux [] s else acc.reverse :: splitAux [] s)
    else splitAux (c :: acc) s

def splitWs (s : Str) : List Str := splitAux [] s

/-- The lines of a file with their end of line (`readlines()`, or `readline()` repeated). -/
def pyLines : Str → List Str
  | [] => []
  | c :: s =>
    if c = '\n' then [c] :: pyLines s
    else
      match pyLines s with
      | [] => [[c]]
      | l :: r => (c :: l) :: r

/-- How numbers are written (`fmt name x`, the format depends on the quantity), read
(`float(word)`, `none` is a `ValueError`). -/
structure Num (K : Type*) where
  fmt : Str → K → Str
  pyFloat : Str → Option K

/-- Options which decide what is written: `params.forcing.enable`, `params.nu_4 > 0`,
`params.nu_8 > 0`. -/
structure Opts where
  forcing : Bool
  nu4 : Bool
  nu8 : Bool
  deriving DecidableEq, Repr

/-- When a line is written by `_save_one_time`. -/
inductive Wr where
  | always
  | forcing
  | nu4
  | nu8
  deriving DecidableEq, Repr

/-- When a line is used by `load`: always; when `params.forcing.enable`, the arrays being absent
otherwise; when `params.forcing.enable`, the arrays being zero otherwise; when there is such a line
in the file (`if lines_epsK4:`); never. -/
inductive Use where
  | always
  | forcing
  | forcingOrZero
  | saved
  | never
  deriving DecidableEq, Repr

/-- One line of a record: `fields` are the pairs (text before the number, name of the array), the
text before the first number being the text given to `startswith`; `trail` is what is written after
the last number; `opt` says that the last number may be missing in old files (`EAs_saved`,
ns3d/strat/output/spatial_means.py 184-191). -/
structure Kind where
  fields : List (Str × Str)
  trail : Str
  wr : Wr
  use : Use
  opt : Bool
  deriving DecidableEq, Repr

def Kind.pre (k : Kind) : Str := (k.fields.map Prod.fst).headD []

def Kind.names (k : Kind) : List Str := k.fields.map Prod.snd

def mk (trail : String) (wr : Wr) (use : Use) (fields : List (String × String))
    (opt : Bool := false) : Kind :=
  ⟨fields.map fun f => (f.1.toList, f.2.toList), trail.toList, wr, use, opt⟩

/-- The lines of a record after "####", and whether the number of points is given by
`_get_nb_points_from_lines` (`safe`) or by `len(lines_t)`. -/
structure Format where
  kinds : List Kind
  safe : Bool
  deriving Repr

def timeKind : Kind := mk "" .always .always [("time =", "t")]

/-- ns2d/output/spatial_means.py 69-81 (written) and 97-187 (loaded). -/
def ns2d : Format where
  safe := false
  kinds := [
    timeKind,
    mk " " .always .always [("E    =", "E"), ("; Z         =", "Z")],
    mk " " .always .always
      [("epsK =", "epsK"), ("; epsK_hypo =", "epsK_hypo"), ("; epsK_tot =", "epsK_tot")],
    mk " " .always .always
      [("epsZ =", "epsZ"), ("; epsZ_hypo =", "epsZ_hypo"), ("; epsZ_tot =", "epsZ_tot")],
    mk " " .forcing .forcing
      [("PK1  =", "PK1"), ("; PK2       =", "PK2"), ("; PK_tot   =", "PK_tot")],
    mk " " .forcing .forcing
      [("PZ1  =", "PZ1"), ("; PZ2       =", "PZ2"), ("; PZ_tot   =", "PZ_tot")]]

/-- ns2d/strat/output/spatial_means.py 90-107 (written) and 124-290 (loaded). -/
def ns2dStrat : Format where
  safe := false
  kinds := [
    timeKind,
    mk " " .always .always [("Z    =", "Z")],
    mk " " .always .always [("E    =", "E"), ("; EK         =", "EK"), ("; EA        =", "EA")],
    mk " " .always .always
      [("epsA =", "epsA"), ("; epsA_hypo  =", "epsA_hypo"), ("; epsA_tot  =", "epsA_tot")],
    mk " " .always .always
      [("epsK =", "epsK"), ("; epsK_hypo  =", "epsK_hypo"), ("; epsK_tot  =", "epsK_tot")],
    mk " " .always .always
      [("epsZ =", "epsZ"), ("; epsZ_hypo =", "epsZ_hypo"), ("; epsZ_tot =", "epsZ_tot")],
    mk " " .always .always [("E_shear =", "E_shear")],
    mk " " .forcing .forcing
      [("PK1  =", "PK1"), ("; PK2       =", "PK2"), ("; PK_tot   =", "PK_tot")],
    mk " " .forcing .forcing
      [("PA1  =", "PA1"), ("; PA2       =", "PA2"), ("; PA_tot   =", "PA_tot")],
    mk " " .forcing .forcing
      [("PZ1  =", "PZ1"), ("; PZ2       =", "PZ2"), ("; PZ_tot   =", "PZ_tot")]]

/-- ns3d/output/spatial_means.py 75-94 (written) and 111-224 (loaded). -/
def ns3d : Format where
  safe := true
  kinds := [
    timeKind,
    mk "" .always .always [("E    =", "E")],
    mk "" .always .always [("Ex   =", "Ex"), ("; Ey   =", "Ey"), ("; Ez   =", "Ez")],
    mk " " .always .always
      [("epsK =", "epsK"), ("; epsK_hypo =", "epsK_hypo"), ("; epsK_tot =", "epsK_tot")],
    mk "" .nu4 .saved [("epsK4 =", "epsK4")],
    mk "" .nu8 .saved [("epsK8 =", "epsK8")],
    mk " " .forcing .forcingOrZero
      [("PK1  =", "PK1"), ("; PK2       =", "PK2"), ("; PK_tot   =", "PK_tot")]]

/-- ns3d/strat/output/spatial_means.py 98-126 (written) and 141-305 (loaded). -/
def ns3dStrat : Format where
  safe := true
  kinds := [
    timeKind,
    mk "" .always .always [("E    =", "E")],
    mk "" .always .always
      [("EA   =", "EA"), ("; EKz   =", "EKz"), ("; EKhr   =", "EKhr"), ("; EKhd   =", "EKhd"),
       ("; EKhs   =", "EKhs"), ("; EAs    =", "EAs")] true,
    mk " " .always .always
      [("epsK =", "epsK"), ("; epsK_hypo =", "epsK_hypo"), ("; epsA =", "epsA"),
       ("; epsA_hypo =", "epsA_hypo"), ("; eps_tot =", "eps_tot")],
    mk "" .nu4 .saved [("epsK4 =", "epsK4"), ("; epsA4 =", "epsA4")],
    mk "" .nu8 .saved [("epsK8 =", "epsK8"), ("; epsA8 =", "epsA8")],
    mk " " .forcing .forcingOrZero
      [("PK1  =", "PK1"), ("; PK2       =", "PK2"), ("; PK_tot   =", "PK_tot")],
    mk " " .forcing .forcingOrZero
      [("PA1  =", "PA1"), ("; PA2       =", "PA2"), ("; PA_tot   =", "PA_tot")]]

/-- plate2d/output/spatial_means.py 104-117 (written) and 139-215 (loaded); the line of the
conversions is never loaded. -/
def plate2d : Format where
  safe := false
  kinds := [
    timeKind,
    mk "" .always .always
      [("E    =", "E"), ("; E_k    =", "E_k"), ("; E_l    =", "E_l"), ("; E_e    =", "E_e")],
    mk "" .always .always
      [("epsK =", "epsK"), ("; epsK_hypo =", "epsK_hypo"), ("; epsK_tot =", "epsK_tot")],
    mk "" .always .never [("conv_k_to_l =", "conv_k_to_l"), (": conv_l_to_e =", "conv_l_to_e")],
    mk " " .forcing .forcing [("P1 =", "P1"), ("; P2 =", "P2"), ("; P_tot =", "P_tot")]]

/-! ## Writing -/

section
variable {K : Type*}

def written (o : Opts) (k : Kind) : Bool :=
  match k.wr with
  | .always => true
  | .forcing => o.forcing
  | .nu4 => o.nu4
  | .nu8 => o.nu8

/-- The text of the fields of one line: each number after its label, separated by spaces. -/
def fieldsText (nm : Num K) (v : Str → K) : List (Str × Str) → Str
  | [] => []
  | [(c, n)] => c ++ ' ' :: nm.fmt n (v n)
  | (c, n) :: r => c ++ ' ' :: (nm.fmt n (v n) ++ ' ' :: fieldsText nm v r)

/-- One line, without its end of line. -/
def lineText (nm : Num K) (v : Str → K) (k : Kind) : Str := fieldsText nm v k.fields ++ k.trail

def hashes : Str := "####".toList

/-- The lines written by one call of `_save_one_time`; `v` gives the values by name. -/
def recLines (nm : Num K) (F : Format) (o : Opts) (v : Str → K) : List Str :=
  hashes :: (F.kinds.filter (written o)).map (lineText nm v)

def withEol (ls : List Str) : Str := ls.flatMap fun l => l ++ ['\n']

/-- What one call of `_save_one_time` appends to the file. -/
def recText (nm : Num K) (F : Format) (o : Opts) (v : Str → K) : Str :=
  withEol (recLines nm F o v)

/-- `_save_one_time`: the file is opened at its end (base/output/spatial_means.py 75-82), so each
call appends. -/
def save (nm : Num K) (F : Format) (o : Opts) (file : Str) (v : Str → K) : Str :=
  file ++ recText nm F o v

/-- A run: one call of `_save_one_time` per element of `vs`, starting from the file `file`. -/
def saves (nm : Num K) (F : Format) (o : Opts) (file : Str) (vs : List (Str → K)) : Str :=
  vs.foldl (save nm F o) file

/-! ## Loading -/

/-- The lines starting with the given text (`line.startswith(...)`). -/
def kLines (k : Kind) (ls : List Str) : List Str := ls.filter fun l => k.pre.isPrefixOf l

/-- `float(words[j])`. -/
def numAt (nm : Num K) (words : List Str) (j : ℕ) : Except Err K :=
  match words[j]? with
  | none => .error .IndexError
  | some w =>
    match nm.pyFloat w with
    | none => .error .ValueError
    | some x => .ok x

/-- The numbers of one line: the `i`-th is `words[4 i + 2]`. -/
def readNames (nm : Num K) (words : List Str) : List (Str × ℕ) → Except Err (List (Str × K))
  | [] => .ok []
  | (n, i) :: r =>
    match numAt nm words (4 * i + 2) with
    | .error e => .error e
    | .ok x =>
      match readNames nm words r with
      | .error e => .error e
      | .ok l => .ok ((n, x) :: l)

/-- The number of points: `_get_nb_points_from_lines` (base/output/spatial_means.py 120-127) or
`len(lines_t)`.  `np.empty(-1)` raises a `ValueError`. -/
def nbPoints (F : Format) (ls : List Str) : Except Err ℕ :=
  let nt := (kLines timeKind ls).length
  if F.safe then
    if F.kinds.all fun k => (kLines k ls).length = 0 || (kLines k ls).length = nt then .ok nt
    else if nt = 0 then .error .ValueError else .ok (nt - 1)
  else .ok nt

/-- Which names of a line are read: the last one only if it is in the first such line, when it may
be missing. `lines_EA[0]` raises an `IndexError` when there is no such line. -/
def namesRead (k : Kind) (ls : List Str) : Except Err (List Str) :=
  if k.opt then
    match kLines k ls with
    | [] => .error .IndexError
    | l :: _ =>
      if 4 * (k.names.length - 1) + 2 < (splitWs l).length then .ok k.names
      else .ok k.names.dropLast
  else .ok k.names

def isUsed (forcing : Bool) (k : Kind) (ls : List Str) : Bool :=
  match k.use with
  | .always => true
  | .forcing => forcing
  | .forcingOrZero => forcing
  | .saved => decide (kLines k ls ≠ [])
  | .never => false

/-- What the line `il` of one kind gives. -/
def readKind [Zero K] (nm : Num K) (forcing : Bool) (ls : List Str) (il : ℕ) (k : Kind) :
    Except Err (List (Str × K)) :=
  if isUsed forcing k ls then
    match namesRead k ls with
    | .error e => .error e
    | .ok ns =>
      match (kLines k ls)[il]? with
      | none => .error .IndexError
      | some l => readNames nm (splitWs l) ns.zipIdx
  else if k.use = .forcingOrZero then .ok (k.names.map fun n => (n, 0))
  else .ok []

/-- `mapM` for exceptions, stopping at the first one. -/
def allOk {A B : Type*} (f : A → Except Err B) : List A → Except Err (List B)
  | [] => .ok []
  | a :: l =>
    match f a with
    | .error e => .error e
    | .ok b =>
      match allOk f l with
      | .error e => .error e
      | .ok bs => .ok (b :: bs)

/-- The values at the index `il` of the arrays. -/
def readRow [Zero K] (nm : Num K) (F : Format) (forcing : Bool) (ls : List Str) (il : ℕ) :
    Except Err (List (Str × K)) :=
  match allOk (readKind nm forcing ls il) F.kinds with
  | .error e => .error e
  | .ok l => .ok l.flatten

/-- `load`: the arrays are given here index by index, as lists of pairs (name of the array, value).
`forcing` is `sim.params.forcing.enable` of the simulation object which loads.  The check of
`lines_EA[0]` is done even when there is no point. -/
def load [Zero K] (nm : Num K) (F : Format) (forcing : Bool) (text : Str) :
    Except Err (List (List (Str × K))) :=
  let ls := pyLines text
  match nbPoints F ls with
  | .error e => .error e
  | .ok nt =>
    match allOk (fun k => namesRead k ls) F.kinds with
    | .error e => .error e
    | .ok _ => allOk (readRow nm F forcing ls) (List.range nt)

/-! ## First and last times -/

/-- `float(line.split()[2])`. -/
def timeOfLine (nm : Num K) (l : Str) : Except Err K := numAt nm (splitWs l) 2

/-- `time_first_saved` (base/output/spatial_means.py 170-177): `none` means that the loop never
ends (at the end of the file, `readline()` returns "" for ever). -/
def timeFirst (nm : Num K) (text : Str) : Option (Except Err K) :=
  match kLines timeKind (pyLines text) with
  | [] => none
  | l :: _ => some (timeOfLine nm l)

/-- The last 1000 characters of the file, or the whole file. -/
def lastPart (text : Str) : Str := text.drop (text.length - min text.length 1000)

/-- `time_last_saved` (base/output/spatial_means.py 179-191). -/
def timeLast (nm : Num K) (text : Str) : Except Err K :=
  match (kLines timeKind (pyLines (lastPart text))).getLast? with
  | none => .error .UnboundLocalError
  | some l => timeOfLine nm l

/-! ## The JSON variant -/

/-- `json.loads(line)["t"]` and `json.dumps`; `none` is a `JSONDecodeError`. -/
structure Json (R K : Type*) where
  dumps : R → Str
  loads : Str → Option R
  t : R → K

/-- `_save_one_time` (base/output/spatial_means.py 200-203). -/
def saveJson {R : Type*} (js : Json R K) (file : Str) (r : R) : Str := file ++ (js.dumps r ++ ['\n'])

def savesJson {R : Type*} (js : Json R K) (file : Str) (rs : List R) : Str :=
  rs.foldl (saveJson js) file

/-- `time_first_saved` (base/output/spatial_means.py 255-264); `json.loads("")` raises. -/
def timeFirstJson {R : Type*} (js : Json R K) (text : Str) : Except Err K :=
  match js.loads ((pyLines text).headD []) with
  | none => .error .JSONDecodeError
  | some r => .ok (js.t r)

/-- `time_last_saved` (base/output/spatial_means.py 266-281). -/
def timeLastJson {R : Type*} (js : Json R K) (text : Str) : Except Err K :=
  match (pyLines (lastPart text)).getLast? with
  | none => .error .UnboundLocalError
  | some l =>
    match js.loads l with
    | none => .error .JSONDecodeError
    | some r => .ok (js.t r)

/-- `json.dumps` of a dictionary of numbers: the keys and the text of the numbers. -/
def dumpItems : List (Str × Str) → Str
  | [] => []
  | [(k, x)] => '"' :: k ++ "\": ".toList ++ x
  | (k, x) :: r => '"' :: k ++ "\": ".toList ++ x ++ ", ".toList ++ dumpItems r

def dumpDict (items : List (Str × Str)) : Str := '{' :: dumpItems items ++ ['}']

/-- The keys of a record of the solver sw1l with forcing, in the order of the dictionary
(sw1l/output/spatial_means.py 34-116, 133-226 and 438-486). -/
def sw1lKeys : List Str :=
  ["t", "E", "CPE", "EK", "EA", "EKr", "epsK", "epsK_hypo", "epsA", "epsA_hypo", "epsCPE",
   "epsCPE_hypo", "epsKsup", "epsKsup_hypo", "epsK_tot", "epsA_tot", "epsCPE_tot", "Conv",
   "c2eta1d", "c2eta2d", "c2eta3d", "skew_eta", "kurt_eta", "skew_rot", "kurt_rot", "skew_div",
   "kurt_div", "PK1", "PK2", "PK_tot", "PA1", "PA2", "PA_tot"].map String.toList

/-! ## Time means -/

/-- The indices used by `compute_time_means` (base/output/spatial_means.py 151-162): the slice
`value[imin:imax]`. -/
def meanSlice {Q : Type*} [Field Q] [LinearOrder Q] {A : Type*} (times : List Q) (vals : List A)
    (tstatio : Q) (tmax : Option Q) : List A :=
  let imin := Verif.PhysFiles.closest times tstatio
  match tmax with
  | none => vals.drop imin
  | some tm => (vals.take (Verif.PhysFiles.closest times tm + 1)).drop imin

/-- `np.mean` of the slice; `none` is the `nan` of an empty slice. -/
def timeMean {Q : Type*} [Field Q] [LinearOrder Q] (times vals : List Q) (tstatio : Q)
    (tmax : Option Q) : Option Q :=
  match meanSlice times vals tstatio tmax with
  | [] => none
  | l => some (l.sum / l.length)

end

end Verif.MeansFile
