import Mathlib.Data.Rat.Floor
import Mathlib.Algebra.Order.Round
import Verif.StdOut.Model

/-!
# Model of the names of the runs

`SimReprMakerCore` (lib/fluidsim_core/output/base.py 25-114), `_init_sim_repr_maker` (296-313 there and fluidsim/base/output/base.py
158-183), the methods `_modify_sim_repr_maker`. Texts are lists of characters.
-/

namespace Verif.RunName

open Verif.PhysFiles (Str digs fixed)
open Verif.StdOut (splitChar)

/-- Value of a parameter of a name. A float is its exact (rational) value; the values `inf` and `nan` are not modelled. -/
inductive Value
  | float (x : ℚ)
  | int (z : ℤ)
  | str (s : Str)
  deriving DecidableEq

/-- Format specification: `.pf`, `w.0g` (the one of plate2d) and the empty one. -/
inductive Fmt
  | fixed (p : ℕ)
  | general (w : ℕ)
  | empty
  deriving DecidableEq

/-- `round` half to even of a non-negative rational. -/
def roundEven (x : ℚ) : ℕ :=
  let n := ⌊x⌋₊
  let r := x - n
  if r < 1 / 2 then n else if 1 / 2 < r then n + 1 else if n % 2 = 0 then n else n + 1

/-- `f"{x:.pf}"`: correctly rounded, with the sign of `x`. For `p = 0` there is no point. -/
def fixedText (p : ℕ) (x : ℚ) : Str :=
  let m := roundEven (|x| * 10 ^ p)
  (if x < 0 then ['-'] else []) ++ digs (m / 10 ^ p) ++ (if p = 0 then [] else '.' :: fixed p (m % 10 ^ p))

/-- `str(z)`. -/
def intText (z : ℤ) : Str := (if z < 0 then ['-'] else []) ++ digs z.natAbs

/-- The texts which are not modelled: `"{:.0g}".format(x)` (one digit, possibly with an exponent) and `str` of a float. -/
structure Texts where
  general : Value → Str
  plain : ℚ → Str

/-- `("{:" + fmt + "}").format(parameter)` (lines 59-60). A text with a format of numbers is `ValueError`. -/
def format (T : Texts) : Fmt → Value → Except String Str
  | .fixed p, .float x => .ok (fixedText p x)
  | .fixed p, .int z => .ok (fixedText p z)
  | .fixed _, .str _ => .error "ValueError"
  | .general _, .str _ => .error "ValueError"
  | .general w, v => .ok (List.replicate (w - (T.general v).length) ' ' ++ T.general v)
  | .empty, .float x => .ok (T.plain x)
  | .empty, .int z => .ok (intText z)
  | .empty, .str s => .ok s

/-- The default format (lines 54-57). -/
def defaultFmt : Value → Fmt
  | .float _ => .fixed 3
  | _ => .empty

/-- `s.replace("e+", "e")`. -/
def replaceE : Str → Str
  | 'e' :: '+' :: s => 'e' :: replaceE s
  | c :: s => c :: replaceE s
  | [] => []

/-- `s.rstrip("0")`. -/
def rstrip0 (s : Str) : Str := (s.reverse.dropWhile (· = '0')).reverse

/-- Lines 61-66: what is done with the text of a value. -/
def clean (f : Fmt) (s : Str) : Str :=
  let s := match f with
    | .general _ => replaceE s
    | _ => s
  let s := if 'e' ∉ s ∧ '.' ∈ s then rstrip0 s else s
  if s.getLast? = some '.' then s.dropLast else s

/-- An element of `ordered_keys`. -/
inductive Key
  | word (w : Str)
  | param (name : Str)
  deriving DecidableEq

/-- `SimReprMakerCore` (lines 28-33). -/
structure Maker where
  ordered : List Key := []
  parameters : List (Str × Value) := []
  formats : List (Str × Fmt) := []

/-- `add_word` (lines 35-37). -/
def Maker.addWord (m : Maker) (w : Str) : Maker := if w = [] then m else { m with ordered := m.ordered ++ [.word w] }

/-- `list.insert(index, x)` for an index which is not negative. -/
def insertAt (i : ℕ) (x : Key) (l : List Key) : List Key := l.take i ++ x :: l.drop i

/-- `add_parameters` (lines 39-48). The dictionaries are association lists where the first one wins. -/
def Maker.addParameters (m : Maker) (ps : List (Str × Value)) (fs : List (Str × Fmt) := []) (is : List (Str × ℕ) := []) : Maker :=
  { ordered := ps.foldl (fun o p => match is.lookup p.1 with
      | some i => insertAt i (.param p.1) o
      | none => o ++ [.param p.1]) m.ordered
    parameters := ps.reverse ++ m.parameters
    formats := fs.reverse ++ m.formats }

/-- One element of the list of `_make_list_repr` (lines 52-69). -/
def item (T : Texts) (m : Maker) : Key → Except String (Str × Option Str)
  | .word w => .ok (w, none)
  | .param n =>
    match m.parameters.lookup n with
    | none => .error "KeyError"
    | some v =>
      let f := (m.formats.lookup n).getD (defaultFmt v)
      (format T f v).map fun s => (n, some (clean f s))

/-- `_make_list_repr` (lines 50-71): a word alone, or a name and a value. -/
def listRepr (T : Texts) (m : Maker) : Except String (List (Str × Option Str)) := m.ordered.mapM (item T m)

/-- `c.join(l)` for one character. -/
def join (c : Char) : List Str → Str
  | [] => []
  | [s] => s
  | s :: t :: l => s ++ c :: join c (t :: l)

/-- One piece of the name (lines 101-109). -/
def piece (o : Str × Option Str) : Str := o.1 ++ o.2.getD []

/-- `name_run` of `make_representations` (lines 90-112). -/
def nameRun (T : Texts) (m : Maker) (time : Str) : Except String Str :=
  (listRepr T m).map fun l => join '_' (l.map piece ++ [time])

/-- `time_from_path_run` (lines 78-81), for the name of a directory. -/
def timeFromName (s : Str) : Str :=
  let l := splitChar '_' s
  join '_' (l.drop (l.length - 2))

/-- The part of a path after the last "/" (`Path(path).name`; simplification: no trailing "/"). -/
def baseName (s : Str) : Str := (s.reverse.takeWhile (· ≠ '/')).reverse

/-- `time_from_path_run` (lines 78-81): the name of a `Path`, or the whole text. -/
def timeFromPath (isPath : Bool) (s : Str) : Str := timeFromName (if isPath then baseName s else s)

/-- `_init_sim_repr_maker` (lib/fluidsim_core/output/base.py 296-313; fluidsim/base/output/base.py 158-183): the short name of the solver, the
one of the type of run, the operators, the parameters of the solver and the ones of the forcing. -/
def simMaker (solver typeRun oper : Str) (params forcing : Maker → Maker) : Maker :=
  forcing (params (((({} : Maker).addWord solver).addWord typeRun).addWord oper))

/-- fluidsim/solvers/ns3d/strat/solver.py 134-136. -/
def ns3dStrat (N : Value) (m : Maker) : Maker := m.addParameters [("N".toList, N)]

/-- fluidsim/base/forcing/milestone.py 144-159 with a periodic uniform movement. -/
def milestone (length speed diameter : Value) (m : Maker) : Maker :=
  m.addParameters [("Lf".toList, length), ("U".toList, speed), ("D".toList, diameter)] [("Lf".toList, .fixed 2)]

/-- fluidsim/solvers/ns3d/forcing/watu.py 52-57. -/
def watu (amplitude omega : Value) (m : Maker) : Maker := m.addParameters [("ampl".toList, amplitude), ("omegaf".toList, omega)]

/-- fluidsim/solvers/ns3d/forcing/__init__.py 46-56; `re` is the Reynolds number, for a non-zero viscosity. -/
def taylorGreen (amplitude : Value) (re : Option Value) (m : Maker) : Maker :=
  m.addParameters (("ampl".toList, amplitude) :: (re.map fun r => ("Re".toList, r)).toList)

/-- fluidsim/solvers/plate2d/forcing.py 29-36. -/
def plate2d (rate : Value) (m : Maker) : Maker := m.addParameters [("P".toList, rate)] [("P".toList, .general 5)] [("P".toList, 2)]

/-! ### The word of the operators -/

/-- `"x".join(str(n) for n in shape)`. -/
def shapeText (shape : List ℕ) : Str := join 'x' (shape.map digs)

/-- `OperatorBase._modify_sim_repr_maker` (fluidsim/operators/base.py 20-45): `repr_` is the text of `produce_str_describing_oper`,
`shape` the one of `params.oper` in the order x, y, z. A text which has not exactly two pieces is `ValueError`. -/
def operWord (onlyCoarse : Bool) (repr_ : Str) (shape : List ℕ) : Except String Str :=
  if shape ≠ [] ∧ onlyCoarse then
    match splitChar '_' repr_ with
    | [_, volume] => .ok (shapeText shape ++ '_' :: volume)
    | _ => .error "ValueError"
  else .ok repr_

/-- `_str_describing_oper` (fluidsim/operators/base.py 104-110): `pis` is the number of `pi` when it is an integer. -/
def lengthText (pis : Option ℕ) (L : ℚ) : Str :=
  match pis with
  | some n => digs n ++ "pi".toList
  | none => rstrip0 (fixedText 3 L)

/-- `OperatorBase1D.produce_str_describing_oper` (fluidsim/operators/base.py 112-115). The operators of fluidfft have the same form, with
the sizes and the lengths of the axes separated by "x". -/
def repr1d (nx : ℕ) (pis : Option ℕ) (L : ℚ) : Str := digs nx ++ "_S".toList ++ lengthText pis L

/-- `OperatorFiniteDiff2DPeriodic.produce_str_describing_oper` (fluidsim/operators/op_finitediff2d.py 135-145): the lengths come first. -/
def reprFd2d (nx ny : ℕ) (px py : Option ℕ) (Lx Ly : ℚ) : Str :=
  "L=".toList ++ lengthText px Lx ++ 'x' :: lengthText py Ly ++ '_' :: digs nx ++ 'x' :: digs ny

end Verif.RunName
