import Mathlib.Algebra.Order.Field.Basic
import Mathlib.Algebra.Order.Floor.Ring
import Mathlib.Algebra.Module.Defs
import Mathlib.Data.Nat.Log
import Mathlib.Data.Rat.Floor

/-!
# Files of physical fields: names (C17), selection by time (C18), interpolation (C19)

File names are lists of characters.
-/

namespace Verif.PhysFiles

abbrev Str := List Char

/-! ### Names -/

/-- The character of a decimal digit. -/
def dig (d : ℕ) : Char := Char.ofNat (48 + d)

/-- Decimal digits of `n` (at least one), with `fuel` recursive calls. -/
def digsAux : ℕ → ℕ → Str
  | 0, n => [dig (n % 10)]
  | fuel + 1, n => if n < 10 then [dig n] else digsAux fuel (n / 10) ++ [dig (n % 10)]

/-- Python's `str(n)` for a natural number. -/
def digs (n : ℕ) : Str := digsAux n n

/-- Exactly `l` digits: `n` modulo `10^l` with leading zeros. -/
def fixed : ℕ → ℕ → Str
  | 0, _ => []
  | l + 1, n => fixed l (n / 10) ++ [dig (n % 10)]

/-- Zero padding on the left up to width `w` (the `0{w}` of a format specification). -/
def pad (w : ℕ) (s : Str) : Str := List.replicate (w - s.length) '0' ++ s

/-- `f"{time:0{w}.3f}"` for a non-negative time that rounds to `m` thousandths
(fluidsim/base/output/phys_fields.py 161, 178). -/
def fmt (w m : ℕ) : Str := pad w (digs (m / 1000) ++ '.' :: fixed 3 (m % 1000))

/-- Number of thousandths to which the `.3f` format rounds a time. Simplification: ties go up
(Python: exact binary value, ties to even). -/
def thousandths {K : Type*} [Field K] [LinearOrder K] [FloorRing K] (t : K) : ℕ :=
  ⌊1000 * t + 1 / 2⌋.toNat

/-- `"state_phys_t"` (phys_fields.py 161). -/
def pre : Str := "state_phys_t".toList

/-- `f"_it={it}"` (phys_fields.py 157). -/
def itText (it : ℕ) : Str := "_it=".toList ++ digs it

/-- The extension (phys_fields.py 161; `ext` is "nc" or "h5": two characters either way). -/
def ext : Str := ".nc".toList

/-- A saved file: its name, the iteration stored in it (attribute `it`), the exact time
stored in it. -/
structure File (K : Type*) where
  name : Str
  it : ℕ
  time : K
  deriving DecidableEq

/-- Parameters read by `save` (phys_fields.py 138-158). -/
structure Params where
  useTEnd : Bool
  /-- integer part of `t_end`; simplification: `t_end ≥ 1` -/
  tEnd : ℕ
  /-- `0 < self.period_save < 0.001 or params.output.phys_fields.file_with_it` -/
  withIt : Bool

/-- `str_width` (phys_fields.py 138-153). `probe` is the file returned by
`next(path_run.glob("state_phys*"))`: any file of the directory, since the order is not
specified. `len(name[12:-3])` is the length without prefix and extension. -/
def strWidth {K : Type*} (p : Params) (probe : Option (File K)) : ℕ :=
  if p.useTEnd then
    match probe with
    | none => Nat.log 10 p.tEnd + 7
    | some f => f.name.length - 12 - 3
  else 7

/-- The name of the first attempt (phys_fields.py 155-161). -/
def name1 (p : Params) (w m it : ℕ) : Str :=
  pre ++ fmt w m ++ (if p.withIt then itText it else []) ++ ext

/-- The name used when the first one is taken by another iteration (phys_fields.py 177-179):
the width is 7. -/
def name2 (m it : ℕ) : Str := pre ++ fmt 7 m ++ itText it ++ ext

/-- Writing a file: `save_file` opens it with mode "w" (fluidsim/util/output.py 47-123), an
existing file of this name is replaced. -/
def write {K : Type*} (fs : List (File K)) (f : File K) : List (File K) :=
  fs.filter (fun g => g.name ≠ f.name) ++ [f]

variable {K : Type*} [Field K] [LinearOrder K] [FloorRing K]

/-- `PhysFieldsBase.save` (phys_fields.py 130-201): the files after saving the state of time
`t`, iteration `it`. `probe` is the file seen by `glob`. -/
def save (p : Params) (probe : Option (File K)) (fs : List (File K)) (t : K) (it : ℕ) :
    List (File K) :=
  let m := thousandths t
  let n1 := name1 p (strWidth p probe) m it
  match fs.find? fun f => f.name = n1 with
  | none => write fs ⟨n1, it, t⟩
  | some f => if f.it = it then fs else write fs ⟨name2 m it, it, t⟩

/-- A directory reached by a sequence of saves: `probe` is each time some file of the
directory (or none if it is empty). -/
inductive Reach (p : Params) : List (File K) → Prop
  | empty : Reach p []
  | save {fs : List (File K)} (probe : Option (File K)) (t : K) (it : ℕ) :
      Reach p fs → (∀ f, probe = some f → f ∈ fs) → (probe = none → fs = []) →
      Reach p (save p probe fs t it)

/-! ### Times from names -/

/-- Value of a string of digits. -/
def digitsVal (s : Str) : ℕ := s.foldl (fun a c => 10 * a + (c.toNat - 48)) 0

/-- Is it a decimal digit? -/
def isDig (c : Char) : Bool := decide ('0' ≤ c) && decide (c ≤ '9')

/-- The longest prefix matching `[0-9]+\.[0-9]+`, as (digits, digits). -/
def matchHere (s : Str) : Option (Str × Str) :=
  let a := s.takeWhile isDig
  match s.dropWhile isDig with
  | '.' :: r =>
    let b := r.takeWhile isDig
    if a ≠ [] ∧ b ≠ [] then some (a, b) else none
  | _ => none

/-- `re.search` of the pattern of `time_from_path` (phys_fields.py 327-338): the first
position that matches. The look-ahead `(?!t)` excludes nothing since a digit follows. -/
def search : Str → Option (Str × Str)
  | [] => none
  | c :: s => match matchHere (c :: s) with
    | some r => some r
    | none => search s

/-- `float` of the text `a.b`, as an exact value (integer digits, fractional digits). -/
def decVal {K : Type*} [Field K] (ab : Str × Str) : K :=
  (digitsVal ab.1 : K) + (digitsVal ab.2 : K) / 10 ^ ab.2.length

/-- `time_from_path` (phys_fields.py 327-338). -/
def timeFromPath {K : Type*} [Field K] (name : Str) : Option K := (search name).map decVal

/-- The parsing of `name_file_from_time_approx` (fluidsim/util/util.py 148-160) for a name
`state_phys_t...`: the two first parts between dots, cut at the first underscore. -/
def parseApprox {K : Type*} [Field K] (name : Str) : K :=
  let r := name.drop 12
  let a := r.takeWhile (· ≠ '.')
  let b := ((r.dropWhile (· ≠ '.')).drop 1).takeWhile (· ≠ '.')
  let tmp := (a ++ '.' :: b).takeWhile (· ≠ '_')
  decVal (tmp.takeWhile (· ≠ '.'), (tmp.dropWhile (· ≠ '.')).drop 1)

/-! ### Selection by time -/

/-- Index of the first minimum (NumPy's `argmin`); 0 for the empty list. -/
def argmin {K : Type*} [LinearOrder K] : List K → ℕ
  | [] => 0
  | [_] => 0
  | a :: b :: l =>
    let i := argmin (b :: l)
    match (b :: l)[i]? with
    | some x => if a ≤ x then 0 else i + 1
    | none => 0

/-- The argument `t_approx`. -/
inductive TApprox (K : Type*) where
  | none
  | last
  | num (t : K)

/-- `name_file_from_time_approx` (fluidsim/util/util.py 116-165) given the sorted names and
their times: the index of the selected file; an error without file. -/
def nameFileFromTimeApprox {K : Type*} [Field K] [LinearOrder K] (times : List K)
    (a : TApprox K) : Except String ℕ :=
  if times.length = 0 then .error "ValueError"
  else match a with
    | .none => .ok (times.length - 1)
    | .last => match times.max? with
      | Option.none => .error "ValueError"
      | some t => .ok (argmin (times.map fun x => |x - t|))
    | .num t => .ok (argmin (times.map fun x => |x - t|))

/-- `get_closest_time_file` (lib/fluidsim_core/output/phys_fields.py 213-216). -/
def closest {K : Type*} [Field K] [LinearOrder K] (times : List K) (t : K) : ℕ :=
  argmin (times.map fun x => |x - t|)

/-- `update_times` (lib/fluidsim_core/output/phys_fields.py 128-140): the remembered listing
is refreshed only if the number of files has changed. -/
def updateTimes {A : Type*} (known : Option (List A)) (dir : List A) : List A :=
  match known with
  | none => dir
  | some l => if l.length = dir.length then l else dir

/-! ### Interpolation in time -/

/-- `math.isclose` with the default tolerances (relative 1e-9, absolute 0). -/
def isclose {K : Type*} [Field K] [LinearOrder K] (a b : K) : Prop :=
  |a - b| ≤ max (|a|) (|b|) / 10 ^ 9

instance {K : Type*} [Field K] [LinearOrder K] (a b : K) : Decidable (isclose a b) := by
  unfold isclose; infer_instance

/-- `get_field_to_plot(time, interpolate_time=True)`
(lib/fluidsim_core/output/phys_fields.py 148-207): `times[i]` and `field i` are the time and
the field of file `i`. The exceptions are values: no file, and the unbound variable when no
branch of the `if` is taken. -/
def fieldInterp {K : Type*} [Field K] [LinearOrder K] {V : Type*} [AddCommGroup V] [Module K V]
    (times : List K) (field : ℕ → V) (time : K) : Except String V :=
  if times.length = 0 then .error "FileNotFoundError"
  else
    let ic := closest times time
    let tc := times.getD ic 0
    if isclose time tc ∨ times.length = 1 then .ok (field ic)
    else
      let idx : Option (ℕ × ℕ) :=
        if ic = times.length - 1 then some (ic - 1, ic)
        else if tc < time ∨ ic = 0 then some (ic, ic + 1)
        else if time < tc then some (ic - 1, ic)
        else none
      match idx with
      | none => .error "UnboundLocalError"
      | some (i0, i1) =>
        let dtSave := times.getD i1 0 - times.getD i0 0
        let w0 := 1 - |time - times.getD i0 0| / dtSave
        let w1 := 1 - |time - times.getD i1 0| / dtSave
        .ok (w0 • field i0 + w1 • field i1)

end Verif.PhysFiles
