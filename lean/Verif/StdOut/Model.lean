import Verif.MeansFile.Model

/-! # C66: the log file stdout.txt, written during the simulation and loaded again

Models what `PrintStdOutBase` (fluidsim/base/output/print_stdout.py) and the subclasses of the solvers
write, and the functions which read the file: `load`, `_load_times`,
`times_start_last_from_path` and `get_last_estimated_remaining_duration` (fluidsim/util/util.py).

Simplification: characters are bytes (the texts are ASCII).  The formatting of a number
(`f"{x:9.3e}"`, ...), `int(...)` and `float(...)` are parameters (`Num`), with the contract of
Verif/MeansFile/Spec.lean. -/

namespace Verif.StdOut

open Verif.PhysFiles (Str digs fixed digitsVal isDig)
open Verif.MeansFile (splitWs pyLines Num withEol fieldsText)

inductive Err where
  | IndexError
  | ValueError
  | UnboundLocalError
  | TypeError
  | RuntimeError
  deriving DecidableEq, Repr

/-! ## Writing -/

/-- A number of a line: the text before it, its name, the index of its word in `load`. -/
structure Fld where
  label : Str
  name : Str
  pos : ℕ
  deriving DecidableEq, Repr

/-- A line of an information: its numbers, what is written after the last one, whether `load` looks
for it. -/
structure Line where
  flds : List Fld
  trail : Str
  loaded : Bool
  deriving DecidableEq, Repr

def mkLine (flds : List (String × String × ℕ)) (trail : String := "") (loaded : Bool := true) : Line :=
  ⟨flds.map fun f => ⟨f.1.toList, f.2.1.toList, f.2.2⟩, trail.toList, loaded⟩

/-- The text at the beginning of the line, given to `startswith` by `load`. -/
def Line.head (l : Line) : Str := (l.flds.map Fld.label).headD []

/-- `PrintStdOutBase._make_str_info` (base/output/print_stdout.py 99-103); the words are those of the
`load` of the solvers. -/
def itLine : Line := mkLine [("it =", "it", 2), ("; t =", "t", 6), ("; deltat  =", "deltat", 10)]

inductive Solver where
  /-- ns2d, plate2d and ad1d -/
  | ns2d
  | ns3d
  | strat
  | sw1l
  deriving DecidableEq, Repr

/-- `_make_str_info` and `load` of ns2d (ns2d/output/print_stdout.py 26-87; also plate2d and ad1d), ns3d
(ns3d/output/print_stdout.py 15-75), ns2d.strat (ns2d/strat/output/print_stdout.py 39-148, with
`HAS_TO_SAVE`) and sw1l (sw1l/output/print_stdout.py 13-88). -/
def Solver.lines : Solver → List Line
  | .ns2d => [itLine, mkLine [("              energy =", "E", 2), ("; Delta energy =", "deltaE", 7)]]
  | .ns3d => [itLine, mkLine [("              energy =", "E", 2), ("; Delta energy =", "deltaE", 7)]]
  | .strat => [itLine, mkLine [("              energyK =", "EK", 2)], mkLine [("              energyA =", "EA", 2)],
      mkLine [("              energy  =", "E", 2), ("; Delta energy =", "deltaE", 7)],
      mkLine [("              memory  =", "memory", 2)] " Mo." false]
  | .sw1l => [itLine, mkLine [("              energy  =", "E", 2), ("; Delta energy =", "deltaE", 7)],
      mkLine [("              energyK =", "E_K", 2), ("; energyA      =", "E_A", 6)]]

/-- `str(timedelta(seconds=n))` (CPython's datetime), `n ≥ 0`. -/
def durText (n : ℕ) : Str :=
  let days := n / 86400
  let s := n % 86400
  (if days = 0 then [] else digs days ++ (if days = 1 then " day, ".toList else " days, ".toList))
    ++ digs (s / 3600) ++ ':' :: fixed 2 (s / 60 % 60) ++ ':' :: fixed 2 (s % 60)

/-- The text before the duration. -/
def estimated : Str := "              estimated remaining duration".toList

/-- What is given to `print_stdout`. -/
inductive Msg (K : Type*) where
  /-- `_print_info`: the values by their names, the estimated duration in seconds -/
  | info (v : Str → K) (dur : Option ℕ)
  /-- `main_loop` with `USE_T_END` (base/time_stepping/base.py 200) -/
  | untilT (t : K)
  /-- `main_loop` without `USE_T_END` (base/time_stepping/base.py 204) -/
  | untilIt (n : ℕ)
  /-- `PhysFieldsBase.save` (base/output/phys_fields.py 190) -/
  | saved (name : Str)
  /-- any other text -/
  | other (text : Str)

section
variable {K : Type*}

def Line.text (nm : Num K) (v : Str → K) (l : Line) : Str :=
  fieldsText nm v (l.flds.map fun f => (f.label, f.name)) ++ l.trail

/-- `to_print += f"              estimated remaining duration = {duration_left}"`; nothing without duration. -/
def durLine : Option ℕ → Str
  | none => []
  | some n => estimated ++ " = ".toList ++ durText n

def untilTHead : Str := "    compute until t =".toList
def savedHead : Str := "save state_phys in file".toList

/-- The lines of a message; `end="\n"` ends the last one. -/
def msgText (nm : Num K) (S : Solver) : Msg K → Str
  | .info v dur => withEol (S.lines.map (Line.text nm v) ++ [durLine dur])
  | .untilT t => withEol [untilTHead ++ ' ' :: nm.fmt "t_end".toList t]
  | .untilIt n => withEol ["    compute until it = ".toList ++ List.replicate (8 - (digs n).length) ' ' ++ digs n]
  | .saved name => withEol [savedHead ++ ' ' :: name]
  | .other text => text ++ ['\n']

/-- `PrintStdOutBase.__call__` (base/output/print_stdout.py 76-84) on rank 0 with `HAS_TO_SAVE`: the file is
opened at its end by each process (58-63), so each call appends. -/
def print (nm : Num K) (S : Solver) (file : Str) (m : Msg K) : Str := file ++ msgText nm S m

/-- The file after some messages. -/
def log (nm : Num K) (S : Solver) (file : Str) (ms : List (Msg K)) : Str := ms.foldl (print nm S) file

/-! ## `load` -/

/-- `line.startswith(...)`. -/
def startsWith (h : Str) (l : Str) : Bool := h.isPrefixOf l

/-- `float(words[j])` (`int(words[j])`). -/
def numAt (nm : Num K) (words : List Str) (j : ℕ) : Except Err K :=
  match words[j]? with
  | none => .error .IndexError
  | some w =>
    match nm.pyFloat w with
    | none => .error .ValueError
    | some x => .ok x

/-- `mapM` for exceptions, stopping at the first one. -/
def allOk {A B : Type*} (f : A → Except Err B) : List A → Except Err (List B)
  | [] => .ok []
  | a :: l =>
    match f a with
    | .error e => .error e
    | .ok b =>
      match allOk f l with
      | .error e => .error e
      | .ok bs => .ok (b :: bs)

/-- The numbers that `load` takes from one line. -/
def readLine (nm : Num K) (ls : List Str) (il : ℕ) (l : Line) : Except Err (List (Str × K)) :=
  match (ls.filter (startsWith l.head))[il]? with
  | none => .error .IndexError
  | some x => allOk (fun f => (numAt nm (splitWs x) f.pos).map fun y => (f.name, y)) l.flds

/-- `load`: the arrays are given here index by index. `nt` is the number of lines with the time, minus
one if there is more than one. -/
def load (nm : Num K) (S : Solver) (text : Str) : Except Err (List (List (Str × K))) :=
  let ls := pyLines text
  let n := (ls.filter (startsWith itLine.head)).length
  let nt := if n > 1 then n - 1 else n
  allOk (fun il => (allOk (readLine nm ls il) (S.lines.filter Line.loaded)).map List.flatten) (List.range nt)

/-! ## `_load_times` -/

/-- `int(word)`; simplification: only the digits are accepted (also signs, underscores, spaces in Python). -/
def pyInt (s : Str) : Option ℕ := if s ≠ [] ∧ s.all isDig then some (digitsVal s) else none

/-- `s.split(c)` for one character. -/
def splitChar (c : Char) : Str → List Str
  | [] => [[]]
  | x :: s =>
    if x = c then [] :: splitChar c s
    else
      match splitChar c s with
      | [] => [[x]]
      | l :: r => (x :: l) :: r

/-- `pat in line`. -/
def isInfix (pat : Str) : Str → Bool
  | [] => decide (pat = [])
  | c :: s => pat.isPrefixOf (c :: s) || isInfix pat s

/-- One line with an estimated duration, seen by `_load_times`. -/
structure Entry (K : Type*) where
  remaining : ℕ
  time : K
  timeLast : K
  it : K
  itLast : K
  tEnd : K
  dt : K
  deriving DecidableEq

/-- The local variables of `_load_times`; `none` is `None`, or not bound for `tEnd` and `dt`. -/
structure Vars (K : Type*) where
  time : Option K := none
  timeLast : Option K := none
  it : Option K := none
  itLast : Option K := none
  dt : Option K := none
  tEnd : Option K := none
  start : Option K := none

/-- What a line with the time changes (base/output/print_stdout.py 163-171). -/
def Vars.next (σ : Vars K) (it t dt : K) : Vars K where
  time := some t
  timeLast := σ.time
  it := some it
  itLast := σ.it
  dt := some dt
  tEnd := σ.tEnd
  start := some (σ.start.getD t)

def at? (words : List Str) (j : ℕ) : Except Err Str :=
  match words[j]? with
  | none => .error .IndexError
  | some w => .ok w

def int? (w : Str) : Except Err ℕ :=
  match pyInt w with
  | none => .error .ValueError
  | some n => .ok n

/-- The number of seconds of the line (base/output/print_stdout.py 179-196). -/
def readDur (line : Str) : Except Err ℕ :=
  let words := splitWs line
  let dayHms : Except Err (ℕ × Str) :=
    if isInfix "day".toList line then
      match at? words 4 with
      | .error e => .error e
      | .ok d =>
        match int? d with
        | .error e => .error e
        | .ok n =>
          match at? words 6 with
          | .error e => .error e
          | .ok s => .ok (n, s)
    else
      match at? words 4 with
      | .error e => .error e
      | .ok s => .ok (0, s)
  match dayHms with
  | .error e => .error e
  | .ok (day, hms) =>
    match allOk int? (splitChar ':' hms) with
    | .error e => .error e
    | .ok [h, m, s] => .ok (86400 * day + 3600 * h + 60 * m + s)
    | .ok _ => .error .ValueError

/-- One line of the loop of `_load_times` (base/output/print_stdout.py 161-203). -/
def timesLine (nm : Num K) (σ : Vars K) (line : Str) : Except Err (Vars K × Option (Entry K)) :=
  if startsWith "it = ".toList line then
    let words := splitWs line
    match numAt nm words 2 with
    | .error e => .error e
    | .ok it =>
      match numAt nm words 6 with
      | .error e => .error e
      | .ok t =>
        match numAt nm words 10 with
        | .error e => .error e
        | .ok dt => .ok (σ.next it t dt, none)
  else if startsWith untilTHead line then
    match numAt nm (splitWs line) 4 with
    | .error e => .error e
    | .ok t => .ok ({ σ with tEnd := some t }, none)
  else if startsWith estimated line then
    match readDur line with
    | .error e => .error e
    | .ok n =>
      match σ.time, σ.timeLast, σ.it, σ.itLast with
      | some t, some t', some i, some i' =>
        match σ.tEnd, σ.dt with
        | some te, some dt => .ok (σ, some ⟨n, t, t', i, i', te, dt⟩)
        | _, _ => .error .UnboundLocalError
      | _, _, _, _ => .error .TypeError
  else .ok (σ, none)

def timesLoop (nm : Num K) : Vars K → List Str → Except Err (Vars K × List (Entry K))
  | σ, [] => .ok (σ, [])
  | σ, l :: r =>
    match timesLine nm σ l with
    | .error e => .error e
    | .ok (σ', x) =>
      match timesLoop nm σ' r with
      | .error e => .error e
      | .ok (σ'', xs) => .ok (σ'', x.toList ++ xs)

/-- `_load_times`: the entries and `equation_time_start`. -/
def loadTimes (nm : Num K) (text : Str) : Except Err (Option K × List (Entry K)) :=
  match timesLoop nm {} (pyLines text) with
  | .error e => .error e
  | .ok (σ, l) => .ok (σ.start, l)

/-- `delta_clock_times` (base/output/print_stdout.py 212-218); `none` is not finite (division by zero). -/
def Entry.clock {Q : Type*} [Field Q] [LinearOrder Q] (e : Entry Q) : Option Q :=
  if e.tEnd - e.time = 0 then none else some ((e.time - e.timeLast) * e.remaining / (e.tEnd - e.time))

/-- `full_clock_time`: the sum of the finite ones. -/
def fullClock {Q : Type*} [Field Q] [LinearOrder Q] (l : List (Entry Q)) : Q := (l.filterMap Entry.clock).sum

/-! ## The estimation -/

/-- `_evaluate_duration_left` (base/output/print_stdout.py 105-136) called at successive informations of a
process: time, clock and remaining equation time (`t_end - t`, or `(it_end - it) * deltat`). `clock` is
`t_clock_last` (`none` before the first one), `tLast` is `t_last_print_info`. Simplification: the clock does
not go back. -/
def evalLeft {Q : Type*} [Field Q] [LinearOrder Q] (round : Q → ℤ) (clock : Option Q) (tLast : Q)
    (t c rem : Q) : Option ℕ :=
  match clock with
  | none => none
  | some c' =>
    if t - tLast = 0 then none
    else if rem < 0 then none
    else some (round (rem / (t - tLast) * (c - c'))).toNat

def durations {Q : Type*} [Field Q] [LinearOrder Q] (round : Q → ℤ) :
    Option Q → Q → List (Q × Q × Q) → List (Option ℕ)
  | _, _, [] => []
  | clock, tLast, (t, c, rem) :: l => evalLeft round clock tLast t c rem :: durations round (some c) t l

/-! ## The functions of util -/

/-- The last `n` characters of the file. -/
def tail (n : ℕ) (text : Str) : Str := text.drop (text.length - min text.length n)

/-- `s.split(pat)`: the text before the first occurrence of `pat`, and the text after the last one. -/
def beforeFirst (pat : Str) : Str → Str
  | [] => []
  | c :: s => if pat.isPrefixOf (c :: s) then [] else c :: beforeFirst pat s

def afterLast (pat : Str) : Str → Str
  | [] => []
  | c :: s =>
    if isInfix pat s then afterLast pat s
    else if pat.isPrefixOf (c :: s) then (c :: s).drop pat.length else c :: s

/-- `os.path.splitext(name)[0]` for a name which has a dot after its first character. -/
def stem (s : Str) : Str := (s.reverse.dropWhile (· ≠ '.')).tail.reverse

/-- The time of the last line "save state_phys in file ..." (util/util.py 636-640). Simplification: `word.replace(ext, "")`
does nothing, since the time has no letter. -/
def savedTime (nm : Num K) (line : Str) : Except Err K :=
  match (splitWs line).getLast? with
  | none => .error .IndexError
  | some w =>
    match nm.pyFloat (afterLast "state_phys_t".toList (beforeFirst "_it=".toList (stem w))) with
    | none => .error .ValueError
    | some t => .ok t

/-- `times_start_last_from_path` (fluidsim/util/util.py 608-645) for an existing file; `none`: it never returns
(`readline()` gives "" for ever). -/
def startLast (nm : Num K) (text : Str) : Option (Except Err (K × K)) :=
  match (pyLines text).find? (startsWith "it =".toList) with
  | none => none
  | some first =>
    match numAt nm (splitWs first) 6 with
    | .error e => some (.error e)
    | .ok ts =>
      let ls := first :: pyLines (tail 1000 text)
      let last := ls.getLastD []
      if startsWith "save state_phys".toList last then
        some ((savedTime nm last).map fun t => (ts, t))
      else
        match (ls.filter (startsWith "it =".toList)).getLast? with
        | none => some (.error .UnboundLocalError)
        | some l => some ((numAt nm (splitWs l) 6).map fun t => (ts, t))

/-- `str.strip()`. -/
def strip (s : Str) : Str :=
  ((s.dropWhile Verif.MeansFile.isWs).reverse.dropWhile Verif.MeansFile.isWs).reverse

/-- The text between the first and the second occurrence of `pat`: `s.split(pat)[1]`; `none` without occurrence. -/
def part1 (pat : Str) : Str → Option Str
  | [] => none
  | c :: s => if pat.isPrefixOf (c :: s) then some (beforeFirst pat ((c :: s).drop pat.length)) else part1 pat s

/-- `get_last_estimated_remaining_duration` (fluidsim/util/util.py 657-677) for an existing file. -/
def lastDuration (text : Str) : Except Err Str :=
  match ((splitChar '\n' (tail 3000 text)).reverse.map strip).find?
      (startsWith "estimated remaining duration".toList) with
  | none => .error .RuntimeError
  | some l =>
    match part1 " = ".toList l with
    | none => .error .IndexError
    | some t => .ok (strip t)

end

end Verif.StdOut
