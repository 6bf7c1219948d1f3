import Verif.MeansFile.Model
import Mathlib.Order.Basic

/-! # Specification for C60 -/

namespace Verif.MeansFile

open Verif.PhysFiles (Str)

/-- The contract of Python's number formatting and of `float`: the text of a number is a word
without whitespace, possibly after padding spaces, and `float` of the word is the number rounded to
the digits which are written, `rd name x`. -/
def NumOk {K : Type*} (nm : Num K) (rd : Str → K → K) : Prop :=
  ∀ name x, ∃ p w, nm.fmt name x = List.replicate p ' ' ++ w ∧ w ≠ [] ∧
    (∀ c ∈ w, isWs c = false) ∧ nm.pyFloat w = some (rd name x)

/-- The solvers whose spatial means are saved as text. -/
inductive Solver where
  | ns2d
  | ns2dStrat
  | ns3d
  | ns3dStrat
  | plate2d
  deriving DecidableEq

def Solver.format : Solver → Format
  | .ns2d => MeansFile.ns2d
  | .ns2dStrat => MeansFile.ns2dStrat
  | .ns3d => MeansFile.ns3d
  | .ns3dStrat => MeansFile.ns3dStrat
  | .plate2d => MeansFile.plate2d

/-- The solvers of which `load` looks at the number of lines of each quantity. -/
def Solver.careful (s : Solver) : Prop := s = .ns3d ∨ s = .ns3dStrat

/-- The names of the arrays returned by `load`, with the value of the array for a saved state. -/
def Solver.arrays {K : Type*} [Zero K] (s : Solver) (o : Opts) (v : Str → K) :
    List (Str × K) :=
  let get := fun (l : List String) => l.map fun n => (n.toList, v n.toList)
  let zero := fun (l : List String) => l.map fun n => (n.toList, (0 : K))
  let iff := fun (b : Bool) (l : List String) => if b then get l else []
  match s with
  | .ns2d =>
    get ["t", "E", "Z", "epsK", "epsK_hypo", "epsK_tot", "epsZ", "epsZ_hypo", "epsZ_tot"] ++
      iff o.forcing ["PK1", "PK2", "PK_tot", "PZ1", "PZ2", "PZ_tot"]
  | .ns2dStrat =>
    get ["t", "Z", "E", "EK", "EA", "epsA", "epsA_hypo", "epsA_tot", "epsK", "epsK_hypo",
        "epsK_tot", "epsZ", "epsZ_hypo", "epsZ_tot", "E_shear"] ++
      iff o.forcing ["PK1", "PK2", "PK_tot", "PA1", "PA2", "PA_tot", "PZ1", "PZ2", "PZ_tot"]
  | .ns3d =>
    get ["t", "E", "Ex", "Ey", "Ez", "epsK", "epsK_hypo", "epsK_tot"] ++
      iff o.nu4 ["epsK4"] ++ iff o.nu8 ["epsK8"] ++
      (if o.forcing then get else zero) ["PK1", "PK2", "PK_tot"]
  | .ns3dStrat =>
    get ["t", "E", "EA", "EKz", "EKhr", "EKhd", "EKhs", "EAs", "epsK", "epsK_hypo", "epsA",
        "epsA_hypo", "eps_tot"] ++
      iff o.nu4 ["epsK4", "epsA4"] ++ iff o.nu8 ["epsK8", "epsA8"] ++
      (if o.forcing then get else zero) ["PK1", "PK2", "PK_tot", "PA1", "PA2", "PA_tot"]
  | .plate2d =>
    get ["t", "E", "E_k", "E_l", "E_e", "epsK", "epsK_hypo", "epsK_tot"] ++
      iff o.forcing ["P1", "P2", "P_tot"]

/-- The numbers as they are written, i.e. rounded. -/
def rounded {K : Type*} (rd : Str → K → K) (v : Str → K) : Str → K := fun n => rd n (v n)

/-- The text of the first `m` lines of a record: what is in the file when the writing of a record
has been interrupted between two lines, or when the file is read at that time. -/
def firstLines {K : Type*} (nm : Num K) (s : Solver) (o : Opts) (v : Str → K) (m : ℕ) : Str :=
  withEol ((recLines nm s.format o v).take m)

/-- Number of lines of a record. -/
def nbLines {K : Type*} (nm : Num K) (s : Solver) (o : Opts) (v : Str → K) : ℕ :=
  (recLines nm s.format o v).length

/-- The contract of `json.dumps` and `json.loads` for the records: the text is on one line, loading
it (with its end of line) gives the record back, and a text in which the opening brace of the
closing one has been cut away is not valid JSON. -/
structure JsonOk {R K : Type*} (js : Json R K) : Prop where
  noEol : ∀ r, '\n' ∉ js.dumps r
  loads_dumps : ∀ r, js.loads (js.dumps r ++ ['\n']) = some r
  cut : ∀ r n, 0 < n → n ≤ (js.dumps r).length → js.loads ((js.dumps r).drop n ++ ['\n']) = none

end Verif.MeansFile
