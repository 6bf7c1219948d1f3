import Verif.StdOut.Model
import Verif.MeansFile.Spec

/-! # Specification for C66 -/

namespace Verif.StdOut

open Verif.PhysFiles (Str)
open Verif.MeansFile (pyLines Num rounded)

section
variable {K : Type*}

/-- The values of the informations printed, in order. -/
def infos : List (Msg K) → List (Str → K)
  | [] => []
  | .info v _ :: ms => v :: infos ms
  | _ :: ms => infos ms

/-- The final times printed, in order. -/
def untils : List (Msg K) → List K
  | [] => []
  | .untilT t :: ms => t :: untils ms
  | _ :: ms => untils ms

/-- The estimated durations printed, in order. -/
def durs : List (Msg K) → List ℕ
  | [] => []
  | .info _ (some n) :: ms => n :: durs ms
  | _ :: ms => durs ms

/-- The names of the arrays returned by `load`. -/
def Solver.names : Solver → List String
  | .ns2d => ["it", "t", "deltat", "E", "deltaE"]
  | .ns3d => ["it", "t", "deltat", "E", "deltaE"]
  | .strat => ["it", "t", "deltat", "EK", "EA", "E", "deltaE"]
  | .sw1l => ["it", "t", "deltat", "E", "deltaE", "E_K", "E_A"]

/-- One index of the arrays, for the values `v`. -/
def Solver.row (S : Solver) (v : Str → K) : List (Str × K) := S.names.map fun n => (n.toList, v n.toList)

/-- The text is not mistaken for something else: none of its lines starts with one of `heads`. -/
def Foreign (heads : List String) (text : Str) : Prop :=
  ∀ l ∈ pyLines (text ++ ['\n']), ∀ h ∈ heads, ¬ h.toList <+: l

/-- The beginnings of the lines of which `load` uses the content. -/
def Solver.heads : Solver → List String
  | .ns2d => ["it =", "              energy ="]
  | .ns3d => ["it =", "              energy ="]
  | .strat => ["it =", "              energyK =", "              energyA =", "              energy  ="]
  | .sw1l => ["it =", "              energy  =", "              energyK ="]

/-- The names of files are on one line, and the other texts are not mistaken for something else. -/
def MsgOk (heads : List String) : Msg K → Prop
  | .saved name => '\n' ∉ name
  | .other text => Foreign heads text
  | _ => True

/-- What `load` keeps: everything but the last one, if there is more than one. -/
def kept {A : Type*} (l : List A) : List A := if l.length > 1 then l.dropLast else l

/-- What should be known of an information with an estimated duration, given the messages printed before: the
present and previous times and iterations, and the final time announced. -/
def entryOf (rd : Str → K → K) (before : List (Msg K)) : Msg K → Option (Entry K)
  | .info v (some n) =>
    match (infos before).getLast?, (untils before).getLast? with
    | some u, some te =>
      some { remaining := n
             time := rd "t".toList (v "t".toList)
             timeLast := rd "t".toList (u "t".toList)
             it := rd "it".toList (v "it".toList)
             itLast := rd "it".toList (u "it".toList)
             tEnd := rd "t_end".toList te
             dt := rd "deltat".toList (v "deltat".toList) }
    | _, _ => none
  | _ => none

/-- All of them. -/
def entries (rd : Str → K → K) : List (Msg K) → List (Msg K) → List (Entry K)
  | _, [] => []
  | before, m :: ms => (entryOf rd before m).toList ++ entries rd (before ++ [m]) ms

/-- Before each estimated duration there is another information and a final time, as in the simulations with
`USE_T_END`. -/
def Timed (ms : List (Msg K)) : Prop :=
  ∀ a v n b, ms = a ++ .info v (some n) :: b → infos a ≠ [] ∧ untils a ≠ []

end

end Verif.StdOut
