import Verif.Spectra.Model

/-! # Specification for C61 -/

namespace Verif.Spectra

variable {R : Type*}

/-- The elements number `0`, `p`, `2 p`, ... of a list. -/
def oneOutOf (p : ℕ) (l : List R) : List R :=
  (l.zipIdx.filter fun x => x.2 % p = 0).map Prod.fst

/-- A process: the state when it starts, and the states of its later records. -/
abbrev Session (R : Type*) := R × List R

/-- Processes one after the other in the same directory, all with the same period. -/
def history (p : ℕ) (ss : List (Session R)) : List (Ev R) :=
  ss.flatMap fun s => .start p s.1 :: s.2.map .save

/-- All the records, with a mark on those made when a process starts. -/
def marked (ss : List (Session R)) : List (Bool × R) :=
  ss.flatMap fun s => (true, s.1) :: s.2.map fun r => (false, r)

/-- All the records. -/
def records (ss : List (Session R)) : List R := ss.flatMap fun s => s.1 :: s.2

/-- The records that a history brings to the `m`-th file at least, among the three files of each
record; `alive` tells whether a process is there to save. -/
def written (m : ℕ) : Bool → List (Ev R) → List R
  | _, [] => []
  | _, .start _ r :: h => r :: written m true h
  | true, .save r :: h => r :: written m true h
  | false, .save _ :: h => written m false h
  | _, .killStart j _ r :: h => if m ≤ j then r :: written m false h else written m false h
  | true, .killSave j r :: h => if m ≤ j then r :: written m false h else written m false h
  | false, .killSave _ _ :: h => written m false h

/-- Every process of the history that starts has a period satisfying `P`. -/
def Periods (P : ℕ → Prop) (h : List (Ev R)) : Prop :=
  ∀ e ∈ h, match e with
    | .start p _ => P p
    | .killStart _ p _ => P p
    | _ => True

/-- fluidfft's spectra: each mode gives its energy to the bins with non-negative weights, whose
sum, times the width of a bin, is the number of modes of the full transform that the mode
stands for (one, or two for a mode and its conjugate). -/
structure IsSpectrum {M B : Type*} [Fintype M] [Fintype B] (dk : ℝ) (mult : M → ℝ)
    (sp : (M → ℝ) → B → ℝ) : Prop where
  weights : ∃ w : M → B → ℝ, (∀ m b, 0 ≤ w m b) ∧ (∀ m, ∑ b, w m b * dk = mult m) ∧
    ∀ f b, sp f b = ∑ m, w m b * f m

end Verif.Spectra
