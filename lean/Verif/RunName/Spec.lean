import Verif.RunName.Model

/-!
# What the name of a run says

Specification: the reading of a number in decimal notation and the form of the date.
-/

namespace Verif.RunName

open Verif.PhysFiles (Str digitsVal isDig)
open Verif.StdOut (splitChar)

/-- The value of digits, possibly with a point and digits after it. -/
def unsigned (s : Str) : Option ℚ :=
  match splitChar '.' s with
  | [a] => if a ≠ [] ∧ a.all isDig then some (digitsVal a : ℚ) else none
  | [a, b] => if a ≠ [] ∧ a.all isDig ∧ b.all isDig then some ((digitsVal a : ℚ) + digitsVal b / 10 ^ b.length) else none
  | _ => none

/-- The value of a number written in decimal notation. -/
def number : Str → Option ℚ
  | '-' :: s => (unsigned s).map (- ·)
  | s => unsigned s

/-- The texts of `time_as_str()`: a day and an hour, without other underscore. -/
def IsTime (t : Str) : Prop := ∃ day hour : Str, t = day ++ '_' :: hour ∧ '_' ∉ day ∧ '_' ∉ hour

/-- The name `n` is one of the parameters of the names. -/
def Maker.Shows (m : Maker) (n : Str) : Prop := Key.param n ∈ m.ordered

/-- The same names, with the parameter `n` equal to `v`. -/
def Maker.set (m : Maker) (n : Str) (v : Value) : Maker := { m with parameters := (n, v) :: m.parameters }

end Verif.RunName
