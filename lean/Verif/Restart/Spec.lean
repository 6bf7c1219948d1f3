import Verif.Restart.Model

/-! Specification vocabulary for C23, C49, C50. -/

namespace Verif.Restart

open PhysFiles (Str digitsVal isDig)

/-- One or two decimal digits. -/
def IsField (s : Str) : Prop := (s.length = 1 ∨ s.length = 2) ∧ ∀ c ∈ s, isDig c = true

/-- The text `HH:MM:SS` (each field with one or two digits) of a time of the day and its number
of seconds. -/
def IsTimeText (s : Str) (n : ℕ) : Prop :=
  ∃ h m sec : Str, IsField h ∧ IsField m ∧ IsField sec ∧
    digitsVal h < 24 ∧ digitsVal m < 60 ∧ digitsVal sec < 60 ∧
    s = h ++ ':' :: (m ++ ':' :: sec) ∧
    n = 3600 * digitsVal h + 60 * digitsVal m + digitsVal sec

end Verif.Restart
