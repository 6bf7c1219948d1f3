import Mathlib.Algebra.Order.Field.Basic
import Mathlib.Algebra.BigOperators.Fin

/-! # Specification of C67 -/

namespace Verif.Pdf

variable {K : Type} [Field K] [LinearOrder K]

/-- `x` is in the interval number `i` of the `n` equal intervals of `[lo, hi]`: closed on the left, open on
the right, except the last one which is closed. -/
def InBin (n : ℕ) (lo hi : K) (i : ℕ) (x : K) : Prop :=
  lo + (hi - lo) / n * i ≤ x ∧ (x < lo + (hi - lo) / n * (i + 1) ∨ i + 1 = n ∧ x ≤ hi)

instance (n : ℕ) (lo hi : K) (i : ℕ) (x : K) : Decidable (InBin n lo hi i x) := by
  unfold InBin; infer_instance

/-- A density `p` on `n` equal intervals of `[lo, hi]` has the integral one. -/
def Normalised {n : ℕ} (lo hi : K) (p : Fin n → K) : Prop := ∑ i, p i * ((hi - lo) / n) = 1

/-- `p` is the histogram, divided by the width of the intervals and by the number of values, of the values
`whole`, on `n` equal intervals from their minimum to their maximum (on an interval of length one around their
value if they are all equal). -/
def IsPdf (n : ℕ) (whole : List K) (p : Fin n → K) (lo hi : K) : Prop :=
  lo < hi ∧ (∀ x ∈ whole, lo ≤ x ∧ x ≤ hi) ∧
    (lo ∈ whole ∧ hi ∈ whole ∨ ∃ c, (∀ x ∈ whole, x = c) ∧ lo = c - 1 / 2 ∧ hi = c + 1 / 2) ∧
    ∀ i : Fin n, p i = ((whole.countP fun x => decide (InBin n lo hi i x) : ℕ) : K) / ((hi - lo) / n * whole.length)

/-- The pairs (right, left) of values of the same line, `rx` points apart. -/
def pairs {A : Type} (rx : ℕ) (rows : List (List A)) : List (A × A) :=
  (rows.map fun l => (l.drop rx).zip (l.take (l.length - rx))).flatten

end Verif.Pdf
