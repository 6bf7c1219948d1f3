import Verif.SpatioTemporal.Model

/-!
What a simulation has recorded, and what a user expects to get back.
-/

namespace Verif.SpatioTemporal

variable {Q V : Type*} [Field Q] [LinearOrder Q]

/-- A process with probes has recorded at the times `T` the values `val k t` of the Fourier
mode `k` at time `t`: its files follow one another, none is empty, each one is named after
its first time, and each record holds the values of all probes. -/
structure Recorded (r : Rank Q V) (T : List Q) (val : ℤ × ℤ × ℤ → Q → V) : Prop where
  times : r.files.flatMap File.times = T
  names : ∀ f ∈ r.files, f.times.head? = some f.tmin
  values : ∀ f ∈ r.files, ∀ e ∈ f.recs, e.2 = r.probes.map fun k => val k e.1

/-- All probes of the process are in the region. -/
def InRegion (bs : Bounds × Bounds × Bounds) (k : ℤ × ℤ × ℤ) : Prop :=
  bs.1.has k.1 ∧ bs.2.1.has k.2.1 ∧ bs.2.2.has k.2.2

/-- The bounds contain zero (always so for `ikxmax ≥ 0`, `ikymax ≥ 1`, `ikzmax ≥ 1`). -/
def ZeroIn (bs : Bounds × Bounds × Bounds) : Prop :=
  bs.1.has 0 ∧ bs.2.1.has 0 ∧ bs.2.2.has 0

/-- No file lasts longer than the shortest interval between the beginnings of two successive
files. -/
def Regular (files : List (File Q V)) : Prop :=
  ∀ f ∈ files, ∀ s ∈ f.times, ∀ d ∈ diffs (files.map File.tmin), s - f.tmin < d

/-- The series holds the recorded values: the times are the recorded ones between `tmin` and
`tmax`, and at the cell whose wavenumbers (arrays `K0_adim`, `K1_adim`, `K2_adim`) are those
of `k` stand the values of the mode `k` at these times. -/
def Holds (bs : Bounds × Bounds × Bounds) (T : List Q) (tmin tmax : Q)
    (val : ℤ × ℤ × ℤ → Q → V) (k : ℤ × ℤ × ℤ) (s : Loaded Q V) : Prop :=
  s.times = T.filter (fun t => decide (tmin ≤ t) && decide (t ≤ tmax)) ∧
  ∀ i0 i1 i2 : ℕ, bs.1.adims[i0]? = some k.1 → bs.2.1.adims[i1]? = some k.2.1 →
    bs.2.2.adims[i2]? = some k.2.2 →
    ∀ (it : ℕ) (t : Q), s.times[it]? = some t → s.arr (i0, i1, i2) it = some (val k t)

end Verif.SpatioTemporal
