import Verif.SpecFigs.Spec
import Verif.BudgetFigs.Model

/-! # Specification of C109 -/

namespace Verif.BudgetFigs

/-- What the wavenumbers from the number `i` on receive. -/
noncomputable def received {m : ℕ} (T : Fin m → ℝ) (i : Fin m) : ℝ := ∑ j, if i ≤ j then T j else 0

/-- What the wavenumbers before the number `i` lose. -/
noncomputable def lost {m : ℕ} (T : Fin m → ℝ) (i : Fin m) : ℝ := -∑ j, if j < i then T j else 0

/-- The mean over the records number `i0` to `i1`. -/
noncomputable def mean3 (s : ℕ → ℕ → ℕ → ℝ) (i0 i1 : ℕ) (z h : ℕ) : ℝ := (∑ j ∈ Finset.Icc i0 i1, s j z h) / (i1 + 1 - i0 : ℕ)

/-- The integral of the spectrum `a` over the wavenumbers `kh` number 0 to `i` and the `nz` wavenumbers `kz`. -/
noncomputable def withinH (dz dh : ℝ) (nz : ℕ) (a : ℕ → ℕ → ℝ) (i : ℕ) : ℝ := ∑ h ∈ Finset.range (i + 1), ∑ z ∈ Finset.range nz, a z h * (dz * dh)

/-- The integral of the spectrum `a` over the wavenumbers `kz` number 0 to `i` and the `nh` wavenumbers `kh`. -/
noncomputable def withinZ (dz dh : ℝ) (nh : ℕ) (a : ℕ → ℕ → ℝ) (i : ℕ) : ℝ := ∑ z ∈ Finset.range (i + 1), ∑ h ∈ Finset.range nh, a z h * (dz * dh)

/-- The integral over the bins up to `i` of the direction of the figure. -/
noncomputable def within (f : File3) : Dir → (ℕ → ℕ → ℝ) → ℕ → ℝ
  | .h, a, i => withinH (f.kz 1) (f.kh 1) f.nz a i
  | .z, a, i => withinZ (f.kz 1) (f.kh 1) f.nh a i

/-- `i0` and `i1` are the numbers of the records closest to `tmin` and to `tmax`; by default the first and the last ones. -/
def IsRange (times : List ℝ) (tmin tmax : Option ℝ) (i0 i1 : ℕ) : Prop :=
  (tmin = none → i0 = 0) ∧ (∀ t, tmin = some t → Verif.SpecFigs.IsClosest times t i0) ∧
    (tmax = none → i1 + 1 = times.length) ∧ ∀ t, tmax = some t → Verif.SpecFigs.IsClosest times t i1

/-- The records of the quantity `key` are `s key 0, s key 1, ...`, as many as the times. -/
def Records3 (f : File3) (s : Key → ℕ → ℕ → ℕ → ℝ) : Prop := ∀ key, f.data key = (List.range f.times.length).map (s key)

end Verif.BudgetFigs
