import Verif.Coarse.Lemmas
import Mathlib.Tactic.FieldSimp

/-!
# C26: coarse arrays are put and taken back without loss
-/

namespace Verif.Coarse
open Verif.Modes

set_option linter.unusedSectionVars false

/-! ### One process -/

section Sequential
variable {A : Type*}

theorem loops3_mem {nC nF : ℕ × ℕ × ℕ} (w) : w ∈ loops3 nC nF ↔
    ∃ s : ℕ × ℕ × ℕ, (s.1 < nC.1 ∧ s.2.1 < nC.2.1 ∧ s.2.2 < nC.2.2) ∧
      w = ((ikFromIkc s.1 nC.1 nF.1, ikFromIkc s.2.1 nC.2.1 nF.2.1, (s.2.2 : ℤ)), toZ s) := by
  simp only [loops3, List.mem_map, mem_range3]
  constructor
  · rintro ⟨s, hs, rfl⟩; exact ⟨s, hs, rfl⟩
  · rintro ⟨s, hs, rfl⟩; exact ⟨s, hs, rfl⟩

/-- The position of a coarse index in the full array. -/
def at3 (nC nF s : ℕ × ℕ × ℕ) : ℕ × ℕ × ℕ :=
  (up false nC.1 nF.1 s.1, up false nC.2.1 nF.2.1 s.2.1, s.2.2)

theorem at3_idx {nC nF s : ℕ × ℕ × ℕ} (h0 : nC.1 ≤ nF.1) (h1 : nC.2.1 ≤ nF.2.1)
    (h2 : nC.2.2 ≤ nF.2.2) (hs : s.1 < nC.1 ∧ s.2.1 < nC.2.1 ∧ s.2.2 < nC.2.2) :
    pyIdx3 nF (ikFromIkc s.1 nC.1 nF.1, ikFromIkc s.2.1 nC.2.1 nF.2.1, (s.2.2 : ℤ)) =
      some (at3 nC nF s) := by
  rw [pyIdx3_eq_some]
  simp only [at3]
  rw [ik_eq_up h0, ik_eq_up h1]
  exact ⟨pyIdx_nat (up_lt h0 hs.1), pyIdx_nat (up_lt h1 hs.2.1), pyIdx_nat (by omega)⟩

theorem toZ_idx {n s : ℕ × ℕ × ℕ} (hs : s.1 < n.1 ∧ s.2.1 < n.2.1 ∧ s.2.2 < n.2.2) :
    pyIdx3 n (toZ s) = some s := by
  rw [pyIdx3_eq_some]
  exact ⟨pyIdx_nat hs.1, pyIdx_nat hs.2.1, pyIdx_nat hs.2.2⟩

theorem at3_inj {nC nF s s' : ℕ × ℕ × ℕ} (h0 : nC.1 ≤ nF.1) (h1 : nC.2.1 ≤ nF.2.1)
    (hs : s.1 < nC.1 ∧ s.2.1 < nC.2.1 ∧ s.2.2 < nC.2.2)
    (hs' : s'.1 < nC.1 ∧ s'.2.1 < nC.2.1 ∧ s'.2.2 < nC.2.2)
    (h : at3 nC nF s = at3 nC nF s') : s = s' := by
  simp only [at3, Prod.mk.injEq] at h
  obtain ⟨a, b, c⟩ := s
  obtain ⟨a', b', c'⟩ := s'
  simp only at *
  rw [up_inj h0 hs.1 hs'.1 h.1, up_inj h1 hs.2.1 hs'.2.1 h.2.1, h.2.2]

theorem put3_core (nC nF : ℕ × ℕ × ℕ) (h0 : nC.1 ≤ nF.1) (h1 : nC.2.1 ≤ nF.2.1)
    (h2 : nC.2.2 ≤ nF.2.2) (coarse arr : ℕ × ℕ × ℕ → A) :
    ∃ o, put3 nC nF coarse arr = .ok o ∧
      (∀ s : ℕ × ℕ × ℕ, (s.1 < nC.1 ∧ s.2.1 < nC.2.1 ∧ s.2.2 < nC.2.2) →
        o (at3 nC nF s) = coarse s) ∧
      (∀ x, (∀ s : ℕ × ℕ × ℕ, (s.1 < nC.1 ∧ s.2.1 < nC.2.1 ∧ s.2.2 < nC.2.2) →
        at3 nC nF s ≠ x) → o x = arr x) :=
  assign_fun coarse arr _ _ _ (at3 nC nF) id loops3_mem (fun _ => at3_idx h0 h1 h2)
    (fun _ => toZ_idx) (fun _ _ => at3_inj h0 h1)

/-- C26 in 3D, one process: every mode of the coarse array is written at its wavenumber in the
full array and nothing else is changed. -/
theorem C26_put_3d (nC nF : ℕ × ℕ × ℕ) (h0 : nC.1 ≤ nF.1) (h1 : nC.2.1 ≤ nF.2.1)
    (h2 : nC.2.2 ≤ nF.2.2) (coarse arr : ℕ × ℕ × ℕ → A) :
    ∃ o, put3 nC nF coarse arr = .ok o ∧ PutModes3 nC nF coarse arr o := by
  obtain ⟨o, ho, hp, hn⟩ := put3_core nC nF h0 h1 h2 coarse arr
  refine ⟨o, ho, ?_⟩
  rintro kz ky kx j0 j1 j2 Hz Hy ⟨hx, rfl⟩
  constructor
  · rintro i0 i1 i2 Iz Iy ⟨ix, e⟩
    have e : i2 = j2 := by exact_mod_cast e
    have := hp (i0, i1, i2) ⟨Iz.1, Iy.1, ix⟩
    simp only [at3] at this
    rw [holds_unique (up_holds h0 Iz) Hz, holds_unique (up_holds h1 Iy) Hy, e] at this
    rw [this, e]
  · intro hno
    refine hn _ ?_
    rintro ⟨i0, i1, i2⟩ ⟨hs0, hs1, hs2⟩ he
    simp only [at3, Prod.mk.injEq] at he hs0 hs1 hs2
    obtain ⟨e0, e1, e2⟩ := he
    obtain ⟨kz', Hz'⟩ := holds_exists hs0
    obtain ⟨ky', Hy'⟩ := holds_exists hs1
    have z := up_holds h0 Hz'
    have y := up_holds h1 Hy'
    rw [e0] at z
    rw [e1] at y
    have ez : kz' = kz := by rw [holds_iff] at z Hz; omega
    have ey : ky' = ky := by rw [holds_iff] at y Hy; omega
    exact hno ⟨i0, i1, i2, ez ▸ Hz', ey ▸ Hy', hs2, by rw [e2]⟩

/-- C26 in 3D, one process: taking the coarse part reads each coarse mode at its wavenumber. -/
theorem C26_take_3d (nC nF : ℕ × ℕ × ℕ) (h0 : nC.1 ≤ nF.1) (h1 : nC.2.1 ≤ nF.2.1)
    (h2 : nC.2.2 ≤ nF.2.2) (arr empty : ℕ × ℕ × ℕ → A) :
    ∃ t, take3 nC nF arr empty = .ok t ∧
      ∀ kz ky kx i0 i1 i2 j0 j1 j2, Holds nC.1 i0 kz → Holds nC.2.1 i1 ky →
        HoldsHalf nC.2.2 i2 kx → Holds nF.1 j0 kz → Holds nF.2.1 j1 ky →
        HoldsHalf nF.2.2 j2 kx → t (i0, i1, i2) = arr (j0, j1, j2) := by
  obtain ⟨t, ht, hp, -⟩ := assign_fun (nd := pyIdx3 nC) (ns := pyIdx3 nF)
    (ws := (loops3 nC nF).map Prod.swap) arr empty
    (fun s : ℕ × ℕ × ℕ => s.1 < nC.1 ∧ s.2.1 < nC.2.1 ∧ s.2.2 < nC.2.2) toZ
    (fun s => (ikFromIkc s.1 nC.1 nF.1, ikFromIkc s.2.1 nC.2.1 nF.2.1, (s.2.2 : ℤ))) id
    (at3 nC nF)
    (by
      intro w
      simp only [List.mem_map, loops3_mem]
      constructor
      · rintro ⟨_, ⟨s, hs, rfl⟩, rfl⟩; exact ⟨s, hs, rfl⟩
      · rintro ⟨s, hs, rfl⟩; exact ⟨_, ⟨s, hs, rfl⟩, rfl⟩)
    (fun _ => toZ_idx) (fun _ => at3_idx h0 h1 h2) (fun _ _ _ _ h => h)
  refine ⟨t, ht, ?_⟩
  rintro kz ky kx i0 i1 i2 j0 j1 j2 Iz Iy ⟨ix, rfl⟩ Jz Jy ⟨jx, e⟩
  have e : i2 = j2 := by exact_mod_cast e.symm
  have := hp (i0, i1, i2) ⟨Iz.1, Iy.1, ix⟩
  simp only [at3, id] at this
  rw [this, holds_unique (up_holds h0 Iz) Jz, holds_unique (up_holds h1 Iy) Jy, e]

/-- C26 in 3D, one process: putting a coarse array and taking it back returns it, Nyquist modes
included, whatever the full array contained. -/
theorem C26_roundtrip_3d (nC nF : ℕ × ℕ × ℕ) (h0 : nC.1 ≤ nF.1) (h1 : nC.2.1 ≤ nF.2.1)
    (h2 : nC.2.2 ≤ nF.2.2) (coarse arr empty : ℕ × ℕ × ℕ → A) :
    ∃ o t, put3 nC nF coarse arr = .ok o ∧ take3 nC nF o empty = .ok t ∧
      ∀ i0 i1 i2, i0 < nC.1 → i1 < nC.2.1 → i2 < nC.2.2 →
        t (i0, i1, i2) = coarse (i0, i1, i2) := by
  obtain ⟨o, ho, hp⟩ := C26_put_3d nC nF h0 h1 h2 coarse arr
  obtain ⟨t, ht, hq⟩ := C26_take_3d nC nF h0 h1 h2 o empty
  refine ⟨o, t, ho, ht, fun i0 i1 i2 hi0 hi1 hi2 => ?_⟩
  obtain ⟨kz, Hz⟩ := holds_exists hi0
  obtain ⟨ky, Hy⟩ := holds_exists hi1
  have Hx : HoldsHalf nC.2.2 i2 i2 := ⟨hi2, rfl⟩
  have Gx : HoldsHalf nF.2.2 i2 i2 := ⟨by omega, rfl⟩
  rw [hq kz ky i2 i0 i1 i2 _ _ _ Hz Hy Hx (up_holds h0 Hz) (up_holds h1 Hy) Gx]
  exact (hp kz ky i2 _ _ _ (up_holds h0 Hz) (up_holds h1 Hy) Gx).1 i0 i1 i2 Hz Hy Hx

/-- Coarse 4 × 4 × 3 in full 8 × 6 × 5: the coarse mode (3, 3, 1), i.e. `kz = ky = -1`,
`kx = 1`, is at (7, 5, 1). -/
example : ((put3 (4, 4, 3) (8, 6, 5) (fun s => (s.1 : ℤ) + 10 * s.2.1 + 100 * s.2.2)
    (fun _ => -1)).toOption.map fun o => (o (7, 5, 1), o (3, 0, 0), o (0, 0, 4))) =
      some (133, -1, -1) := by decide +kernel

theorem loops2_mem {nC nF : ℕ × ℕ} (w) : w ∈ loops2 nC nF ↔
    ∃ s : ℕ × ℕ, (s.1 < nC.1 ∧ s.2 < nC.2) ∧
      w = ((ikFromIkc s.1 nC.1 nF.1, (s.2 : ℤ)), ((s.1 : ℤ), (s.2 : ℤ))) := by
  simp only [loops2, List.mem_map, mem_range2]
  constructor
  · rintro ⟨s, hs, rfl⟩; exact ⟨s, hs, rfl⟩
  · rintro ⟨s, hs, rfl⟩; exact ⟨s, hs, rfl⟩

theorem put2_core (nC nF : ℕ × ℕ) (h0 : nC.1 ≤ nF.1) (h1 : nC.2 ≤ nF.2)
    (coarse arr : ℕ × ℕ → A) :
    ∃ o, assign (pyIdx2 nF) (pyIdx2 nC) coarse (loops2 nC nF) arr = .ok o ∧
      (∀ s : ℕ × ℕ, (s.1 < nC.1 ∧ s.2 < nC.2) →
        o (up false nC.1 nF.1 s.1, s.2) = coarse s) ∧
      (∀ x, (∀ s : ℕ × ℕ, (s.1 < nC.1 ∧ s.2 < nC.2) →
        (up false nC.1 nF.1 s.1, s.2) ≠ x) → o x = arr x) := by
  refine assign_fun coarse arr _ _ _ (fun s => (up false nC.1 nF.1 s.1, s.2)) id loops2_mem
    (fun s hs => ?_) (fun s hs => ?_) (fun s s' hs hs' h => ?_)
  · rw [pyIdx2_eq_some]; simp only
    rw [ik_eq_up h0]
    exact ⟨pyIdx_nat (up_lt h0 hs.1), pyIdx_nat (by omega)⟩
  · rw [pyIdx2_eq_some]; exact ⟨pyIdx_nat hs.1, pyIdx_nat hs.2⟩
  · simp only [Prod.mk.injEq] at h
    obtain ⟨a, b⟩ := s
    obtain ⟨a', b'⟩ := s'
    simp only at *
    rw [up_inj h0 hs.1 hs'.1 h.1, h.2]

variable {K : Type*} [Field K] [LinearOrder K] [IsStrictOrderedRing K]

/-- `|x| ≤ 1e-8 + 1e-5 |x|`: the tolerance of `np.allclose(0.0, x)`. -/
def Negligible (x : K) : Prop := x ≤ 1 / 10 ^ 8 + 1 / 10 ^ 5 * x

/-- C26 in 2D, one process: the call succeeds exactly when the Nyquist row and the last column
of the coarse array are negligible. -/
theorem C26_put_2d_ok_iff (mod : A → K) (nC nF : ℕ × ℕ) (h0 : nC.1 ≤ nF.1) (h1 : nC.2 ≤ nF.2)
    (coarse arr : ℕ × ℕ → A) :
    (∃ o, put2 mod nC nF coarse arr = .ok o) ↔
      (∀ j, j < nC.2 → Negligible (mod (coarse (nC.1 / 2, j)))) ∧
      (∀ i, i < nC.1 → Negligible (mod (coarse (i, nC.2 - 1)))) := by
  have e1 : ((List.range nC.2).all fun j => allclose0 (mod (coarse (nC.1 / 2, j)))) = true ↔
      ∀ j, j < nC.2 → Negligible (mod (coarse (nC.1 / 2, j))) := by
    simp [allclose0, Negligible]
  have e2 : ((List.range nC.1).all fun i => allclose0 (mod (coarse (i, nC.2 - 1)))) = true ↔
      ∀ i, i < nC.1 → Negligible (mod (coarse (i, nC.2 - 1))) := by
    simp [allclose0, Negligible]
  rw [← e1, ← e2]
  obtain ⟨o, ho, -⟩ := put2_core nC nF h0 h1 coarse arr
  simp only [put2]
  split
  · rename_i a
    exact ⟨fun h => by simp at h, fun h => absurd h.1 (by simpa using a)⟩
  · rename_i a
    split
    · rename_i b
      exact ⟨fun h => by simp at h, fun h => absurd h.2 (by simpa using b)⟩
    · rename_i b
      exact ⟨fun _ => ⟨by simpa using a, by simpa using b⟩, fun _ => ⟨o, ho⟩⟩

/-- C26 in 2D, one process: when it succeeds, every mode of the coarse array is at its
wavenumber and nothing else is changed. -/
theorem C26_put_2d (mod : A → K) (nC nF : ℕ × ℕ) (h0 : nC.1 ≤ nF.1) (h1 : nC.2 ≤ nF.2)
    (coarse arr o : ℕ × ℕ → A) (ho : put2 mod nC nF coarse arr = .ok o) :
    PutModes2 nC nF coarse arr o := by
  obtain ⟨o', ho', hp, hn⟩ := put2_core nC nF h0 h1 coarse arr
  have : o = o' := by
    simp only [put2] at ho
    split_ifs at ho
    rw [ho'] at ho
    exact (Except.ok.inj ho).symm
  subst this
  rintro ky kx j0 j1 Hy ⟨hx, rfl⟩
  constructor
  · rintro i0 i1 Iy ⟨ix, e⟩
    have e : i1 = j1 := by exact_mod_cast e
    have := hp (i0, i1) ⟨Iy.1, ix⟩
    simp only at this
    rw [holds_unique (up_holds h0 Iy) Hy, e] at this
    rw [this, e]
  · intro hno
    refine hn _ ?_
    rintro ⟨i0, i1⟩ ⟨hs0, hs1⟩ he
    simp only [Prod.mk.injEq] at he hs0 hs1
    obtain ⟨e0, e1⟩ := he
    obtain ⟨ky', Hy'⟩ := holds_exists hs0
    have y := up_holds h0 Hy'
    rw [e0] at y
    have ey : ky' = ky := by rw [holds_iff] at y Hy; omega
    exact hno ⟨i0, i1, ey ▸ Hy', hs1, by rw [e1]⟩

/-- C26 in 2D, one process: taking reads each coarse mode at its wavenumber. -/
theorem C26_take_2d (nC nF : ℕ × ℕ) (h0 : nC.1 ≤ nF.1) (h1 : nC.2 ≤ nF.2)
    (arr empty : ℕ × ℕ → A) :
    ∃ t, take2 nC nF arr empty = .ok t ∧
      ∀ ky kx i0 i1 j0 j1, Holds nC.1 i0 ky → HoldsHalf nC.2 i1 kx → Holds nF.1 j0 ky →
        HoldsHalf nF.2 j1 kx → t (i0, i1) = arr (j0, j1) := by
  obtain ⟨t, ht, hp, -⟩ := assign_fun (nd := pyIdx2 nC) (ns := pyIdx2 nF)
    (ws := (loops2 nC nF).map Prod.swap) arr empty
    (fun s : ℕ × ℕ => s.1 < nC.1 ∧ s.2 < nC.2) (fun s => ((s.1 : ℤ), (s.2 : ℤ)))
    (fun s => (ikFromIkc s.1 nC.1 nF.1, (s.2 : ℤ))) id
    (fun s => (up false nC.1 nF.1 s.1, s.2))
    (by
      intro w
      simp only [List.mem_map, loops2_mem]
      constructor
      · rintro ⟨_, ⟨s, hs, rfl⟩, rfl⟩; exact ⟨s, hs, rfl⟩
      · rintro ⟨s, hs, rfl⟩; exact ⟨_, ⟨s, hs, rfl⟩, rfl⟩)
    (fun s hs => by rw [pyIdx2_eq_some]; exact ⟨pyIdx_nat hs.1, pyIdx_nat hs.2⟩)
    (fun s hs => by
      rw [pyIdx2_eq_some]; simp only
      rw [ik_eq_up h0]
      exact ⟨pyIdx_nat (up_lt h0 hs.1), pyIdx_nat (by omega)⟩)
    (fun _ _ _ _ h => h)
  refine ⟨t, ht, ?_⟩
  rintro ky kx i0 i1 j0 j1 Iy ⟨ix, rfl⟩ Jy ⟨jx, e⟩
  have e : i1 = j1 := by exact_mod_cast e.symm
  have := hp (i0, i1) ⟨Iy.1, ix⟩
  simp only [id] at this
  rw [this, holds_unique (up_holds h0 Iy) Jy, e]

/-- C26 in 2D, one process: put then take returns the coarse array. -/
theorem C26_roundtrip_2d (mod : A → K) (nC nF : ℕ × ℕ) (h0 : nC.1 ≤ nF.1) (h1 : nC.2 ≤ nF.2)
    (coarse arr empty o : ℕ × ℕ → A) (ho : put2 mod nC nF coarse arr = .ok o) :
    ∃ t, take2 nC nF o empty = .ok t ∧
      ∀ i0 i1, i0 < nC.1 → i1 < nC.2 → t (i0, i1) = coarse (i0, i1) := by
  have hp := C26_put_2d mod nC nF h0 h1 coarse arr o ho
  obtain ⟨t, ht, hq⟩ := C26_take_2d nC nF h0 h1 o empty
  refine ⟨t, ht, fun i0 i1 hi0 hi1 => ?_⟩
  obtain ⟨ky, Hy⟩ := holds_exists hi0
  have Hx : HoldsHalf nC.2 i1 i1 := ⟨hi1, rfl⟩
  have Gx : HoldsHalf nF.2 i1 i1 := ⟨by omega, rfl⟩
  rw [hq ky i1 i0 i1 _ _ Hy Hx (up_holds h0 Hy) Gx]
  exact (hp ky i1 _ _ (up_holds h0 Hy) Gx).1 i0 i1 Hy Hx

example : ((put2 (K := ℚ) (fun x : ℚ => |x|) (4, 3) (8, 5)
      (fun s => if s = (3, 1) then 5 else 0) (fun _ => -1)).toOption.map
      fun o => (o (7, 1), o (3, 1), o (0, 1))) = some (5, -1, 0) ∧
    (put2 (K := ℚ) (fun x : ℚ => |x|) (4, 3) (8, 5)
      (fun s => if s = (2, 1) then 5 else 0) (fun _ => -1)).isOk = false := by decide +kernel

end Sequential

/-! ### Several processes, 2D -/

section Mpi2
variable {A : Type*} {K : Type*} [Field K] [LinearOrder K] [IsStrictOrderedRing K] [FloorRing K]

theorem roundEven_int (i : ℤ) : roundEven (i : K) = i := by
  simp [roundEven, Int.floor_intCast]

theorem pos2_spec {δx δy : K} (hx : 0 < δx) (hy : 0 < δy) {nkx nky : ℕ} (hky : 2 ≤ nky)
    {s : Slabs} (hs : Fits s nkx) {sizes : ℕ → ℕ}
    (hsz : ∀ r, r < s.nproc → s.start r + sizes r = s.start (r + 1)) {i j : ℕ} (hi : i < nkx)
    (hj : j < nky) :
    ∃ r l, pos2 δx δy nkx nky s sizes ((i : ℤ), (j : ℤ)) = some (r, l, j) ∧ r < s.nproc ∧
      l < sizes r ∧ s.start r + l = i := by
  have hround : roundEven (δx * ((i : ℤ) : K) / δx) = (i : ℤ) := by
    rw [mul_div_cancel_left₀ _ hx.ne']; exact roundEven_int _
  have hi' : (0 : K) ≤ ((i : ℤ) : K) := by exact_mod_cast Nat.zero_le i
  obtain ⟨r, i0, i1, m, l, hw, hm, -, hr, hst, hlt, -⟩ := C27_2d_distributed hx hy nkx nky s hs
    (δx * ((i : ℤ) : K)) 0 (mul_nonneg hx.le hi') (by rw [hround]; exact_mod_cast hi) (by
      simp only [abs_zero, mul_zero]
      have : (2 : K) ≤ nky := by exact_mod_cast hky
      exact mul_pos (by linarith) hy)
  have hmi : m = i := by
    have h := hm i
    have e : δx * ((i : ℤ) : K) - ((i : ℤ) : K) * δx = 0 := by ring
    rw [e, abs_zero] at h
    have h0 := abs_eq_zero.1 (le_antisymm h (abs_nonneg _))
    have h3 : δx * (((i : ℤ) : K) - (m : K)) = 0 := by linarith
    rcases mul_eq_zero.1 h3 with h4 | h4
    · exact absurd h4 hx.ne'
    · have : ((i : ℤ) : K) = (m : K) := sub_eq_zero.1 h4
      exact_mod_cast this.symm
  have hsr := hsz r hr
  refine ⟨r, i0, ?_, hr, by omega, by omega⟩
  simp only [pos2, hw, Int.toNat_natCast]
  have : pyIdx2 (sizes r, nky) ((i0 : ℤ), (j : ℤ)) = some (i0, j) :=
    pyIdx2_eq_some.2 ⟨pyIdx_nat (by simp only; omega), pyIdx_nat hj⟩
  rw [this]; rfl

theorem loops2mpi_mem {nC : ℕ × ℕ} {nky : ℕ} (w) : w ∈ loops2mpi nC nky ↔
    ∃ s : ℕ × ℕ, (s.1 < nC.1 ∧ s.2 < nC.2) ∧
      w = (((s.2 : ℤ), ikFromIkc s.1 nC.1 nky), ((s.1 : ℤ), (s.2 : ℤ))) := by
  simp only [loops2mpi, List.mem_map, mem_range2]
  constructor
  · rintro ⟨s, hs, rfl⟩; exact ⟨s.swap, hs.symm, rfl⟩
  · rintro ⟨s, hs, rfl⟩; exact ⟨s.swap, hs.symm, rfl⟩

/-- C26 in 2D on several processes (transposed arrays distributed in slabs along x): the value
at local position `(l, j)` of process `r`, i.e. at the mode `kx = start r + l`, is the coarse
value of its wavenumber if there is one, and is unchanged otherwise; taking back returns the
coarse array. -/
theorem C26_2d_distributed {δx δy : K} (hx : 0 < δx) (hy : 0 < δy) (nkx nky : ℕ) (hky : 2 ≤ nky)
    (s : Slabs) (hs : Fits s nkx) (sizes : ℕ → ℕ)
    (hsz : ∀ r, r < s.nproc → s.start r + sizes r = s.start (r + 1)) (nC : ℕ × ℕ)
    (h0 : nC.1 ≤ nky) (h1 : nC.2 ≤ nkx) (coarse : ℕ × ℕ → A) (arr : ℕ × ℕ × ℕ → A)
    (empty : ℕ × ℕ → A) :
    ∃ o t, put2mpi true δx δy nkx nky s sizes nC coarse arr = .ok o ∧
      (∀ r l j ky, r < s.nproc → l < sizes r → Holds nky j ky →
        (∀ i0, Holds nC.1 i0 ky → s.start r + l < nC.2 →
          o (r, l, j) = coarse (i0, s.start r + l)) ∧
        (((¬ ∃ i0, Holds nC.1 i0 ky) ∨ nC.2 ≤ s.start r + l) → o (r, l, j) = arr (r, l, j))) ∧
      take2mpi true δx δy nkx nky s sizes nC o empty = .ok t ∧
      (∀ i0 i1, i0 < nC.1 → i1 < nC.2 → t (i0, i1) = coarse (i0, i1)) := by
  classical
  -- the position of each coarse mode
  have hpos : ∀ q : ℕ × ℕ, (q.1 < nC.1 ∧ q.2 < nC.2) → ∃ p : ℕ × ℕ × ℕ,
      pos2 δx δy nkx nky s sizes ((q.2 : ℤ), ikFromIkc q.1 nC.1 nky) = some p ∧
      p.1 < s.nproc ∧ p.2.1 < sizes p.1 ∧ s.start p.1 + p.2.1 = q.2 ∧
      p.2.2 = up false nC.1 nky q.1 := by
    intro q hq
    rw [ik_eq_up h0]
    obtain ⟨r, l, hp, hr, hl, he⟩ := pos2_spec hx hy hky hs hsz (i := q.2)
      (j := up false nC.1 nky q.1) (by omega) (up_lt h0 hq.1)
    exact ⟨(r, l, _), hp, hr, hl, he, rfl⟩
  choose! p hp1 hp2 hp3 hp4 hp5 using hpos
  have hidx : ∀ q : ℕ × ℕ, (q.1 < nC.1 ∧ q.2 < nC.2) →
      pyIdx2 nC ((q.1 : ℤ), (q.2 : ℤ)) = some q := fun q hq =>
    pyIdx2_eq_some.2 ⟨pyIdx_nat hq.1, pyIdx_nat hq.2⟩
  have hinj : ∀ q q' : ℕ × ℕ, (q.1 < nC.1 ∧ q.2 < nC.2) → (q'.1 < nC.1 ∧ q'.2 < nC.2) →
      p q = p q' → q = q' := by
    intro q q' hq hq' h
    have e1 := hp4 q hq
    have e2 := hp4 q' hq'
    have e3 := hp5 q hq
    have e4 := hp5 q' hq'
    rw [h] at e1 e3
    have a1 : q.2 = q'.2 := by omega
    have a2 : q.1 = q'.1 := up_inj h0 hq.1 hq'.1 (by rw [← e3, ← e4])
    exact Prod.ext a2 a1
  obtain ⟨o, ho, hput, hkeep⟩ := assign_fun (nd := pos2 δx δy nkx nky s sizes)
    (ns := pyIdx2 nC) (ws := loops2mpi nC nky) coarse arr
    (fun q : ℕ × ℕ => q.1 < nC.1 ∧ q.2 < nC.2)
    (fun q => ((q.2 : ℤ), ikFromIkc q.1 nC.1 nky)) (fun q => ((q.1 : ℤ), (q.2 : ℤ))) p id
    loops2mpi_mem hp1 hidx hinj
  obtain ⟨t, ht, htake, -⟩ := assign_fun (nd := pyIdx2 nC) (ns := pos2 δx δy nkx nky s sizes)
    (ws := (loops2mpi nC nky).map Prod.swap) o empty
    (fun q : ℕ × ℕ => q.1 < nC.1 ∧ q.2 < nC.2) (fun q => ((q.1 : ℤ), (q.2 : ℤ)))
    (fun q => ((q.2 : ℤ), ikFromIkc q.1 nC.1 nky)) id p
    (by
      intro w
      simp only [List.mem_map, loops2mpi_mem]
      constructor
      · rintro ⟨_, ⟨s, hs, rfl⟩, rfl⟩; exact ⟨s, hs, rfl⟩
      · rintro ⟨s, hs, rfl⟩; exact ⟨_, ⟨s, hs, rfl⟩, rfl⟩)
    hidx hp1 (fun _ _ _ _ h => h)
  refine ⟨o, t, ?_, ?_, ?_, ?_⟩
  · simp [put2mpi, ho]
  · intro r l j ky hr hl Hj
    have hrl : s.start r ≤ s.start r + l ∧ s.start r + l < s.start (r + 1) := by
      have := hsz r hr; omega
    constructor
    · intro i0 Hi hlt
      have h := hput (i0, s.start r + l) ⟨Hi.1, hlt⟩
      have q := hp4 (i0, s.start r + l) ⟨Hi.1, hlt⟩
      have q2 := hp2 (i0, s.start r + l) ⟨Hi.1, hlt⟩
      have q3 := hp3 (i0, s.start r + l) ⟨Hi.1, hlt⟩
      have q5 := hp5 (i0, s.start r + l) ⟨Hi.1, hlt⟩
      simp only at q q5
      have hz := hsz _ q2
      have e1 : (p (i0, s.start r + l)).1 = r :=
        C27_3d_slab_unique s nkx hs (s.start r + l) _ _ q2 hr ⟨by omega, by omega⟩ hrl
      have e2 : (p (i0, s.start r + l)).2.1 = l := by rw [e1] at q; omega
      have e3 : (p (i0, s.start r + l)).2.2 = j := by
        rw [q5]; exact holds_unique (up_holds h0 Hi) Hj
      have e : p (i0, s.start r + l) = (r, l, j) := Prod.ext e1 (Prod.ext e2 e3)
      rw [e] at h
      exact h
    · intro hno
      refine hkeep _ ?_
      rintro ⟨i0, i1⟩ ⟨hq0, hq1⟩ he
      have q4 := hp4 (i0, i1) ⟨hq0, hq1⟩
      have q5 := hp5 (i0, i1) ⟨hq0, hq1⟩
      rw [he] at q4 q5
      simp only at q4 q5 hq0 hq1
      rcases hno with hno | hno
      · obtain ⟨k', Hk'⟩ := holds_exists hq0
        have y := up_holds h0 Hk'
        rw [← q5] at y
        have : k' = ky := by rw [holds_iff] at y Hj; omega
        exact hno ⟨i0, this ▸ Hk'⟩
      · omega
  · simp [take2mpi, ht]
  · intro i0 i1 hi0 hi1
    have h1' := htake (i0, i1) ⟨hi0, hi1⟩
    have h2' := hput (i0, i1) ⟨hi0, hi1⟩
    simp only [id] at h1' h2'
    rw [h1', h2']

/-- Two processes with 3 and 2 of 5 modes along x, 8 points along y, coarse array 4 × 4: the
coarse mode (ky, kx) = (-1, 3) is on process 1, local index (0, 7). -/
example : ((put2mpi (K := ℚ) true 1 1 5 8 ⟨2, fun r => if r = 0 then 0 else if r = 1 then 3 else 5,
    false, 0⟩ (fun r => if r = 0 then 3 else 2) (4, 4) (fun s => (s.1 : ℤ) + 10 * s.2)
    (fun _ => -1)).toOption.map fun o => (o (1, 0, 7), o (1, 1, 7), o (0, 0, 3))) =
      some (33, -1, -1) := by decide +kernel

/-- C26: arrays that are distributed and not transposed are refused in 2D. -/
theorem C26_2d_not_transposed (δx δy : K) (nkx nky : ℕ) (s : Slabs) (sizes : ℕ → ℕ)
    (nC : ℕ × ℕ) (coarse empty : ℕ × ℕ → A) (arr : ℕ × ℕ × ℕ → A) :
    put2mpi false δx δy nkx nky s sizes nC coarse arr = .error "NotImplementedError" ∧
    take2mpi false δx δy nkx nky s sizes nC arr empty = .error "NotImplementedError" := by
  simp [put2mpi, take2mpi]

end Mpi2

/-! ### Several processes, 3D -/

section Mpi3
variable {A : Type*}

/-- What is assumed of a distribution over several processes: the blocks are a partition of the
global indices; if the second axis of the calling process is complete the blocks are slabs along
the first axis, in the order of the ranks; otherwise, if its last axis is complete, so is the
last axis of all blocks. -/
structure Good (D : Dist) : Prop where
  several : D.blocks.length ≠ 1
  slab : D.me.shape.2.1 = D.seq.2.1 →
    (∀ B ∈ D.blocks, B.first.2 = (0, 0) ∧ B.shape.2 = D.seq.2) ∧
    ∃ start : ℕ → ℕ, Fits ⟨D.blocks.length, start, D.same, D.me.shape.1⟩ D.seq.1 ∧
      ∀ r B, D.blocks[r]? = some B →
        B.first.1 = start r ∧ B.first.1 + B.shape.1 = start (r + 1)
  line : D.me.shape.2.1 ≠ D.seq.2.1 → D.me.shape.2.2 = D.seq.2.2 →
    ∀ B ∈ D.blocks, B.first.2.2 = 0 ∧ B.shape.2.2 = D.seq.2.2
  cover : ∀ i : ℕ × ℕ × ℕ, i.1 < D.seq.1 → i.2.1 < D.seq.2.1 → i.2.2 < D.seq.2.2 →
    ∃ B ∈ D.blocks, B.mem i = true
  disjoint : ∀ g r r' l l', LocalAt D.blocks r l g → LocalAt D.blocks r' l' g → r = r'

theorem Good.where {D : Dist} (h : Good D) {i : ℕ × ℕ × ℕ} (h0 : i.1 < D.seq.1)
    (h1 : i.2.1 < D.seq.2.1) (h2 : i.2.2 < D.seq.2.2) :
    ∃ (r a b c : ℕ), whereIs3d D.blocks D.me D.seq D.same i =
      .ok (r, (a : ℤ), (b : ℤ), (c : ℤ)) ∧ LocalAt D.blocks r (a, b, c) i := by
  obtain ⟨r, a, b, c, B, hw, hB, ha, hb, hc⟩ := C27_3d D.blocks D.me D.seq D.same
    (fun e => absurd e h.several) (fun _ => h.slab) h.cover i h0 h1 h2
  exact ⟨r, a, b, c, hw, B, hB, ha, hb, hc⟩

/-- In each of the three branches the position found is that of the global index. -/
theorem pos3_spec {D : Dist} (h : Good D) {probe : ℕ × ℕ × ℕ → ℕ × ℕ × ℕ} {k1 k2 : Bool}
    (hb : (D.me.shape.2.1 = D.seq.2.1 ∧ probe = (fun g => (g.1, 0, 0)) ∧ k1 = false ∧ k2 = false) ∨
      (D.me.shape.2.1 ≠ D.seq.2.1 ∧ D.me.shape.2.2 = D.seq.2.2 ∧
        probe = (fun g => (g.1, g.2.1, 0)) ∧ k1 = true ∧ k2 = false) ∨
      (probe = id ∧ k1 = true ∧ k2 = true)) {g : ℕ × ℕ × ℕ} (h0 : g.1 < D.seq.1)
    (h1 : g.2.1 < D.seq.2.1) (h2 : g.2.2 < D.seq.2.2) :
    ∃ r l, pos3 D probe k1 k2 (toZ g) = some (r, l) ∧ LocalAt D.blocks r l g := by
  have hneg : ¬ ((toZ g).1 < 0 ∨ (toZ g).2.1 < 0 ∨ (toZ g).2.2 < 0) := by
    simp only [toZ]; omega
  have hg : ((toZ g).1.toNat, (toZ g).2.1.toNat, (toZ g).2.2.toNat) = g := by
    simp [toZ]
  have key : ∀ p : ℕ × ℕ × ℕ, probe g = p → p.1 < D.seq.1 → p.2.1 < D.seq.2.1 →
      p.2.2 < D.seq.2.2 → p.1 = g.1 → (∀ B ∈ D.blocks,
        (if k1 then p.2.1 = g.2.1 else (B.first.2.1 = 0 ∧ B.shape.2.1 = D.seq.2.1)) ∧
        (if k2 then p.2.2 = g.2.2 else (B.first.2.2 = 0 ∧ B.shape.2.2 = D.seq.2.2))) →
      ∃ r l, pos3 D probe k1 k2 (toZ g) = some (r, l) ∧ LocalAt D.blocks r l g := by
    intro p hp p0 p1 p2 e0 hcond
    obtain ⟨r, a, b, c, hw, B, hB, ha, hb', hc⟩ := h.where p0 p1 p2
    have hc2 := hcond B (List.mem_of_getElem? hB)
    refine ⟨r, (a, if k1 then b else g.2.1, if k2 then c else g.2.2), ?_, B, hB, ?_⟩
    · simp only [pos3, if_neg hneg, hg, hp, hw, hB]
      have : pyIdx3 B.shape ((a : ℤ), (if k1 = true then (b : ℤ) else (toZ g).2.1),
          (if k2 = true then (c : ℤ) else (toZ g).2.2)) =
          some (a, if k1 then b else g.2.1, if k2 then c else g.2.2) := by
        rw [pyIdx3_eq_some]
        refine ⟨pyIdx_nat ha.1, ?_, ?_⟩
        · cases k1
          · simp only [Bool.false_eq_true, if_false] at hc2 ⊢
            exact pyIdx_nat (by omega)
          · simp only [if_true]
            exact pyIdx_nat hb'.1
        · cases k2
          · simp only [Bool.false_eq_true, if_false] at hc2 ⊢
            exact pyIdx_nat (by omega)
          · simp only [if_true]
            exact pyIdx_nat hc.1
      rw [this]; rfl
    · simp only at ha hb' hc ⊢
      refine ⟨by omega, ?_, ?_⟩
      · cases k1 <;> simp only [Bool.false_eq_true, if_false, if_true] at hc2 ⊢ <;> omega
      · cases k2 <;> simp only [Bool.false_eq_true, if_false, if_true] at hc2 ⊢ <;> omega
  rcases hb with ⟨hs, rfl, rfl, rfl⟩ | ⟨hs, hl, rfl, rfl, rfl⟩ | ⟨rfl, rfl, rfl⟩
  · refine key (g.1, 0, 0) rfl h0 (by simp only; omega) (by simp only; omega) rfl ?_
    intro B hB
    obtain ⟨e1, e2⟩ := (h.slab hs).1 B hB
    simp [e1, e2]
  · refine key (g.1, g.2.1, 0) rfl h0 h1 (by simp only; omega) rfl ?_
    intro B hB
    obtain ⟨e1, e2⟩ := h.line hs hl B hB
    simp [e1, e2]
  · exact key g rfl h0 h1 h2 rfl (by simp)

/-- Position of a coarse storage index in the full storage order. -/
def at3d (d c n s : ℕ × ℕ × ℕ) : ℕ × ℕ × ℕ :=
  (up (isX d 0) c.1 n.1 s.1, up (isX d 1) c.2.1 n.2.1 s.2.1, up (isX d 2) c.2.2 n.2.2 s.2.2)

/-- Every axis of the coarse shape is at most that of the full one. -/
def Le3 (c n : ℕ × ℕ × ℕ) : Prop := c.1 ≤ n.1 ∧ c.2.1 ≤ n.2.1 ∧ c.2.2 ≤ n.2.2

def In3 (c s : ℕ × ℕ × ℕ) : Prop := s.1 < c.1 ∧ s.2.1 < c.2.1 ∧ s.2.2 < c.2.2

theorem at3d_lt {d c n s : ℕ × ℕ × ℕ} (h : Le3 c n) (hs : In3 c s) : In3 n (at3d d c n s) :=
  ⟨up_lt h.1 hs.1, up_lt h.2.1 hs.2.1, up_lt h.2.2 hs.2.2⟩

theorem at3d_inj {d c n s s' : ℕ × ℕ × ℕ} (h : Le3 c n) (hs : In3 c s) (hs' : In3 c s')
    (e : at3d d c n s = at3d d c n s') : s = s' := by
  obtain ⟨a, b, e2⟩ := s
  obtain ⟨a', b', e2'⟩ := s'
  simp only [at3d, Prod.mk.injEq] at e
  have x0 := up_inj h.1 hs.1 hs'.1 e.1
  have x1 := up_inj h.2.1 hs.2.1 hs'.2.1 e.2.1
  have x2 := up_inj h.2.2 hs.2.2 hs'.2.2 e.2.2
  simp only at x0 x1 x2
  rw [x0, x1, x2]

theorem LocalAt.eq {bs : List Block} {r : ℕ} {l g g' : ℕ × ℕ × ℕ} (h : LocalAt bs r l g)
    (h' : LocalAt bs r l g') : g = g' := by
  obtain ⟨B, hB, a, b, c⟩ := h
  obtain ⟨B', hB', a', b', c'⟩ := h'
  rw [hB] at hB'
  cases hB'
  obtain ⟨x, y, z⟩ := g
  obtain ⟨x', y', z'⟩ := g'
  simp only at *
  rw [show x = x' by omega, show y = y' by omega, show z = z' by omega]

theorem LocalAt.eq' {bs : List Block} {r : ℕ} {l l' g : ℕ × ℕ × ℕ} (h : LocalAt bs r l g)
    (h' : LocalAt bs r l' g) : l = l' := by
  obtain ⟨B, hB, a, b, c⟩ := h
  obtain ⟨B', hB', a', b', c'⟩ := h'
  rw [hB] at hB'
  cases hB'
  obtain ⟨x, y, z⟩ := l
  obtain ⟨x', y', z'⟩ := l'
  simp only at *
  rw [show x = x' by omega, show y = y' by omega, show z = z' by omega]

/-- The four storage orders for which the coarse array is transposed. -/
def Known (d : DimXK) : Prop := d = (1, 0, 2) ∨ d = (2, 1, 0) ∨ d = (0, 1, 2) ∨ d = (1, 2, 0)

/-- The index of the coarse array (z, y, x) of a storage index. -/
def unOrder (d : DimXK) (s : ℕ × ℕ × ℕ) : ℕ × ℕ × ℕ :=
  if d = (1, 0, 2) then (s.2.1, s.1, s.2.2)
  else if d = (2, 1, 0) then (s.2.2, s.2.1, s.1)
  else if d = (0, 1, 2) then s
  else (s.2.2, s.1, s.2.1)

theorem storage_eq {d : DimXK} (hd : Known d) (coarse : ℕ × ℕ × ℕ → A) (nC : ℕ × ℕ × ℕ) :
    toStorage d coarse = .ok (fun s => coarse (unOrder d s)) ∧
    shapeStorage d nC = .ok (inOrder d nC) ∧
    (∀ s, inOrder d (unOrder d s) = s) ∧ (∀ s, unOrder d (inOrder d s) = s) ∧
    fromStorage d coarse = .ok (fun s => coarse (inOrder d s)) := by
  rcases hd with rfl | rfl | rfl | rfl <;>
    simp [toStorage, unOrder, shapeStorage, inOrder, pick, fromStorage]

theorem coarseHolds_iff {d : DimXK} (hd : Known d) (nC s : ℕ × ℕ × ℕ) (k : ℤ × ℤ × ℤ) :
    CoarseHolds nC (unOrder d s) k ↔ GlobalHolds d (inOrder d nC) s k := by
  rcases hd with rfl | rfl | rfl | rfl <;>
    simp [CoarseHolds, unOrder, GlobalHolds, AxisHolds, inOrder, pick] <;> tauto

theorem globalHolds_up {d : DimXK} (hd : Known d) {c n s : ℕ × ℕ × ℕ} (h : Le3 c n)
    {k : ℤ × ℤ × ℤ} (hk : GlobalHolds d c s k) : GlobalHolds d n (at3d d c n s) k := by
  obtain ⟨h0, h1, h2⟩ := h
  rcases hd with rfl | rfl | rfl | rfl <;>
    simp only [GlobalHolds, AxisHolds, at3d, isX] at hk ⊢ <;>
    simp at hk ⊢ <;>
    obtain ⟨k0, k1, k2⟩ := hk
  · exact ⟨up_holds h0 k0, up_holds h1 k1, up_holds_half h2 k2⟩
  · exact ⟨up_holds_half h0 k0, up_holds h1 k1, up_holds h2 k2⟩
  · exact ⟨up_holds h0 k0, up_holds h1 k1, up_holds_half h2 k2⟩
  · exact ⟨up_holds h0 k0, up_holds_half h1 k1, up_holds h2 k2⟩

theorem axisHolds_lt {x : Prop} {n i : ℕ} {k : ℤ} (h : AxisHolds x n i k) : i < n := by
  by_cases hx : x
  · exact (h.1 hx).1
  · exact (h.2 hx).1

theorem axisHolds_unique {x : Prop} {n i j : ℕ} {k : ℤ} (h : AxisHolds x n i k)
    (h' : AxisHolds x n j k) : i = j := by
  by_cases hx : x
  · have a := (h.1 hx).2
    have b := (h'.1 hx).2
    omega
  · exact holds_unique (h.2 hx) (h'.2 hx)

theorem axisHolds_exists {x : Prop} {n i : ℕ} (h : i < n) : ∃ k, AxisHolds x n i k := by
  by_cases hx : x
  · exact ⟨i, fun _ => ⟨h, rfl⟩, fun hn => absurd hx hn⟩
  · obtain ⟨k, hk⟩ := holds_exists h
    exact ⟨k, fun hn => absurd hn hx, fun _ => hk⟩

theorem axisHolds_fun {x : Prop} {n i : ℕ} {k k' : ℤ} (h : AxisHolds x n i k)
    (h' : AxisHolds x n i k') : k = k' := by
  by_cases hx : x
  · have a := (h.1 hx).2
    have b := (h'.1 hx).2
    omega
  · have a := h.2 hx
    have b := h'.2 hx
    rw [holds_iff] at a b
    omega

theorem globalHolds_unique {d n g g' : ℕ × ℕ × ℕ} {k : ℤ × ℤ × ℤ} (h : GlobalHolds d n g k)
    (h' : GlobalHolds d n g' k) : g = g' :=
  Prod.ext (axisHolds_unique h.1 h'.1)
    (Prod.ext (axisHolds_unique h.2.1 h'.2.1) (axisHolds_unique h.2.2 h'.2.2))

theorem globalHolds_exists {d : DimXK} (hd : Known d) {n g : ℕ × ℕ × ℕ} (h : In3 n g) :
    ∃ k, GlobalHolds d n g k := by
  obtain ⟨a, ha⟩ := axisHolds_exists (x := d.1 = 2) h.1
  obtain ⟨b, hb⟩ := axisHolds_exists (x := d.2.1 = 2) h.2.1
  obtain ⟨c, hc⟩ := axisHolds_exists (x := d.2.2 = 2) h.2.2
  rcases hd with rfl | rfl | rfl | rfl
  · exact ⟨(b, a, c), ha, hb, hc⟩
  · exact ⟨(c, b, a), ha, hb, hc⟩
  · exact ⟨(a, b, c), ha, hb, hc⟩
  · exact ⟨(c, a, b), ha, hb, hc⟩

theorem globalHolds_fun {d : DimXK} (hd : Known d) {n g : ℕ × ℕ × ℕ} {k k' : ℤ × ℤ × ℤ}
    (h : GlobalHolds d n g k) (h' : GlobalHolds d n g k') : k = k' := by
  have a := axisHolds_fun h.1 h'.1
  have b := axisHolds_fun h.2.1 h'.2.1
  have c := axisHolds_fun h.2.2 h'.2.2
  obtain ⟨x, y, z⟩ := k
  obtain ⟨x', y', z'⟩ := k'
  rcases hd with rfl | rfl | rfl | rfl <;> simp [inOrder, pick] at a b c <;> simp [a, b, c]

/-- The branch taken by the program supports the order `d`. -/
def Handled (D : Dist) (d : DimXK) (nC : ℕ × ℕ × ℕ) : Prop :=
  if D.me.shape.2.1 = D.seq.2.1 then d = (1, 0, 2) ∨ d = (2, 1, 0)
  else if D.me.shape.2.2 = D.seq.2.2 then
    Known d ∧ (d.2.2 = 2 ∨ 3 ≤ (inOrder d nC).2.2)
  else d = (0, 1, 2)

theorem Handled.known {D : Dist} {d : DimXK} {nC : ℕ × ℕ × ℕ} (h : Handled D d nC) :
    Known d := by
  simp only [Handled] at h
  split_ifs at h
  · rcases h with rfl | rfl <;> simp [Known]
  · exact h.1
  · subst h; simp [Known]

/-- The storage-level effect of the put. -/
theorem put3mpi_core {D : Dist} (hD : Good D) {d : DimXK} {nC : ℕ × ℕ × ℕ}
    (hd : Handled D d nC) (hle : Le3 (inOrder d nC) D.seq) (coarse : ℕ × ℕ × ℕ → A)
    (arr : ℕ × ℕ × ℕ × ℕ → A) :
    ∃ o, put3mpi D d nC coarse arr = .ok o ∧
      (∀ s r l, In3 (inOrder d nC) s → LocalAt D.blocks r l (at3d d (inOrder d nC) D.seq s) →
        o (r, l) = coarse (unOrder d s)) ∧
      (∀ r l g, LocalAt D.blocks r l g → (∀ s, In3 (inOrder d nC) s →
        at3d d (inOrder d nC) D.seq s ≠ g) → o (r, l) = arr (r, l)) := by
  classical
  have hk := hd.known
  obtain ⟨e1, e2, -, -, -⟩ := storage_eq hk coarse nC
  generalize hc : inOrder d nC = c at *
  -- what remains once the list of assignments is known
  have fin : ∀ (probe : ℕ × ℕ × ℕ → ℕ × ℕ × ℕ) (k1 k2 : Bool)
      (_ : (D.me.shape.2.1 = D.seq.2.1 ∧ probe = (fun g => (g.1, 0, 0)) ∧ k1 = false ∧ k2 = false)
        ∨ (D.me.shape.2.1 ≠ D.seq.2.1 ∧ D.me.shape.2.2 = D.seq.2.2 ∧
          probe = (fun g => (g.1, g.2.1, 0)) ∧ k1 = true ∧ k2 = false) ∨
        (probe = id ∧ k1 = true ∧ k2 = true))
      (ws : List ((ℤ × ℤ × ℤ) × (ℤ × ℤ × ℤ)))
      (_ : ∀ w, w ∈ ws ↔ ∃ s, In3 c s ∧ w = (toZ (at3d d c D.seq s), toZ s)),
      ∃ o, assign (pos3 D probe k1 k2) (pyIdx3 c) (fun s => coarse (unOrder d s)) ws arr = .ok o ∧
        (∀ s r l, In3 c s → LocalAt D.blocks r l (at3d d c D.seq s) →
          o (r, l) = coarse (unOrder d s)) ∧
        (∀ r l g, LocalAt D.blocks r l g → (∀ s, In3 c s → at3d d c D.seq s ≠ g) →
          o (r, l) = arr (r, l)) := by
    intro probe k1 k2 hb ws hws
    have hpos : ∀ s, In3 c s → ∃ p : ℕ × ℕ × ℕ × ℕ,
        pos3 D probe k1 k2 (toZ (at3d d c D.seq s)) = some p ∧
        LocalAt D.blocks p.1 p.2 (at3d d c D.seq s) := by
      intro s hs
      have hlt := at3d_lt (d := d) hle hs
      obtain ⟨r, l, h1, h2⟩ := pos3_spec hD hb hlt.1 hlt.2.1 hlt.2.2
      exact ⟨(r, l), h1, h2⟩
    choose! p hp1 hp2 using hpos
    obtain ⟨o, ho, hput, hkeep⟩ := assign_fun (nd := pos3 D probe k1 k2) (ns := pyIdx3 c)
      (ws := ws) (fun s => coarse (unOrder d s)) arr (In3 c)
      (fun s => toZ (at3d d c D.seq s)) toZ p id hws hp1 (fun s hs => toZ_idx hs)
      (fun s s' hs hs' e => at3d_inj hle hs hs' (by
        have a := hp2 s hs
        have b := hp2 s' hs'
        rw [← e] at b
        exact a.eq b))
    refine ⟨o, ho, ?_, ?_⟩
    · intro s r l hs hl
      have h2 := hp2 s hs
      have er := hD.disjoint _ _ _ _ _ h2 hl
      have : p s = (r, l) := by
        refine Prod.ext er ?_
        rw [er] at h2
        exact h2.eq' hl
      rw [← this]
      exact hput s hs
    · intro r l g hl hno
      refine hkeep _ ?_
      intro s hs e
      have h2 := hp2 s hs
      rw [e] at h2
      exact hno s hs (h2.eq hl)
  have m0 : min c.1 D.seq.1 = c.1 := min_eq_left hle.1
  have m1 : min c.2.1 D.seq.2.1 = c.2.1 := min_eq_left hle.2.1
  have m2 : min c.2.2 D.seq.2.2 = c.2.2 := min_eq_left hle.2.2
  -- a triple loop
  have loop : ∀ F : ℕ × ℕ × ℕ → ℤ × ℤ × ℤ, (∀ s, F s = toZ (at3d d c D.seq s)) →
      ∀ w, w ∈ ((range3 (c.1, c.2.1, c.2.2)).map fun s => (F s, toZ s)) ↔
        ∃ s, In3 c s ∧ w = (toZ (at3d d c D.seq s), toZ s) := by
    intro F hF w
    simp only [List.mem_map, mem_range3, hF, In3]
    constructor
    · rintro ⟨s, hs, rfl⟩; exact ⟨s, hs, rfl⟩
    · rintro ⟨s, hs, rfl⟩; exact ⟨s, hs, rfl⟩
  simp only [put3mpi, e1, e2]
  simp only [Handled] at hd
  by_cases hs : D.me.shape.2.1 = D.seq.2.1
  · rw [if_pos hs] at hd
    rw [if_pos hs, m0]
    rcases hd with rfl | rfl
    · rw [if_pos rfl]
      refine fin _ _ _ (Or.inl ⟨hs, rfl, rfl, rfl⟩) _ (loop _ ?_)
      intro s
      simp only [at3d, toZ, isX]
      simp [← ik_eq_up hle.1, ← ik_eq_up hle.2.1, ← ik_eq_up hle.2.2, ikFromIkc]
    · rw [if_neg (by decide), if_pos rfl]
      refine fin _ _ _ (Or.inl ⟨hs, rfl, rfl, rfl⟩) _ (loop _ ?_)
      intro s
      simp only [at3d, toZ, isX]
      simp [← ik_eq_up hle.1, ← ik_eq_up hle.2.1, ← ik_eq_up hle.2.2]
  · rw [if_neg hs] at hd
    rw [if_neg hs]
    by_cases hl : D.me.shape.2.2 = D.seq.2.2
    · rw [if_pos hl] at hd
      rw [if_pos hl]
      have h3 : isX d 2 = true ∨ 3 ≤ c.2.2 := by
        rw [← hc]
        refine hd.2.imp ?_ id
        intro h
        rcases hk with rfl | rfl | rfl | rfl <;> simp [isX] at h ⊢
      obtain ⟨ln, hln, hmem⟩ := lineWrites_spec hle.2.2 h3
      simp only [hln, m0, m1]
      refine fin _ _ _ (Or.inr (Or.inl ⟨hs, hl, rfl, rfl, rfl⟩)) _ ?_
      intro w
      simp only [List.mem_flatMap, List.mem_map, mem_range2, hmem, ik_eq_up hle.1,
        ik_eq_up hle.2.1, In3]
      constructor
      · rintro ⟨s, hs, q, ⟨hq, he⟩, rfl⟩
        exact ⟨(s.1, s.2, q.2), ⟨hs.1, hs.2, hq⟩, by simp [toZ, at3d, he]⟩
      · rintro ⟨s, hs, rfl⟩
        exact ⟨(s.1, s.2.1), ⟨hs.1, hs.2.1⟩, (up (isX d 2) c.2.2 D.seq.2.2 s.2.2, s.2.2),
          ⟨hs.2.2, rfl⟩, by simp [toZ, at3d]⟩
    · rw [if_neg hl] at hd
      rw [if_neg hl, if_pos hd, m0, m1, m2]
      refine fin _ _ _ (Or.inr (Or.inr ⟨rfl, rfl, rfl⟩)) _ (loop _ ?_)
      intro s
      simp only [at3d, toZ]
      simp [← ik_eq_up hle.1, ← ik_eq_up hle.2.1, ← ik_eq_up hle.2.2]

/-- C26 in 3D on several processes, in the branches that support the storage order: the value
stored by any process at a mode of the coarse array is the coarse value of this mode, the other
values are unchanged. The full statement would hold for every order and every coarse size; see
`C26_slab_order_refused`, `C26_line_two_modes_violated` and `C26_line_one_mode_violated`. -/
theorem C26_put_distributed_partial {D : Dist} (hD : Good D) {d : DimXK} {nC : ℕ × ℕ × ℕ}
    (hd : Handled D d nC) (hle : Le3 (inOrder d nC) D.seq) (coarse : ℕ × ℕ × ℕ → A)
    (arr : ℕ × ℕ × ℕ × ℕ → A) :
    ∃ o, put3mpi D d nC coarse arr = .ok o ∧
      ∀ r l g k, LocalAt D.blocks r l g → GlobalHolds d D.seq g k →
        (∀ i, CoarseHolds nC i k → o (r, l) = coarse i) ∧
        ((¬ ∃ i, CoarseHolds nC i k) → o (r, l) = arr (r, l)) := by
  have hk := hd.known
  obtain ⟨o, ho, h1, h2⟩ := put3mpi_core hD hd hle coarse arr
  obtain ⟨-, -, hio, hoi, -⟩ := storage_eq hk coarse nC
  refine ⟨o, ho, ?_⟩
  intro r l g k hl hg
  constructor
  · intro i hi
    have hi' : CoarseHolds nC (unOrder d (inOrder d i)) k := by rw [hoi]; exact hi
    rw [coarseHolds_iff hk] at hi'
    have hin : In3 (inOrder d nC) (inOrder d i) :=
      ⟨axisHolds_lt hi'.1, axisHolds_lt hi'.2.1, axisHolds_lt hi'.2.2⟩
    have e := globalHolds_unique (globalHolds_up hk hle hi') hg
    rw [h1 _ r l hin (by rw [e]; exact hl), hoi]
  · intro hno
    refine h2 r l g hl ?_
    intro s hs e
    obtain ⟨k', hk'⟩ := globalHolds_exists hk hs
    have e' := globalHolds_up hk hle hk'
    rw [e] at e'
    rw [globalHolds_fun hk e' hg] at hk'
    exact hno ⟨_, (coarseHolds_iff hk nC s k).2 hk'⟩

/-- Slabs: the second axis is complete, the order is (y, z, x) or (x, y, z). Otherwise blocks,
all four orders. -/
def HandledTake (D : Dist) (d : DimXK) : Prop :=
  if D.me.shape.2.1 = D.seq.2.1 then d = (1, 0, 2) ∨ d = (2, 1, 0) else Known d

theorem Handled.take {D : Dist} {d : DimXK} {nC : ℕ × ℕ × ℕ} (h : Handled D d nC) :
    HandledTake D d := by
  have hk := h.known
  simp only [Handled, HandledTake] at h ⊢
  split_ifs at h ⊢
  · exact h
  · exact hk
  · exact hk

theorem take3mpi_core [Zero A] {D : Dist} (hD : Good D) {d : DimXK} {nC : ℕ × ℕ × ℕ}
    (hd : HandledTake D d) (hle : Le3 (inOrder d nC) D.seq) (arr : ℕ × ℕ × ℕ × ℕ → A) :
    ∃ t, take3mpi D d nC arr = .ok t ∧
      ∀ s r l, In3 (inOrder d nC) s → LocalAt D.blocks r l (at3d d (inOrder d nC) D.seq s) →
        t (unOrder d s) = arr (r, l) := by
  classical
  have hk : Known d := by
    simp only [HandledTake] at hd
    split_ifs at hd
    · rcases hd with rfl | rfl <;> simp [Known]
    · exact hd
  have e2 := (storage_eq hk (fun _ => (0 : A)) nC).2.1
  generalize hc : inOrder d nC = c at *
  have fin : ∀ (probe : ℕ × ℕ × ℕ → ℕ × ℕ × ℕ) (k1 k2 : Bool)
      (_ : (D.me.shape.2.1 = D.seq.2.1 ∧ probe = (fun g => (g.1, 0, 0)) ∧ k1 = false ∧ k2 = false)
        ∨ (D.me.shape.2.1 ≠ D.seq.2.1 ∧ D.me.shape.2.2 = D.seq.2.2 ∧
          probe = (fun g => (g.1, g.2.1, 0)) ∧ k1 = true ∧ k2 = false) ∨
        (probe = id ∧ k1 = true ∧ k2 = true))
      (F : ℕ × ℕ × ℕ → ℤ × ℤ × ℤ) (_ : ∀ s, F s = toZ (at3d d c D.seq s)),
      ∃ t, (match assign (pyIdx3 c) (pos3 D probe k1 k2) arr
          ((range3 (c.1, c.2.1, c.2.2)).map fun s => (toZ s, F s)) (fun _ => (0 : A)) with
        | Except.error e => Except.error e
        | Except.ok t => fromStorage d t) = Except.ok t ∧
        ∀ s r l, In3 c s → LocalAt D.blocks r l (at3d d c D.seq s) →
          t (unOrder d s) = arr (r, l) := by
    intro probe k1 k2 hb F hF
    have hpos : ∀ s, In3 c s → ∃ p : ℕ × ℕ × ℕ × ℕ,
        pos3 D probe k1 k2 (F s) = some p ∧
        LocalAt D.blocks p.1 p.2 (at3d d c D.seq s) := by
      intro s hs
      have hlt := at3d_lt (d := d) hle hs
      obtain ⟨r, l, h1, h2⟩ := pos3_spec hD hb hlt.1 hlt.2.1 hlt.2.2
      exact ⟨(r, l), by rw [hF]; exact h1, h2⟩
    choose! p hp1 hp2 using hpos
    obtain ⟨t, ht, htake, -⟩ := assign_fun (nd := pyIdx3 c) (ns := pos3 D probe k1 k2)
      (ws := (range3 (c.1, c.2.1, c.2.2)).map fun s => (toZ s, F s)) arr (fun _ => (0 : A))
      (In3 c) toZ F id p
      (by
        intro w
        simp only [List.mem_map, mem_range3, In3]
        constructor
        · rintro ⟨s, hs, rfl⟩; exact ⟨s, hs, rfl⟩
        · rintro ⟨s, hs, rfl⟩; exact ⟨s, hs, rfl⟩)
      (fun s hs => toZ_idx hs) hp1 (fun _ _ _ _ h => h)
    obtain ⟨-, -, hio, -, hf⟩ := storage_eq hk t nC
    refine ⟨fun s => t (inOrder d s), ?_, ?_⟩
    · rw [ht]; exact hf
    · intro s r l hs hl
      have h2 := hp2 s hs
      have er := hD.disjoint _ _ _ _ _ h2 hl
      have : p s = (r, l) := by
        refine Prod.ext er ?_
        rw [er] at h2
        exact h2.eq' hl
      have h := htake s hs
      simp only [hio]
      rw [← this]
      exact h
  have m0 : min c.1 D.seq.1 = c.1 := min_eq_left hle.1
  have m1 : min c.2.1 D.seq.2.1 = c.2.1 := min_eq_left hle.2.1
  have m2 : min c.2.2 D.seq.2.2 = c.2.2 := min_eq_left hle.2.2
  simp only [take3mpi, e2]
  simp only [HandledTake] at hd
  by_cases hs : D.me.shape.2.1 = D.seq.2.1
  · rw [if_pos hs] at hd
    simp only [if_pos hs, m0]
    refine fin _ _ _ (Or.inl ⟨hs, rfl, rfl, rfl⟩) _ ?_
    intro s
    rcases hd with rfl | rfl
    · simp only [at3d, toZ, isX]
      simp [← ik_eq_up hle.1, ← ik_eq_up hle.2.1, ← ik_eq_up hle.2.2, ikFromIkc]
    · simp only [at3d, toZ, isX]
      simp [← ik_eq_up hle.1, ← ik_eq_up hle.2.1, ← ik_eq_up hle.2.2]
  · rw [if_neg hs] at hd
    simp only [if_neg hs, m0, m1, m2]
    refine fin _ _ _ (Or.inr (Or.inr ⟨rfl, rfl, rfl⟩)) _ ?_
    intro s
    simp only [at3d, toZ]
    simp [← ik_eq_up hle.1, ← ik_eq_up hle.2.1, ← ik_eq_up hle.2.2]

/-- C26 in 3D on several processes: in the supported cases every mode of the coarse array that
is returned is the value stored at this mode, whichever process stores it. -/
theorem C26_take_distributed_partial [Zero A] {D : Dist} (hD : Good D) {d : DimXK}
    {nC : ℕ × ℕ × ℕ} (hd : HandledTake D d) (hle : Le3 (inOrder d nC) D.seq)
    (arr : ℕ × ℕ × ℕ × ℕ → A) :
    ∃ t, take3mpi D d nC arr = .ok t ∧
      ∀ r l g k i, LocalAt D.blocks r l g → GlobalHolds d D.seq g k → CoarseHolds nC i k →
        t i = arr (r, l) := by
  have hk : Known d := by
    simp only [HandledTake] at hd
    split_ifs at hd
    · rcases hd with rfl | rfl <;> simp [Known]
    · exact hd
  obtain ⟨t, ht, h⟩ := take3mpi_core hD hd hle arr
  have hoi := (storage_eq hk t nC).2.2.2.1
  refine ⟨t, ht, ?_⟩
  intro r l g k i hl hg hi
  have hi' : CoarseHolds nC (unOrder d (inOrder d i)) k := by rw [hoi]; exact hi
  rw [coarseHolds_iff hk] at hi'
  have hin : In3 (inOrder d nC) (inOrder d i) :=
    ⟨axisHolds_lt hi'.1, axisHolds_lt hi'.2.1, axisHolds_lt hi'.2.2⟩
  have e := globalHolds_unique (globalHolds_up hk hle hi') hg
  rw [← h _ r l hin (by rw [e]; exact hl), hoi]

/-- C26 in 3D on several processes: put then take returns the coarse array, in the supported
cases. -/
theorem C26_roundtrip_distributed_partial [Zero A] {D : Dist} (hD : Good D) {d : DimXK}
    {nC : ℕ × ℕ × ℕ} (hd : Handled D d nC) (hle : Le3 (inOrder d nC) D.seq)
    (coarse : ℕ × ℕ × ℕ → A) (arr : ℕ × ℕ × ℕ × ℕ → A) :
    ∃ o t, put3mpi D d nC coarse arr = .ok o ∧ take3mpi D d nC o = .ok t ∧
      ∀ i0 i1 i2, i0 < nC.1 → i1 < nC.2.1 → i2 < nC.2.2 →
        t (i0, i1, i2) = coarse (i0, i1, i2) := by
  have hk := hd.known
  obtain ⟨o, ho, h1, -⟩ := put3mpi_core hD hd hle coarse arr
  obtain ⟨t, ht, h2⟩ := take3mpi_core hD hd.take hle o
  obtain ⟨-, -, hio, hoi, -⟩ := storage_eq hk coarse nC
  refine ⟨o, t, ho, ht, ?_⟩
  intro i0 i1 i2 h0 h1' h2'
  have hin : In3 (inOrder d nC) (inOrder d (i0, i1, i2)) := by
    rcases hk with rfl | rfl | rfl | rfl <;> simp [In3, inOrder, pick] <;> omega
  have hlt := at3d_lt (d := d) hle hin
  obtain ⟨r, a, b, c, -, hl⟩ := hD.where hlt.1 hlt.2.1 hlt.2.2
  have x := h1 _ r _ hin hl
  have y := h2 _ r _ hin hl
  rw [hoi] at x y
  rw [y, x]

/-- Two slabs of a 4 × 4 × 3 array. -/
def slabs2 : Dist := ⟨[⟨(0, 0, 0), (3, 4, 3)⟩, ⟨(3, 0, 0), (1, 4, 3)⟩], ⟨(0, 0, 0), (3, 4, 3)⟩,
  (4, 4, 3), false⟩

/-- Four pencils of a 4 × 4 × 4 array: the last axis is complete. -/
def pencils4 : Dist := ⟨[⟨(0, 0, 0), (2, 2, 4)⟩, ⟨(0, 2, 0), (2, 2, 4)⟩, ⟨(2, 0, 0), (2, 2, 4)⟩,
  ⟨(2, 2, 0), (2, 2, 4)⟩], ⟨(0, 0, 0), (2, 2, 4)⟩, (4, 4, 4), false⟩

theorem slabs2_good : Good slabs2 := by
  refine ⟨by decide, fun _ => ⟨by decide, fun r => if r = 0 then 0 else if r = 1 then 3 else 4,
    ⟨⟨by decide, by decide, ?_, by decide⟩, by decide⟩, ?_⟩, ?_, ?_, ?_⟩
  · intro r hr
    rcases r with _ | _ | r
    · decide
    · decide
    · simp [slabs2] at hr; omega
  · rintro r B hB
    rcases r with _ | _ | r
    · simp only [slabs2, List.getElem?_cons_zero, Option.some.injEq] at hB
      subst hB; decide
    · simp [slabs2] at hB
      subst hB; decide
    · simp [slabs2] at hB
  · intro h; exact absurd rfl h
  · rintro ⟨a, b, c⟩ h0 h1 h2
    simp only [slabs2] at h0 h1 h2
    by_cases h : a < 3
    · exact ⟨_, List.mem_cons_self, by simp [Block.mem]; omega⟩
    · exact ⟨_, List.mem_cons_of_mem _ List.mem_cons_self, by simp [Block.mem]; omega⟩
  · rintro g r r' l l' ⟨B, hB, h1, -⟩ ⟨B', hB', h1', -⟩
    rcases r with _ | _ | r <;> rcases r' with _ | _ | r' <;> simp [slabs2] at hB hB' <;>
      (try rfl) <;> subst hB <;> subst hB' <;> simp only at h1 h1' <;> omega

theorem pencils4_good : Good pencils4 := by
  refine ⟨by decide, fun h => absurd h (by decide), fun _ _ => by decide, ?_, ?_⟩
  · rintro ⟨a, b, c⟩ h0 h1 h2
    simp only [pencils4] at h0 h1 h2
    by_cases ha : a < 2 <;> by_cases hb : b < 2
    · exact ⟨⟨(0, 0, 0), (2, 2, 4)⟩, by simp [pencils4], by simp [Block.mem]; omega⟩
    · exact ⟨⟨(0, 2, 0), (2, 2, 4)⟩, by simp [pencils4], by simp [Block.mem]; omega⟩
    · exact ⟨⟨(2, 0, 0), (2, 2, 4)⟩, by simp [pencils4], by simp [Block.mem]; omega⟩
    · exact ⟨⟨(2, 2, 0), (2, 2, 4)⟩, by simp [pencils4], by simp [Block.mem]; omega⟩
  · rintro g r r' l l' ⟨B, hB, h1, h2, -⟩ ⟨B', hB', h1', h2', -⟩
    rcases r with _ | _ | _ | _ | r <;> rcases r' with _ | _ | _ | _ | r' <;>
      simp [pencils4] at hB hB' <;> (try rfl) <;> subst hB <;> subst hB' <;>
      simp only at h1 h1' h2 h2' <;> omega

/-- The hypotheses are met by slabs in order (y, z, x) and by pencils in order (y, x, z). -/
example : Good slabs2 ∧ Handled slabs2 (1, 0, 2) (3, 2, 2) ∧
    Le3 (inOrder (1, 0, 2) (3, 2, 2)) slabs2.seq ∧
    Good pencils4 ∧ Handled pencils4 (1, 2, 0) (3, 3, 2) ∧
    Le3 (inOrder (1, 2, 0) (3, 3, 2)) pencils4.seq := by
  refine ⟨slabs2_good, ?_, by simp [Le3, inOrder, pick, slabs2], pencils4_good, ?_,
    by simp [Le3, inOrder, pick, pencils4]⟩
  · simp [Handled, slabs2]
  · simp [Handled, pencils4, Known, inOrder, pick]

/-- C26 finding: for slabs, the orders (z, y, x) and (y, x, z) are refused when putting. -/
theorem C26_slab_order_refused {D : Dist} (hs : D.me.shape.2.1 = D.seq.2.1) (d : DimXK)
    (hd : d = (0, 1, 2) ∨ d = (1, 2, 0)) (nC : ℕ × ℕ × ℕ) (coarse : ℕ × ℕ × ℕ → A)
    (arr : ℕ × ℕ × ℕ × ℕ → A) :
    put3mpi D d nC coarse arr = .error "NotImplementedError" := by
  rcases hd with rfl | rfl <;> simp [put3mpi, toStorage, shapeStorage, hs]

/-- C26 finding: for slabs in order (z, y, x), taking is accepted but the x axis is treated like
a full axis: the mode `kx = 2` of the coarse array (three modes along x) is read at index 4 of
the five x modes of the full array. -/
theorem C26_take_slab_order_violated :
    ∃ (D : Dist) (nC : ℕ × ℕ × ℕ) (arr : ℕ × ℕ × ℕ × ℕ → ℤ) (t : ℕ × ℕ × ℕ → ℤ),
      take3mpi D (0, 1, 2) nC arr = .ok t ∧ Le3 nC D.seq ∧
      LocalAt D.blocks 0 (0, 0, 2) (0, 0, 2) ∧ t (0, 0, 2) ≠ arr (0, 0, 0, 2) := by
  refine ⟨⟨[⟨(0, 0, 0), (2, 4, 5)⟩, ⟨(2, 0, 0), (2, 4, 5)⟩], ⟨(0, 0, 0), (2, 4, 5)⟩,
    (4, 4, 5), true⟩, (2, 2, 3), fun p => p.2.2.2, ?_⟩
  have h : ((take3mpi (⟨[⟨(0, 0, 0), (2, 4, 5)⟩, ⟨(2, 0, 0), (2, 4, 5)⟩],
      ⟨(0, 0, 0), (2, 4, 5)⟩, (4, 4, 5), true⟩) (0, 1, 2) (2, 2, 3)
      (fun p : ℕ × ℕ × ℕ × ℕ => (p.2.2.2 : ℤ))).toOption.map fun t => t (0, 0, 2)) =
      some 4 := by decide +kernel
  rcases e : take3mpi (⟨[⟨(0, 0, 0), (2, 4, 5)⟩, ⟨(2, 0, 0), (2, 4, 5)⟩],
      ⟨(0, 0, 0), (2, 4, 5)⟩, (4, 4, 5), true⟩) (0, 1, 2) (2, 2, 3)
      (fun p : ℕ × ℕ × ℕ × ℕ => (p.2.2.2 : ℤ)) with err | t
  · rw [e] at h; simp [Except.toOption] at h
  · rw [e] at h
    simp [Except.toOption] at h
    refine ⟨t, rfl, by simp [Le3], ⟨_, rfl, by simp, by simp, by simp⟩, ?_⟩
    rw [h]; simp

/-- C26 finding: in the pencil branch a coarse line of two modes along y or z raises a
ValueError as soon as the full line is longer. -/
theorem C26_line_two_modes_violated (n : ℕ) (hn : 3 ≤ n) :
    lineWrites false 2 n = .error "ValueError" := by
  obtain ⟨m, rfl⟩ : ∃ m, n = m + 3 := ⟨n - 3, by omega⟩
  simp [lineWrites, sliceTo, sliceFrom, zipSlices, List.range']

/-- C26 finding: in the pencil branch a coarse line of one mode along y or z is copied into
every mode of the full line. -/
theorem C26_line_one_mode_violated (n : ℕ) (hn : 2 ≤ n) :
    ∃ l, lineWrites false 1 n = .ok l ∧ ∀ i, i < n → (i, 0) ∈ l := by
  obtain ⟨m, rfl⟩ : ∃ m, n = m + 2 := ⟨n - 2, by omega⟩
  refine ⟨_, by simp [lineWrites, sliceTo, sliceFrom, zipSlices]; rfl, ?_⟩
  intro i hi
  simp
  omega

end Mpi3

end Verif.Coarse
