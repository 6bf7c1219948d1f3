import Verif.RealForce.Lemmas

/-!
# C111: the random forces are real fields

2D, one process. The coarse arrays of the forcings have the shape `(2 * m, mx + 1)` (even sizes), the arrays of the solver the shape
`(nky, nkx)`.
-/

set_option linter.unusedSectionVars false

namespace Verif.RealForce

open Verif.Forcing Verif.Energy Verif.Modes Verif.EndToEnd Verif.Symmetry Verif.Reality

noncomputable section

variable {m mx nky nkx : ℕ}

/-- `project_fft_on_realX` of the 2D operators, for an even number of rows: the result is the half spectrum of a real field, and an array
which already was one is not changed. -/
theorem C111_projection (hm : 0 < m) (nkx : ℕ) (f : ℕ → ℕ → ℂ) :
    Forcing.RealField (2 * m) nkx (projRealX (2 * m) nkx f) ∧
      (Forcing.RealField (2 * m) nkx f → ∀ y x, y < 2 * m → projRealX (2 * m) nkx f y x = f y x) := by
  refine ⟨projRealX_real hm nkx f, fun h y x hy => ?_⟩
  by_cases hx : x = 0 ∨ x = nkx - 1
  · rw [projRealX_eq (even_two_mul m) (by omega) f hy hx, realField_neg h hy hx, Complex.conj_conj]
    ring
  · exact projRealX_other f hx

/-- With an odd number of rows it is not so: the last two rows are not averaged. -/
theorem C111_projection_odd_violated : ¬ Forcing.RealField 3 3 (projRealX 3 3 fun y _ => if y = 2 then 1 else 0) := by
  intro h
  have := (h 0 (Or.inl rfl)).2 1 (by norm_num) (by norm_num)
  norm_num [projRealX] at this

theorem normalised_eq {which : String} {roots : Option (ℝ × ℝ)} {f g : ℕ → ℕ → ℂ} (h : normalised which roots f = .ok g) :
    ∃ c : ℝ, g = fun y x => f y x * (c : ℂ) := by
  simp only [normalised, normalize2nd, bind, Except.bind, pure, Except.pure] at h
  cases hc : coefNormalization which roots with
  | error e => rw [hc] at h; simp at h
  | ok c =>
    rw [hc] at h
    simp only [scale, Except.ok.injEq] at h
    exact ⟨c, h.symm⟩

/-- Forcing `random`: whatever the random numbers and the roots, if the normalisations succeed all the values of `forcing_fft` are
computed and are half spectra of real fields, with modes inside the coarse grid only. The mask contains the Nyquist modes of the coarse
grid (C36). -/
theorem C111_random (hm : 0 < m) (h0 : 2 * m ≤ nky) (h1 : mx + 1 ≤ nkx) {noF : ℕ → ℕ → Prop}
    (hF : ∀ y x, y = m ∨ x = mx → noF y x) {fs : List (ℕ → ℕ → ℂ)}
    (hfs : ∀ f ∈ fs, ∃ rnd which roots, normalised which roots (rawRandom (2 * m) (mx + 1) noF rnd) = .ok f) :
    ∃ os, forcingRun (2 * m, mx + 1) (nky, nkx) fs (fun _ => 0) = .ok os ∧ os.length = fs.length ∧
      ∀ o ∈ os, ConjugateColumn nky o ∧ Inside m mx nky nkx o := by
  refine forcingRun_real hm h0 h1 fs _ inside_zero fun f hf => ?_
  obtain ⟨rnd, which, roots, h⟩ := hfs f hf
  obtain ⟨c, rfl⟩ := normalised_eq h
  exact (coarse_raw hm hF rnd).smul c

/-- Forcing `tcrandom`: the same at all the times of a simulation, started or restarted (from the file of the forcing). -/
theorem C111_tcrandom (hm : 0 < m) (h0 : 2 * m ≤ nky) (h1 : mx + 1 ≤ nkx) {noF : ℕ → ℕ → Prop}
    (hF : ∀ y x, y = m ∨ x = mx → noF y x) {G : Type} {r : Rng G (ℕ → ℕ → ℂ)}
    (hr : ∀ g, ∃ rnd, (r.raw g).1 = rawRandom (2 * m) (mx + 1) noF rnd) {save : Bool} {file : StateFile} {t0 period : ℝ} {g : G}
    {s : Tcr G (ℕ → ℕ → ℂ)} (hs : tcrInit r save file t0 g = .ok s) (ts : List ℝ) {fs : List (ℕ → ℕ → ℂ)}
    (hfs : ∀ f ∈ fs, ∃ raw ∈ (tcrRun r save period ts s).2, ∃ which roots, normalised which roots raw = .ok f) :
    ∃ os, forcingRun (2 * m, mx + 1) (nky, nkx) fs (fun _ => 0) = .ok os ∧ os.length = fs.length ∧
      ∀ o ∈ os, ConjugateColumn nky o ∧ Inside m mx nky nkx o := by
  have hraw : ∀ g, CoarseReal m mx (r.raw g).1 := fun g => by
    obtain ⟨rnd, e⟩ := hr g
    rw [e]; exact coarse_raw hm hF rnd
  have hi := tcr_init (P := CoarseReal m mx) hraw hs
  refine forcingRun_real hm h0 h1 fs _ inside_zero fun f hf => ?_
  obtain ⟨raw, hm', which, roots, h⟩ := hfs f hf
  obtain ⟨c, rfl⟩ := normalised_eq h
  exact (tcr_inv (P := CoarseReal m mx) (fun f g hf hg c => hf.comb hg c) hraw save period ts s hi.1 hi.2 raw hm').smul c

/-- Normalisation `particular_k`, for a particular mode which is not masked. -/
theorem C111_particular_k (hm : 0 < m) (h0 : 2 * m ≤ nky) (h1 : mx + 1 ≤ nkx) {noF : ℕ → ℕ → Prop}
    (hF : ∀ y x, y = m ∨ x = mx → noF y x) {w : ℕ → ℝ} {fs : List (ℕ → ℕ → ℂ)}
    (hfs : ∀ f ∈ fs, ∃ rnd v dt rate iy ix, ¬ noF iy ix ∧
      f = normalizePartK w (2 * m) (mx + 1) dt rate iy ix v (rawRandom (2 * m) (mx + 1) noF rnd)) :
    ∃ os, forcingRun (2 * m, mx + 1) (nky, nkx) fs (fun _ => 0) = .ok os ∧ os.length = fs.length ∧
      ∀ o ∈ os, ConjugateColumn nky o ∧ Inside m mx nky nkx o := by
  refine forcingRun_real hm h0 h1 fs _ inside_zero fun f hf => ?_
  obtain ⟨rnd, v, dt, rate, iy, ix, hn, rfl⟩ := hfs f hf
  exact coarse_partK hm (fun h => hn (hF iy ix (Or.inl h))) (fun h => hn (hF iy ix (Or.inr h))) (coarse_raw hm hF rnd).nyquist

/-- Isotropic region: the mask of the code has the Nyquist modes, so the theorems above apply, and the projection on real fields does not
create a force outside of the shell. -/
theorem C111_shell (hm : 0 < m) (h0 : 2 * m ≤ nky) (h1 : m + 1 ≤ nkx) (dky dkx kmin kmax : ℝ) (rnd : ℕ → ℕ → ℂ) (c : ℝ) :
    ∃ o, putForcing (2 * m, m + 1) (nky, nkx)
        (fun y x => rawRandom (2 * m) (m + 1) (ForcedRegion.noF2 dky dkx kmin kmax (2 * m) (m + 1)) rnd y x * (c : ℂ)) (fun _ => 0) = .ok o ∧
      ConjugateColumn nky o ∧
      ∀ (ky kx : ℤ) j0 j1, Holds nky j0 ky → HoldsHalf nkx j1 kx → o (j0, j1) ≠ 0 →
        kmin ≤ √((dkx * kx) ^ 2 + (dky * ky) ^ 2) ∧ √((dkx * kx) ^ 2 + (dky * ky) ^ 2) ≤ kmax := by
  have hf : CoarseReal m m fun y x => rawRandom (2 * m) (m + 1) (ForcedRegion.noF2 dky dkx kmin kmax (2 * m) (m + 1)) rnd y x * (c : ℂ) :=
    (coarse_raw (mx := m) hm (fun y x h => ForcedRegion.C36_nyquist_2d dky dkx kmin kmax m y x h) rnd).smul c
  obtain ⟨o, ho⟩ := putForcing_ok h0 h1 hf (fun _ => 0)
  refine ⟨o, ho, put_conj hm h0 h1 hf inside_zero ho, fun ky kx j0 j1 H0 H1 hne => ?_⟩
  have hi := put_inside h0 h1 hf inside_zero ho
  have hp := Coarse.C26_put_2d _ (2 * m, m + 1) (nky, nkx) h0 h1 _ _ _ ho
  have hy : ¬ (m : ℤ) ≤ |ky| := fun h => hne (hi ky kx j0 j1 H0 H1 (Or.inl h))
  have hx : ¬ (m : ℤ) ≤ kx := fun h => hne (hi ky kx j0 j1 H0 H1 (Or.inr h))
  have hb := abs_lt.1 (not_le.1 hy)
  obtain ⟨H1a, rfl⟩ := H1
  obtain ⟨i0, hA⟩ := ForcedRegion.axis_exists hb.1 hb.2
  have I0 : Holds (2 * m) i0 ky := by
    obtain ⟨a, b, d, e⟩ := hA
    rw [holds_iff]; omega
  have e := (hp ky j1 j0 j1 H0 ⟨H1a, rfl⟩).1 i0 j1 I0 ⟨by dsimp only; omega, rfl⟩
  rw [e] at hne
  have hn : ¬ ForcedRegion.noF2 dky dkx kmin kmax (2 * m) (m + 1) i0 j1 := fun h =>
    hne (by
      have := raw_zero (mx := m) (rnd := rnd) hm (fun y x hy => noF2_sym (mx := m) hm dky dkx kmin kmax hy x) I0.1 h
      show _ * _ = _
      rw [this, zero_mul])
  exact_mod_cast (ForcedRegion.C36_shell_2d dky dkx kmin kmax hA (by omega)).1 hn

/-- The fields of such arrays take real values at the points of the grid (the hypothesis of C110). -/
theorem C111_real_arrays {n : Fin 2 → ℕ} {S : Finset (Fin 2 → ℤ)} (hg : Grid n S) (hy : ∀ k ∈ S, 2 * |k 1| < n 1) {V : Type*}
    {o : V → ℕ × ℕ → ℂ} (ho : ∀ v, ConjugateColumn (n 1) (o v)) : RealArrays n S fun v => storedField S (n 1) (o v) := by
  have hz : ∀ v k, k ∉ S → storedField S (n 1) (o v) k = 0 := fun v k hk => if_neg hk
  exact ⟨hz, (C110_real_iff_conjugate hg _ hz).2 fun v k hk => stored_conj hg.opposite hy (ho v) k hk⟩

/-- A forced simulation with ns2d, from a real vorticity, with forces which are half spectra of real fields: the vorticity stays real. -/
theorem C111_ns2d {n : Fin 2 → ℕ} {S G : Finset (Fin 2 → ℤ)} (hg : Grid n S) (hG : S ⊆ G) (hy : ∀ k ∈ S, 2 * |k 1| < n 1) (δ : Fin 2 → ℝ)
    (beta : ℝ) (nu : Dissip.Nu) {c : Numerics (Fin 2) Unit} (hc : Proper c) {o : ℕ → ℕ × ℕ → ℂ} (ho : ∀ i, ConjugateColumn (n 1) (o i))
    {u0 : Unit → Fld (Fin 2)} (hu : RealArrays n S u0) (k : ℕ) :
    RealArrays n S (runNs2d n S G δ beta nu c (fun i _ => storedField S (n 1) (o i)) u0 k) :=
  C110_ns2d hg hG δ beta nu hc _ u0 (fun i => C111_real_arrays hg hy fun _ : Unit => ho i) hu k

/-! ### negative rates -/

/-- When the discriminant is negative the coefficient is not a real number. -/
theorem C111_complex_coefficient {a b c : ℝ} (hd : b ^ 2 - 4 * a * c < 0) {r : ℂ × ℂ} (hr : NpRootsC a b c r) {which : String} {α : ℂ}
    (h : chooseC which r = some α) : α.im ≠ 0 := by
  have hroot : (a : ℂ) * α ^ 2 + b * α + c = 0 := by
    have : α = r.1 ∨ α = r.2 := by
      simp only [chooseC] at h
      split_ifs at h <;> simp only [Option.some.injEq] at h <;> simp [h]
    rw [hr.2 α]
    rcases this with h | h <;> simp [h]
  intro h0
  have e : α = (α.re : ℂ) := Complex.ext rfl (by simp [h0])
  rw [e] at hroot
  have : a * α.re ^ 2 + b * α.re + c = 0 := by exact_mod_cast hroot
  have e2 : (2 * a * α.re + b) ^ 2 = b ^ 2 - 4 * a * c := by linear_combination 4 * a * this
  linarith [sq_nonneg (2 * a * α.re + b)]

/-- Then the force is not a real field, as soon as it has a mode `kx = 0`. -/
theorem C111_not_real {f : ℕ → ℕ → ℂ} (hf : Forcing.RealField (2 * m) (mx + 1) f) {α : ℂ} (hα : α.im ≠ 0) {y : ℕ} (h0 : 0 < y)
    (hy : y < 2 * m) (hne : f y 0 ≠ 0) : ¬ Forcing.RealField (2 * m) (mx + 1) fun y x => f y x * α := by
  intro h
  have e := (h 0 (Or.inl rfl)).2 y h0 hy
  simp only [(hf 0 (Or.inl rfl)).2 y h0 hy, map_mul] at e
  have := mul_left_cancel₀ ((map_ne_zero (starRingEnd ℂ)).2 hne) e
  exact hα (Complex.conj_eq_iff_im.1 this.symm)

/-- A forced vorticity with the modes `(kx, ky) = (0, 1)` and `(0, -1)`. -/
def exampleForce (y x : ℕ) : ℂ := if x = 0 ∧ (y = 1 ∨ y = 3) then 1 else 0

/-- With a negative `forcing_rate` (removal of energy) and a state without energy in the forced modes, the coefficient is imaginary: the
force written in `forcing_fft` is not the spectrum of a real field. -/
theorem C111_negative_rate_violated :
    Forcing.RealField 4 3 exampleForce ∧
    coefA (fun p : Fin 4 × Fin 3 => if p.2 = 0 then 1 else 2) 1 (fun p => exampleForce p.1 p.2) = 1 ∧
    coefB (fun p : Fin 4 × Fin 3 => if p.2 = 0 then 1 else 2) (fun _ => 0) (fun p => exampleForce p.1 p.2) = 0 ∧
    (∃ r, NpRootsC 1 0 (-(-1)) r) ∧
    ∀ r, NpRootsC 1 0 (-(-1)) r → ∀ which α, chooseC which r = some α → ¬ Forcing.RealField 4 3 fun y x => exampleForce y x * α := by
  have hf : Forcing.RealField 4 3 exampleForce := by
    intro x hx
    refine ⟨by simp [exampleForce], fun y h0 hy => ?_⟩
    interval_cases y <;> simp only [exampleForce] <;> split_ifs <;> simp_all
  refine ⟨hf, ?_, ?_, ⟨(Complex.I, -Complex.I), by norm_num, fun x => ?_⟩, fun r hr which α h => ?_⟩
  · simp only [coefA, sumK, Fintype.sum_prod_type, Fin.sum_univ_four, Fin.sum_univ_three, exampleForce]
    norm_num
  · simp [coefB, sumK]
  · have := Complex.I_sq
    push_cast
    linear_combination this
  · exact C111_not_real (m := 2) (mx := 2) hf (C111_complex_coefficient (by norm_num) hr h) (y := 1) (by norm_num) (by norm_num)
      (by simp [exampleForce])

/-! ### cases of the hypotheses -/

/-- A coarse grid 8 x 8 for a grid 16 x 16: the shell `2 ≤ |k| ≤ 3` with random numbers all equal to `1 + i`, normalised with the
roots 2 and -3. -/
example : ∃ f, normalised "minabs" (some (2, -3)) (rawRandom (2 * 4) (4 + 1) (ForcedRegion.noF2 1 1 2 3 (2 * 4) (4 + 1)) fun _ _ => 1 + Complex.I) = .ok f ∧
    ∃ os, forcingRun (2 * 4, 4 + 1) (16, 9) [f] (fun _ => 0) = .ok os ∧ os.length = 1 ∧
      ∀ o ∈ os, ConjugateColumn 16 o ∧ Inside 4 4 16 9 o := by
  have hc : coefNormalization "minabs" (some (2, -3)) = .ok 2 := by norm_num [coefNormalization]
  have h : normalised "minabs" (some (2, -3)) (rawRandom (2 * 4) (4 + 1) (ForcedRegion.noF2 1 1 2 3 (2 * 4) (4 + 1)) fun _ _ => 1 + Complex.I) =
      .ok fun y x => rawRandom (2 * 4) (4 + 1) (ForcedRegion.noF2 1 1 2 3 (2 * 4) (4 + 1)) (fun _ _ => 1 + Complex.I) y x * ((2 : ℝ) : ℂ) := by
    simp only [normalised, normalize2nd, hc, bind, Except.bind, pure, Except.pure, scale]
  refine ⟨_, h, ?_⟩
  refine C111_random (by norm_num) (by norm_num) (by norm_num) (fun y x h => ForcedRegion.C36_nyquist_2d 1 1 2 3 4 y x h) fun f hf => ?_
  rw [List.mem_singleton.1 hf]
  exact ⟨_, _, _, h⟩

/-- The force of this example is not zero: its value at the mode `(2, 1)`. -/
example : rawRandom (2 * 4) (4 + 1) (ForcedRegion.noF2 1 1 2 3 (2 * 4) (4 + 1)) (fun _ _ => 1 + Complex.I) 1 2 = 1 + Complex.I := by
  have hn : ¬ ForcedRegion.noF2 1 1 2 3 (2 * 4) (4 + 1) 1 2 := by
    refine (ForcedRegion.C36_shell_2d 1 1 2 3 (m := 4) (iy := 1) (a := 2) (b := 1) ⟨by norm_num, by norm_num, by norm_num, Or.inl rfl⟩ (by norm_num)).2 ?_
    constructor
    · exact Real.le_sqrt_of_sq_le (by norm_num)
    · exact Real.sqrt_le_iff.2 ⟨by norm_num, by norm_num⟩
  rw [rawRandom, projRealX_other _ (by norm_num), if_neg hn]

/-- A run of ns2d with forces of which all the stored coefficients are equal to the number of the step. -/
example (k : ℕ) : RealArrays (fun _ => 4) EndToEnd.box
    (runNs2d (fun _ => 4) EndToEnd.box EndToEnd.box (fun _ => 1) 2 ⟨1, 0, 1, 0⟩ (exampleNumerics 2 Unit)
      (fun i _ => storedField EndToEnd.box 4 fun _ => (i : ℂ)) (exampleFields 1 Unit) k) := by
  refine C111_ns2d box_grid (fun _ h => h) (fun k hk => ?_) _ 2 _ (example_proper 2 Unit) (o := fun i _ => (i : ℂ))
    (fun i ky j j' _ _ => by simp) (example_real 1 Unit) k
  have := Fintype.mem_piFinset.1 hk 1
  simp only [Finset.mem_insert, Finset.mem_singleton] at this
  rcases this with h | h | h <;> rw [h] <;> norm_num

end

end Verif.RealForce
