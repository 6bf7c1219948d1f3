import Verif.ForcedRegion.Lemmas

/-!
# C36: only modes inside the requested region are forced
-/

namespace Verif.ForcedRegion

/-! ### shells -/

/-- C36 in 2D: a mode `(a, b)` stored in the coarse array (of size `2 m` in both directions) and which
is not a Nyquist mode is forced exactly when `kmin ≤ |k| ≤ kmax`. -/
theorem C36_shell_2d (dky dkx kmin kmax : ℝ) {m iy a : ℕ} {b : ℤ} (hy : AxisIndex m iy b)
    (ha : a < m) :
    ¬ noF2 dky dkx kmin kmax (coarseSize m) (m + 1) iy a ↔
      kmin ≤ √((dkx * a) ^ 2 + (dky * b) ^ 2) ∧ √((dkx * a) ^ 2 + (dky * b) ^ 2) ≤ kmax := by
  obtain ⟨h1, h2⟩ := axis_adim hy
  have hm : 2 * m / 2 = m := by omega
  simp only [noF2, normK2, coarseSize, h1, hm, not_or, not_lt, gt_iff_lt]
  have : ¬ a = m + 1 - 1 := by omega
  tauto

/-- C36: the Nyquist modes are never forced in 2D. -/
theorem C36_nyquist_2d (dky dkx kmin kmax : ℝ) (m iy ix : ℕ) (h : iy = m ∨ ix = m) :
    noF2 dky dkx kmin kmax (coarseSize m) (m + 1) iy ix := by
  have hm : 2 * m / 2 = m := by omega
  simp only [noF2, coarseSize, hm]
  right
  rcases h with h | h
  · exact Or.inl h
  · exact Or.inr (by omega)

/-- C36 in 3D: the same for modes `(a, b, c)`. -/
theorem C36_shell_3d (dkz dky dkx kmin kmax : ℝ) {m iz iy a : ℕ} {b c : ℤ} (hz : AxisIndex m iz c)
    (hy : AxisIndex m iy b) (ha : a < m) :
    ¬ noF3 dkz dky dkx kmin kmax (coarseSize m) (coarseSize m) (m + 1) iz iy a ↔
      kmin ≤ √((dkx * a) ^ 2 + (dky * b) ^ 2 + (dkz * c) ^ 2) ∧
        √((dkx * a) ^ 2 + (dky * b) ^ 2 + (dkz * c) ^ 2) ≤ kmax := by
  obtain ⟨h1, h2⟩ := axis_adim hy
  obtain ⟨h3, h4⟩ := axis_adim hz
  have hm : 2 * m / 2 = m := by omega
  simp only [noF3, normK3, coarseSize, h1, h3, hm, not_or, not_lt, gt_iff_lt]
  have : ¬ a = m + 1 - 1 := by omega
  tauto

theorem C36_nyquist_3d (dkz dky dkx kmin kmax : ℝ) (m iz iy ix : ℕ)
    (h : iz = m ∨ iy = m ∨ ix = m) :
    noF3 dkz dky dkx kmin kmax (coarseSize m) (coarseSize m) (m + 1) iz iy ix := by
  have hm : 2 * m / 2 = m := by omega
  simp only [noF3, coarseSize, hm]
  right
  rcases h with h | h | h
  · exact Or.inl h
  · exact Or.inr (Or.inl h)
  · exact Or.inr (Or.inr (by omega))

theorem lt_of_norm {dk x r : ℝ} {m : ℕ} {a : ℤ} (hdk : 0 < dk) (h : √x ≤ r)
    (hx : (dk * a) ^ 2 ≤ x) (hm : r < dk * m) : -(m : ℤ) < a ∧ a < m := by
  have h0 : 0 ≤ x := le_trans (sq_nonneg _) hx
  have h1 : |dk * a| ≤ √x := Real.abs_le_sqrt hx
  rw [abs_mul, abs_of_pos hdk] at h1
  have h2 : (|a| : ℝ) < m := by
    have : dk * |(a : ℝ)| < dk * m := by linarith
    exact lt_of_mul_lt_mul_left this hdk.le
  have h3 : |a| < (m : ℤ) := by exact_mod_cast h2
  exact abs_lt.1 h3

/-- C36: nothing of the shell is lost by the coarse arrays, in 2D, if the coarse grid reaches `kmax`
in both directions: every mode with `kmin ≤ |k| ≤ kmax` (of a grid of any size) is stored and forced.
For a square domain the condition is `nkmax_forcing < fft_size / 2` (next theorem); for another domain
it can fail (`C36_anisotropic_domain_violated`). -/
theorem C36_whole_shell_2d_partial {dky dkx kmin kmax : ℝ} (hdy : 0 < dky) (hdx : 0 < dkx) {m : ℕ}
    (hmx : kmax < dkx * m) (hmy : kmax < dky * m) (a : ℕ) (b : ℤ)
    (h : kmin ≤ √((dkx * a) ^ 2 + (dky * b) ^ 2) ∧ √((dkx * a) ^ 2 + (dky * b) ^ 2) ≤ kmax) :
    ∃ iy, AxisIndex m iy b ∧ a < m ∧ ¬ noF2 dky dkx kmin kmax (coarseSize m) (m + 1) iy a := by
  obtain ⟨hb1, hb2⟩ := lt_of_norm (a := b) hdy h.2 (by nlinarith [sq_nonneg (dkx * a)]) hmy
  obtain ⟨-, ha⟩ := lt_of_norm (a := (a : ℤ)) hdx h.2
    (by push_cast; nlinarith [sq_nonneg (dky * b)]) hmx
  obtain ⟨iy, hiy⟩ := axis_exists hb1 hb2
  have ha' : a < m := by omega
  exact ⟨iy, hiy, ha', (C36_shell_2d dky dkx kmin kmax hiy ha').2 h⟩

/-- C36: for a square domain and `nkmax_forcing < fft_size / 2`, exactly the shell is forced. -/
theorem C36_square_domain {dk nkmin nkmax : ℝ} (hdk : 0 < dk) {m : ℕ} (hm : nkmax < m) (a : ℕ)
    (b : ℤ) :
    (∃ iy, AxisIndex m iy b ∧ a < m ∧
      ¬ noF2 dk dk (kForcing [dk, dk] nkmin) (kForcing [dk, dk] nkmax) (coarseSize m) (m + 1) iy a) ↔
    (dk * nkmin ≤ dk * √((a : ℝ) ^ 2 + (b : ℝ) ^ 2) ∧
      dk * √((a : ℝ) ^ 2 + (b : ℝ) ^ 2) ≤ dk * nkmax) := by
  have hk : ∀ x, kForcing [dk, dk] x = dk * x := fun x => by simp [kForcing, hdk.le]
  have hn : √((dk * a) ^ 2 + (dk * b) ^ 2) = dk * √((a : ℝ) ^ 2 + (b : ℝ) ^ 2) := by
    rw [mul_pow, mul_pow, ← mul_add, Real.sqrt_mul (by positivity), Real.sqrt_sq hdk.le]
  rw [hk, hk, ← hn]
  constructor
  · rintro ⟨iy, hiy, ha, h⟩
    exact (C36_shell_2d dk dk _ _ hiy ha).1 h
  · intro h
    have := mul_lt_mul_of_pos_left hm hdk
    exact C36_whole_shell_2d_partial hdk hdk this this a b h

/-- The same in 3D. -/
theorem C36_whole_shell_3d_partial {dkz dky dkx kmin kmax : ℝ} (hdz : 0 < dkz) (hdy : 0 < dky)
    (hdx : 0 < dkx) {m : ℕ} (hmx : kmax < dkx * m) (hmy : kmax < dky * m) (hmz : kmax < dkz * m)
    (a : ℕ) (b c : ℤ)
    (h : kmin ≤ √((dkx * a) ^ 2 + (dky * b) ^ 2 + (dkz * c) ^ 2) ∧
      √((dkx * a) ^ 2 + (dky * b) ^ 2 + (dkz * c) ^ 2) ≤ kmax) :
    ∃ iz iy, AxisIndex m iz c ∧ AxisIndex m iy b ∧ a < m ∧
      ¬ noF3 dkz dky dkx kmin kmax (coarseSize m) (coarseSize m) (m + 1) iz iy a := by
  have s1 := sq_nonneg (dkx * a)
  have s2 := sq_nonneg (dky * (b : ℝ))
  have s3 := sq_nonneg (dkz * (c : ℝ))
  obtain ⟨hb1, hb2⟩ := lt_of_norm (a := b) hdy h.2 (by linarith) hmy
  obtain ⟨hc1, hc2⟩ := lt_of_norm (a := c) hdz h.2 (by linarith) hmz
  obtain ⟨-, ha⟩ := lt_of_norm (a := (a : ℤ)) hdx h.2 (by push_cast; linarith) hmx
  obtain ⟨iy, hiy⟩ := axis_exists hb1 hb2
  obtain ⟨iz, hiz⟩ := axis_exists hc1 hc2
  have ha' : a < m := by omega
  exact ⟨iz, iy, hiz, hiy, ha', (C36_shell_3d dkz dky dkx kmin kmax hiz hiy ha').2 h⟩

/-- C36: refusal of an empty range of wavenumbers. -/
theorem C36_range_checked (nkmin nkmax : ℝ) :
    checkNk nkmin nkmax = .ok () ↔ nkmin ≤ nkmax := by
  simp only [checkNk]
  split
  · rename_i h; simp [h]
  · rename_i h; simp [not_lt.1 h]

/-- A case of the hypotheses: the mode (3, -4) of a coarse grid 16 x 16. -/
example : AxisIndex 8 12 (-4) ∧ (3 : ℕ) < 8 ∧
    (4 ≤ √(((1 : ℝ) * (3 : ℕ)) ^ 2 + (1 * ((-4 : ℤ) : ℝ)) ^ 2) ∧
      √(((1 : ℝ) * (3 : ℕ)) ^ 2 + (1 * ((-4 : ℤ) : ℝ)) ^ 2) ≤ 6) := by
  have : √(((1 : ℝ) * (3 : ℕ)) ^ 2 + (1 * ((-4 : ℤ) : ℝ)) ^ 2) = 5 := by
    rw [show ((1 : ℝ) * (3 : ℕ)) ^ 2 + (1 * ((-4 : ℤ) : ℝ)) ^ 2 = 5 ^ 2 by push_cast; norm_num]
    exact Real.sqrt_sq (by norm_num)
  rw [this]
  refine ⟨?_, by norm_num, by norm_num, by norm_num⟩
  simp only [AxisIndex]; omega

/-- C36 (finding): in a domain which is not square the coarse grid has the same number of modes in
each direction and cuts the shell: with `Lx = 2 Ly`, `nkmax_forcing = 4` and `fft_size = 8`, the mode
`(6, 0)`, of norm 3, between `kmin = 2` and `kmax = 4`, is in no coarse array. -/
theorem C36_anisotropic_domain_violated :
    kForcing [1, 1 / 2] 4 = 4 ∧ kForcing [1, 1 / 2] 2 = 2 ∧
      ((2 : ℝ) ≤ √((1 / 2 * ((6 : ℕ) : ℝ)) ^ 2 + (1 * ((0 : ℤ) : ℝ)) ^ 2) ∧
        √((1 / 2 * ((6 : ℕ) : ℝ)) ^ 2 + (1 * ((0 : ℤ) : ℝ)) ^ 2) ≤ 4) ∧
      ¬ ∃ iy, AxisIndex 4 iy 0 ∧ 6 < 4 ∧ ¬ noF2 1 (1 / 2) 2 4 (coarseSize 4) (4 + 1) iy 6 := by
  have : √((1 / 2 * ((6 : ℕ) : ℝ)) ^ 2 + (1 * ((0 : ℤ) : ℝ)) ^ 2) = 3 := by
    rw [show (1 / 2 * ((6 : ℕ) : ℝ)) ^ 2 + (1 * ((0 : ℤ) : ℝ)) ^ 2 = 3 ^ 2 by push_cast; norm_num]
    exact Real.sqrt_sq (by norm_num)
  rw [this]
  refine ⟨by simp only [kForcing, List.foldr]; norm_num,
    by simp only [kForcing, List.foldr]; norm_num, by norm_num, ?_⟩
  rintro ⟨_, _, h, _⟩
  omega

/-- C36 (finding): when `fftw_grid_size(nkmax_forcing) = nkmax_forcing`, the modes of norm exactly
`kmax` on the axes are Nyquist modes of the coarse grid and are not forced, although modes of norm
`kmax` in other directions are (for example `(3, 4)` and `(5, 0)` with `nkmax_forcing = 5`). -/
theorem C36_kmax_violated :
    (∃ iy, AxisIndex 5 iy 4 ∧ ¬ noF2 1 1 2 5 (coarseSize 5) (5 + 1) iy 3) ∧
      (∀ iy, noF2 1 1 2 5 (coarseSize 5) (5 + 1) iy 5) ∧
      √((1 * ((3 : ℕ) : ℝ)) ^ 2 + (1 * ((4 : ℤ) : ℝ)) ^ 2) = 5 ∧
      √((1 * ((5 : ℕ) : ℝ)) ^ 2 + (1 * ((0 : ℤ) : ℝ)) ^ 2) = 5 := by
  have e1 : √((1 * ((3 : ℕ) : ℝ)) ^ 2 + (1 * ((4 : ℤ) : ℝ)) ^ 2) = 5 := by
    rw [show (1 * ((3 : ℕ) : ℝ)) ^ 2 + (1 * ((4 : ℤ) : ℝ)) ^ 2 = 5 ^ 2 by push_cast; norm_num]
    exact Real.sqrt_sq (by norm_num)
  have e2 : √((1 * ((5 : ℕ) : ℝ)) ^ 2 + (1 * ((0 : ℤ) : ℝ)) ^ 2) = 5 := by
    rw [show (1 * ((5 : ℕ) : ℝ)) ^ 2 + (1 * ((0 : ℤ) : ℝ)) ^ 2 = 5 ^ 2 by push_cast; norm_num]
    exact Real.sqrt_sq (by norm_num)
  refine ⟨?_, fun iy => C36_nyquist_2d 1 1 2 5 5 iy 5 (Or.inr rfl), e1, e2⟩
  obtain ⟨iy, hiy⟩ := axis_exists (m := 5) (a := 4) (by norm_num) (by norm_num)
  refine ⟨iy, hiy, (C36_shell_2d 1 1 2 5 hiy (by norm_num)).2 ?_⟩
  rw [e1]; norm_num

/-- C36 (finding): in 1D the Nyquist mode of the coarse array is not excluded. -/
theorem C36_nyquist_1d_violated {dk : ℝ} (hdk : 0 ≤ dk) (m : ℕ) :
    ¬ noF1 dk 0 (dk * m) m := by
  have : 0 ≤ dk * m := by positivity
  simp [noF1, this]

/-! ### anisotropic forcing -/

/-- C36 for the anisotropic forcing in 2D: a mode which is not a Nyquist mode is forced exactly when
it is in the box (`delta_angle` None) or in the sector. `angle` is measured from the vertical. -/
theorem C36_anisotropic_2d (dky dkx angle kmin kmax : ℝ) (neg : Bool) {my nkx iy a : ℕ} {b : ℤ}
    (hy : AxisIndex my iy b) (ha : a < nkx) :
    (¬ anisoNoF2 dky dkx angle kmin kmax none neg (2 * my) (nkx + 1) iy a ↔
      InBox (kmin * Real.sin angle) (kmax * Real.sin angle) (kmin * Real.cos angle)
        (kmax * Real.cos angle) neg (dkx * a) (dky * b)) ∧
    ∀ delta, ¬ anisoNoF2 dky dkx angle kmin kmax (some delta) neg (2 * my) (nkx + 1) iy a ↔
      InSector kmin kmax angle delta neg √((dkx * a) ^ 2 + (dky * b) ^ 2)
        (Real.arccos (dky * b / noz √((dkx * a) ^ 2 + (dky * b) ^ 2))) := by
  obtain ⟨h1, h2⟩ := axis_adim hy
  have hm : 2 * my / 2 = my := by omega
  have h3 : ¬ a = nkx + 1 - 1 := by omega
  refine ⟨?_, fun delta => ?_⟩
  · simp only [anisoNoF2, regionNoF, h1, hm, not_or, boxNoF_iff, mkBox, mul_comm (Real.sin angle),
      mul_comm (Real.cos angle)]
    tauto
  · simp only [anisoNoF2, regionNoF, h1, hm, not_or, sectorNoF_iff]
    tauto

/-- C36: the Nyquist modes are never forced in 2D. -/
theorem C36_anisotropic_nyquist_2d (dky dkx angle kmin kmax : ℝ) (delta : Option ℝ) (neg : Bool)
    (my mx iy ix : ℕ) (h : iy = my ∨ ix = mx) :
    anisoNoF2 dky dkx angle kmin kmax delta neg (2 * my) (mx + 1) iy ix := by
  have hm : 2 * my / 2 = my := by omega
  simp only [anisoNoF2, hm]
  right
  rcases h with h | h
  · exact Or.inl h
  · exact Or.inr (by omega)

theorem lt_nbModes {k dk x : ℝ} {m : ℕ} {a : ℤ} (hdk : 0 < dk) (hm : nbModes k dk ≤ m)
    (hx : |dk * a| ≤ x) (hk : x ≤ k) : -(m : ℤ) < a ∧ a < m := by
  have h1 : k / dk < nbModes k dk := by
    simp only [nbModes]; push_cast; exact Nat.lt_floor_add_one _
  have h2 : (nbModes k dk : ℝ) ≤ m := by exact_mod_cast hm
  have h3 : k < dk * m := by
    have := lt_of_lt_of_le h1 h2
    rw [div_lt_iff₀ hdk] at this
    linarith
  rw [abs_mul, abs_of_pos hdk] at hx
  have h4 : (|a| : ℝ) < m := lt_of_mul_lt_mul_left (by linarith : dk * |(a : ℝ)| < dk * m) hdk.le
  have h5 : |a| < (m : ℤ) := by exact_mod_cast h4
  exact abs_lt.1 h5

/-- C36: nothing of the box is lost by the coarse grid in 2D, for `0 ≤ angle ≤ 90°`: every mode of the
box is stored and forced. -/
theorem C36_whole_box_2d {dky dkx angle kmin kmax : ℝ} (hdy : 0 < dky) (hdx : 0 < dkx)
    (h0 : 0 ≤ angle) (h90 : angle ≤ Real.pi / 2) (hk0 : 0 ≤ kmin) (neg : Bool) {mx my : ℕ}
    (hmx : nbModes (khmaxCoarse angle kmax none) dkx ≤ mx)
    (hmy : nbModes (kvmaxCoarse angle kmax none) dky ≤ my) (a : ℕ) (b : ℤ)
    (h : InBox (kmin * Real.sin angle) (kmax * Real.sin angle) (kmin * Real.cos angle)
        (kmax * Real.cos angle) neg (dkx * a) (dky * b)) :
    ∃ iy, AxisIndex my iy b ∧ a < mx ∧
      ¬ anisoNoF2 dky dkx angle kmin kmax none neg (2 * my) (mx + 1) iy a := by
  have hsin : 0 ≤ Real.sin angle := Real.sin_nonneg_of_nonneg_of_le_pi h0 (by linarith [Real.pi_pos])
  have hcos : 0 ≤ Real.cos angle := Real.cos_nonneg_of_neg_pi_div_two_le_of_le (by linarith) h90
  have hv0 : 0 ≤ kmin * Real.cos angle := by positivity
  have hbv : |dky * (b : ℝ)| ≤ kmax * Real.cos angle := by
    rcases h.2 with ⟨h1, h2⟩ | ⟨-, h1, h2⟩
    · rw [abs_le]; constructor <;> linarith
    · rw [abs_le]; constructor <;> linarith
  have hah : |dkx * ((a : ℤ) : ℝ)| ≤ kmax * Real.sin angle := by
    rw [abs_of_nonneg (by push_cast; positivity)]; push_cast; exact h.1.2
  obtain ⟨hb1, hb2⟩ := lt_nbModes hdy hmy hbv (by simp only [kvmaxCoarse]; linarith)
  obtain ⟨-, ha⟩ := lt_nbModes hdx hmx hah (by simp only [khmaxCoarse]; linarith)
  have ha' : a < mx := by omega
  obtain ⟨iy, hiy⟩ := axis_exists hb1 hb2
  exact ⟨iy, hiy, ha', (C36_anisotropic_2d dky dkx angle kmin kmax neg hiy ha').1.2 h⟩

/-- C36: nothing of the sector is lost by the coarse grid in 2D if the sector does not cross the
horizontal or the vertical. (Otherwise see `C36_sector_violated`.) -/
theorem C36_whole_sector_2d_partial {dky dkx angle delta kmin kmax : ℝ} (hdy : 0 < dky)
    (hdx : 0 < dkx) (h0 : 0 ≤ angle - delta / 2)
    (h90 : angle + delta / 2 ≤ Real.pi / 2)
    (hk0 : 0 < kmin) (neg : Bool) {mx my : ℕ}
    (hmx : nbModes (khmaxCoarse angle kmax (some delta)) dkx ≤ mx)
    (hmy : nbModes (kvmaxCoarse angle kmax (some delta)) dky ≤ my) (a : ℕ) (b : ℤ)
    (h : InSector kmin kmax angle delta neg √((dkx * a) ^ 2 + (dky * b) ^ 2)
        (Real.arccos (dky * b / noz √((dkx * a) ^ 2 + (dky * b) ^ 2)))) :
    ∃ iy, AxisIndex my iy b ∧ a < mx ∧
      ¬ anisoNoF2 dky dkx angle kmin kmax (some delta) neg (2 * my) (mx + 1) iy a := by
  have hpi := Real.pi_pos
  have hkne : √((dkx * a) ^ 2 + (dky * b) ^ 2) ≠ 0 := by have := h.1.1; linarith
  have hkpos : 0 < √((dkx * a) ^ 2 + (dky * b) ^ 2) := lt_of_lt_of_le hk0 h.1.1
  obtain ⟨p1, p2⟩ := polar (kh := dkx * a) (kv := dky * b) (by positivity) hkne
  set k := √((dkx * a) ^ 2 + (dky * b) ^ 2) with hkdef
  set theta := Real.arccos (dky * b / noz k) with hth
  have ht0 : 0 ≤ theta := Real.arccos_nonneg _
  have ht1 : theta ≤ Real.pi := Real.arccos_le_pi _
  -- reduction to one of the two mirrored angles
  obtain ⟨phi, hphi0, hphi1, hc, hs⟩ : ∃ phi, angle - delta / 2 ≤ phi ∧ phi ≤ angle + delta / 2 ∧
      |Real.cos theta| = Real.cos phi ∧ Real.sin theta = Real.sin phi := by
    rcases h.2 with h | ⟨-, h⟩
    · rw [abs_le] at h
      have hc0 : 0 ≤ Real.cos theta :=
        Real.cos_nonneg_of_neg_pi_div_two_le_of_le (by linarith) (by linarith)
      exact ⟨theta, by linarith, by linarith, abs_of_nonneg hc0, rfl⟩
    · rw [abs_le] at h
      have hc0 : 0 ≤ Real.cos (Real.pi - theta) :=
        Real.cos_nonneg_of_neg_pi_div_two_le_of_le (by linarith) (by linarith)
      refine ⟨Real.pi - theta, by linarith, by linarith, ?_, (Real.sin_pi_sub _).symm⟩
      rw [Real.cos_pi_sub] at hc0 ⊢
      exact abs_of_nonpos (by linarith)
  have hsin : Real.sin phi ≤ Real.sin (angle + 0.5 * delta) :=
    Real.sin_le_sin_of_le_of_le_pi_div_two (by linarith) (by linarith) (by linarith)
  have hcos : Real.cos phi ≤ Real.cos (angle - 0.5 * delta) :=
    Real.cos_le_cos_of_nonneg_of_le_pi (by linarith) (by linarith) (by linarith)
  have hsphi : 0 ≤ Real.sin phi :=
    Real.sin_nonneg_of_nonneg_of_le_pi (by linarith) (by linarith)
  have hcphi : 0 ≤ Real.cos phi := hc ▸ abs_nonneg _
  have hbv : |dky * (b : ℝ)| ≤ k * Real.cos phi := by
    rw [← hc]; nth_rewrite 1 [p1]; rw [abs_mul, abs_of_pos hkpos]
  have hah : |dkx * ((a : ℤ) : ℝ)| ≤ k * Real.sin phi := by
    rw [abs_of_nonneg (by push_cast; positivity), ← hs]; push_cast; exact p2.le
  have hkmax : 0 ≤ kmax := hkpos.le.trans h.1.2
  have e1 : k * Real.cos phi ≤ kvmaxCoarse angle kmax (some delta) := by
    simp only [kvmaxCoarse]
    calc k * Real.cos phi ≤ kmax * Real.cos phi := mul_le_mul_of_nonneg_right h.1.2 hcphi
      _ ≤ kmax * Real.cos (angle - 0.5 * delta) := mul_le_mul_of_nonneg_left hcos hkmax
      _ = _ := mul_comm _ _
  have e2 : k * Real.sin phi ≤ khmaxCoarse angle kmax (some delta) := by
    simp only [khmaxCoarse]
    calc k * Real.sin phi ≤ kmax * Real.sin phi := mul_le_mul_of_nonneg_right h.1.2 hsphi
      _ ≤ kmax * Real.sin (angle + 0.5 * delta) := mul_le_mul_of_nonneg_left hsin hkmax
      _ = _ := mul_comm _ _
  obtain ⟨hb1, hb2⟩ := lt_nbModes hdy hmy hbv e1
  obtain ⟨-, ha⟩ := lt_nbModes hdx hmx hah e2
  have ha' : a < mx := by omega
  obtain ⟨iy, hiy⟩ := axis_exists hb1 hb2
  exact ⟨iy, hiy, ha', ((C36_anisotropic_2d dky dkx angle kmin kmax neg hiy ha').2 delta).2 h⟩

/-- C36 (finding): with a sector around the horizontal (angle 90°, delta_angle 60°) and
`nkmax_forcing = 10`, the coarse grid may have only `2 * 9` modes in the x direction, and the mode
`(10, 0)` of the sector is not stored. -/
theorem C36_sector_violated :
    nbModes (khmaxCoarse (Real.pi / 2) 10 (some (Real.pi / 3))) 1 = 9 ∧
      InSector 5 10 (Real.pi / 2) (Real.pi / 3) false √((1 * ((10 : ℕ) : ℝ)) ^ 2 + (1 * (0 : ℝ)) ^ 2)
        (Real.arccos (1 * (0 : ℝ) / noz √((1 * ((10 : ℕ) : ℝ)) ^ 2 + (1 * (0 : ℝ)) ^ 2))) ∧
      ¬ (10 < 9) := by
  refine ⟨?_, ?_, by omega⟩
  · have e : Real.sin (Real.pi / 2 + 0.5 * (Real.pi / 3)) = √3 / 2 := by
      rw [show Real.pi / 2 + 0.5 * (Real.pi / 3) = Real.pi / 6 + Real.pi / 2 by ring,
        Real.sin_add_pi_div_two, Real.cos_pi_div_six]
    simp only [khmaxCoarse, nbModes, e, div_one]
    have h3 : √(3 : ℝ) ^ 2 = 3 := Real.sq_sqrt (by norm_num)
    have hp : 0 ≤ √(3 : ℝ) := Real.sqrt_nonneg _
    have : ⌊√3 / 2 * 10⌋₊ = 8 := by
      rw [Nat.floor_eq_iff (by positivity)]
      constructor
      · push_cast; nlinarith
      · push_cast; nlinarith
    rw [this]
  · have e : √((1 * ((10 : ℕ) : ℝ)) ^ 2 + (1 * (0 : ℝ)) ^ 2) = 10 := by
      rw [show (1 * ((10 : ℕ) : ℝ)) ^ 2 + (1 * (0 : ℝ)) ^ 2 = 10 ^ 2 by push_cast; norm_num]
      exact Real.sqrt_sq (by norm_num)
    rw [e]
    have hpi := Real.pi_pos
    refine ⟨by norm_num, Or.inl ?_⟩
    rw [mul_zero, zero_div, Real.arccos_zero, sub_self, abs_zero]
    positivity

/-- C36 for the anisotropic forcing in 3D: the same regions, but the modes excluded by their indices
are the vertical Nyquist plane and the plane `ky = -deltaky` (the last row), so the statement holds
for the other modes only. -/
theorem C36_anisotropic_3d_partial (dkz dky dkx angle kmin kmax : ℝ) (neg : Bool)
    {mz my iz iy a : ℕ} {b c : ℤ} (hz : AxisIndex mz iz c) (hy : AxisIndex my iy b) (hb : b ≠ -1) :
    (¬ anisoNoF3 dkz dky dkx angle kmin kmax none neg (2 * mz) (2 * my) iz iy a ↔
      InBox (kmin * Real.sin angle) (kmax * Real.sin angle) (kmin * Real.cos angle)
        (kmax * Real.cos angle) neg √((dkx * a) ^ 2 + (dky * b) ^ 2) (dkz * c)) ∧
    ∀ delta, ¬ anisoNoF3 dkz dky dkx angle kmin kmax (some delta) neg (2 * mz) (2 * my) iz iy a ↔
      InSector kmin kmax angle delta neg
        √((√((dkx * a) ^ 2 + (dky * b) ^ 2)) ^ 2 + (dkz * c) ^ 2)
        (Real.arccos (dkz * c /
          noz √((√((dkx * a) ^ 2 + (dky * b) ^ 2)) ^ 2 + (dkz * c) ^ 2))) := by
  obtain ⟨h1, h2⟩ := axis_adim hy
  obtain ⟨h3, h4⟩ := axis_adim hz
  have hm : 2 * mz / 2 = mz := by omega
  have h5 : ¬ iy = 2 * my - 1 := by
    obtain ⟨g1, g2, g3, g4⟩ := hy
    omega
  refine ⟨?_, fun delta => ?_⟩
  · simp only [anisoNoF3, regionNoF, h1, h3, hm, not_or, boxNoF_iff, mkBox,
      mul_comm (Real.sin angle), mul_comm (Real.cos angle)]
    tauto
  · simp only [anisoNoF3, regionNoF, h1, h3, hm, not_or, sectorNoF_iff]
    tauto

/-- C36 (finding): in 3D no mode with `ky = -deltaky` is forced, whatever the region, whereas the
opposite modes are. -/
theorem C36_anisotropic_3d_violated (dkz dky dkx angle kmin kmax : ℝ) (delta : Option ℝ) (neg : Bool)
    {mz my iz iy : ℕ} (hy : AxisIndex my iy (-1)) (a : ℕ) :
    anisoNoF3 dkz dky dkx angle kmin kmax delta neg (2 * mz) (2 * my) iz iy a := by
  right; right
  obtain ⟨g1, g2, g3, g4⟩ := hy
  omega

/-- The region of the previous finding can contain such modes: `(1, -1, 1)` is in the box of angle
45° between 1 and 3 and is not forced; `(1, 1, 1)` is forced. -/
example : InBox (1 * Real.sin (Real.pi / 4)) (3 * Real.sin (Real.pi / 4))
      (1 * Real.cos (Real.pi / 4)) (3 * Real.cos (Real.pi / 4)) false
      √((1 * ((1 : ℕ) : ℝ)) ^ 2 + (1 * ((-1 : ℤ) : ℝ)) ^ 2) (1 * ((1 : ℤ) : ℝ)) ∧
    AxisIndex 4 7 (-1) ∧ AxisIndex 4 1 1 := by
  have h2 : √(2 : ℝ) ^ 2 = 2 := Real.sq_sqrt (by norm_num)
  have hp : 0 < √(2 : ℝ) := by positivity
  have e : √((1 * ((1 : ℕ) : ℝ)) ^ 2 + (1 * ((-1 : ℤ) : ℝ)) ^ 2) = √2 := by
    congr 1; push_cast; norm_num
  rw [e, Real.sin_pi_div_four, Real.cos_pi_div_four]
  refine ⟨⟨⟨by nlinarith, by nlinarith⟩, Or.inl ⟨?_, ?_⟩⟩, ?_, ?_⟩
  · push_cast; nlinarith
  · push_cast; nlinarith
  · simp only [AxisIndex]; omega
  · simp only [AxisIndex]; omega

/-- C36 (finding): the documentation of `angle` says "angle between the wavevector and the
horizontal"; with a zero angle the horizontal wavevectors are not forced and the vertical ones
are. -/
theorem C36_angle_violated {kmin kmax k : ℝ} (h0 : 0 < kmin) (h : kmin ≤ k) (h' : k ≤ kmax) :
    regionNoF 0 kmin kmax none false k 0 ∧ ¬ regionNoF 0 kmin kmax none false 0 k := by
  constructor
  · simp only [regionNoF, boxNoF, mkBox, Real.sin_zero, Real.cos_zero]
    left; left; simp; linarith
  · simp only [regionNoF, boxNoF_iff, mkBox, Real.sin_zero, Real.cos_zero, InBox]
    refine ⟨by simp, Or.inl ⟨by linarith, by linarith⟩⟩

end Verif.ForcedRegion
