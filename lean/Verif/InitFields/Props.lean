import Verif.InitFields.Lemmas
import Verif.Vectors.Props

/-!
# C64: the initial fields are the documented ones

(`C64_file_*` and the other types of initial fields are in `PropsOther.lean`.)
-/

namespace Verif.InitFields

open Verif.Fourier Verif.Energy Verif.Vectors Verif.Forcing Finset

set_option linter.unusedSectionVars false

noncomputable section

/-! ### The cutoff scale -/

/-- C64: the filter of the noise depends on the wavenumber `K` through `K lambda0 / (2π)` only; it decreases, is 1/2
at the cutoff wavenumber `2π / length` and decreases at least as `exp(-4π (K / k0 - 1))`. -/
theorem C64_cutoff {lambda0 : ℝ} (h : 0 < lambda0) :
    (∀ K, 0 < filter lambda0 K ∧ filter lambda0 K < 1) ∧ (∀ K K', K < K' → filter lambda0 K' < filter lambda0 K) ∧
    filter lambda0 (2 * Real.pi / lambda0) = 1 / 2 ∧
    ∀ K, filter lambda0 K ≤ Real.exp (-(4 * Real.pi * (K / (2 * Real.pi / lambda0) - 1))) := by
  have hp := Real.pi_pos
  refine ⟨fun K => ⟨filter_pos h K, ?_⟩, ?_, ?_, ?_⟩
  · rw [filter_eq h, div_lt_one (by positivity)]
    linarith [Real.exp_pos (4 * Real.pi * (K * lambda0 / (2 * Real.pi) - 1))]
  · intro K K' hK
    rw [filter_eq h, filter_eq h]
    refine one_div_lt_one_div_of_lt (by positivity) ?_
    have : K * lambda0 / (2 * Real.pi) < K' * lambda0 / (2 * Real.pi) :=
      div_lt_div_of_pos_right (mul_lt_mul_of_pos_right hK h) (by positivity)
    have := Real.exp_lt_exp.mpr (show 4 * Real.pi * (K * lambda0 / (2 * Real.pi) - 1)
      < 4 * Real.pi * (K' * lambda0 / (2 * Real.pi) - 1) by nlinarith)
    linarith
  · rw [filter_eq h]
    have : 4 * Real.pi * (2 * Real.pi / lambda0 * lambda0 / (2 * Real.pi) - 1) = 0 := by field_simp; ring
    rw [this, Real.exp_zero]; norm_num
  · intro K
    rw [filter_eq h, Real.exp_neg, ← one_div]
    have e : K / (2 * Real.pi / lambda0) = K * lambda0 / (2 * Real.pi) := by field_simp
    rw [e]
    exact one_div_le_one_div_of_le (Real.exp_pos _) (by linarith)

/-- C64: a given non-zero `length` is used by all the solvers; by default (0 in ns2d and plate2d, None in ns3d) the
cutoff scale is a quarter of a length of the domain. -/
theorem C64_length (l lx ly lz : ℝ) (hl : l ≠ 0) :
    lambdaNs2d (some l) lx ly = .ok l ∧ lambdaPlate (some l) lx = .ok l ∧ lambdaNs3dVelocity (some l) lx = .ok l ∧
    lambdaNs3dOther (some l) lx ly lz = .ok l ∧ lambdaNs2d (some 0) lx ly = .ok (min lx ly / 4) ∧
    lambdaPlate (some 0) lx = .ok (lx / 4) ∧ lambdaNs3dVelocity none lx = .ok (lx / 4) := by
  simp [lambdaNs2d, lambdaPlate, lambdaNs3dVelocity, lambdaNs3dOther, hl]

/-- C64, finding: with the default `length` the velocity and the buoyancy of ns3d do not have the same cutoff scale if
`Lz` or `Ly` is smaller than `Lx`; the documented default of ns3d (0) raises ZeroDivisionError, and None is not
accepted by ns2d. -/
theorem C64_length_violated {lx ly lz : ℝ} (h : lz < lx) :
    (lambdaNs3dVelocity none lx ≠ lambdaNs3dOther none lx ly lz) ∧
    lambdaNs3dVelocity (some 0) lx = .error "ZeroDivisionError" ∧ lambdaNs2d none lx ly = .error "TypeError" := by
  refine ⟨?_, by simp [lambdaNs3dVelocity], rfl⟩
  intro he
  simp only [lambdaNs3dVelocity, lambdaNs3dOther, Except.ok.injEq] at he
  have : min (min lx ly) lz ≤ lz := min_le_right _ _
  linarith

/-! ### Noise -/

section ns2d
variable {n : Fin 2 → ℕ} {S : Finset (Fin 2 → ℤ)} {δ : Fin 2 → ℝ}

/-- C64, noise of ns2d, for every draw which is not identically zero: the maximum over the grid of the modulus of the
velocity of the state is `velo_max`, and the velocity of the state is the drawn one up to this normalisation. -/
theorem C64_noise_ns2d (hn : ∀ d, 0 < n d) (hδ : ∀ d, δ d ≠ 0) (hD : Distinct n S) (hS : ∀ k ∈ S, -k ∈ S)
    (lambda0 : ℝ) {veloMax : ℝ} (hv : 0 ≤ veloMax) (rx ry : Fld (Fin 2))
    (hr : ∃ j, drawn2 n S δ lambda0 rx ry j ≠ (0, 0)) :
    maxNorm2 (stateVel2 n S δ (noiseRot n S δ lambda0 veloMax rx ry)) = veloMax ∧
    ∃ c, 0 ≤ c ∧ ∀ j, stateVel2 n S δ (noiseRot n S δ lambda0 veloMax rx ry) j
      = (c * (drawn2 n S δ lambda0 rx ry j).1, c * (drawn2 n S δ lambda0 rx ry j).2) := by
  obtain ⟨j, hj⟩ := hr
  have hM := maxNorm2_pos hj
  rw [noise_grid hn hδ hD hS]
  have hc : 0 ≤ veloMax / maxNorm2 (drawn2 n S δ lambda0 rx ry) := by positivity
  refine ⟨?_, _, hc, fun _ => rfl⟩
  rw [maxNorm2_smul _ hc, div_mul_cancel₀ _ hM.ne']

/-- C64, modes of the noise of ns2d: no mean velocity, and for a draw of modulus at most 1 the amplitude of each mode
is bounded by the filter, up to the normalisation. -/
theorem C64_noise_ns2d_modes (hn : ∀ d, 0 < n d) (hδ : ∀ d, δ d ≠ 0) (hD : Distinct n S) (hS : ∀ k ∈ S, -k ∈ S)
    {lambda0 : ℝ} (hl : 0 < lambda0) {veloMax : ℝ} (hv : 0 ≤ veloMax) (rx ry : Fld (Fin 2))
    (h1 : ∀ k, ‖rx k‖ ^ 2 + ‖ry k‖ ^ 2 ≤ 1) {k : Fin 2 → ℤ} (hk : k ∈ S) :
    let rot := noiseRot n S δ lambda0 veloMax rx ry
    (k = 0 → ux2 δ rot k = 0 ∧ uy2 δ rot k = 0) ∧
    ‖ux2 δ rot k‖ ≤ veloMax / maxNorm2 (drawn2 n S δ lambda0 rx ry) * filter lambda0 (knorm2 δ k) ∧
    ‖uy2 δ rot k‖ ≤ veloMax / maxNorm2 (drawn2 n S δ lambda0 rx ry) * filter lambda0 (knorm2 δ k) := by
  intro rot
  have hM0 : 0 ≤ maxNorm2 (drawn2 n S δ lambda0 rx ry) := Real.iSup_nonneg fun _ => Real.sqrt_nonneg _
  obtain ⟨e1, e2⟩ := noise_vel hn hδ hD hS lambda0 veloMax rx ry hk
  have hb : ∀ q : Fin 2 → ℤ, ‖(filtered2 δ lambda0 rx ry q).1‖ ≤ filter lambda0 (knorm2 δ q) ∧
      ‖(filtered2 δ lambda0 rx ry q).2‖ ≤ filter lambda0 (knorm2 δ q) := by
    intro q
    have hf := (filter_pos hl (knorm2 δ q)).le
    by_cases hq : q = 0
    · subst hq
      rw [filtered2_zero]
      simpa using hf
    · have hne : (δ 0 * (q 0 : ℝ)) ^ 2 + (δ 1 * (q 1 : ℝ)) ^ 2 ≠ 0 := fun h => hq ((k2_zero hδ q).mp h)
      have hp := projPerp_norm _ _ hne (rx q, ry q)
      have hr1 := h1 q
      simp only at hp
      have n1 : ‖(projPerp (δ 0 * q 0) (δ 1 * q 1) (rx q, ry q)).1‖ ≤ 1 :=
        abs_le_of_sq_le_sq' (by nlinarith [sq_nonneg ‖(projPerp (δ 0 * q 0) (δ 1 * q 1) (rx q, ry q)).2‖])
          zero_le_one |>.2
      have n2 : ‖(projPerp (δ 0 * q 0) (δ 1 * q 1) (rx q, ry q)).2‖ ≤ 1 :=
        abs_le_of_sq_le_sq' (by nlinarith [sq_nonneg ‖(projPerp (δ 0 * q 0) (δ 1 * q 1) (rx q, ry q)).1‖])
          zero_le_one |>.2
      simp only [filtered2, if_neg hq, norm_mul, Complex.norm_real, Real.norm_eq_abs, abs_of_nonneg hf]
      exact ⟨mul_le_of_le_one_left hf n1, mul_le_of_le_one_left hf n2⟩
  have hneg : knorm2 δ (-k) = knorm2 δ k := by simp [knorm2]
  have hherm : ∀ f : Fld (Fin 2), (∀ q, ‖f q‖ ≤ filter lambda0 (knorm2 δ q)) →
      ‖herm f k‖ ≤ filter lambda0 (knorm2 δ k) := by
    intro f hf
    have a1 := hf k
    have a2 := hf (-k)
    rw [hneg] at a2
    simp only [herm]
    split
    · exact a1
    · split
      · rw [RCLike.norm_conj]; exact a2
      · rw [norm_div, Complex.norm_ofNat, div_le_iff₀ (by norm_num)]
        refine le_trans (norm_add_le _ _) ?_
        rw [RCLike.norm_conj]; linarith
  have hc : 0 ≤ veloMax / maxNorm2 (drawn2 n S δ lambda0 rx ry) := by positivity
  refine ⟨?_, ?_, ?_⟩
  · rintro rfl
    rw [e1, e2, herm_zero (by rw [filtered2_zero]), herm_zero (by rw [filtered2_zero])]
    simp
  · rw [e1, norm_mul, Complex.norm_real, Real.norm_eq_abs, abs_of_nonneg hc]
    exact mul_le_mul_of_nonneg_left (hherm _ fun q => (hb q).1) hc
  · rw [e2, norm_mul, Complex.norm_real, Real.norm_eq_abs, abs_of_nonneg hc]
    exact mul_le_mul_of_nonneg_left (hherm _ fun q => (hb q).2) hc

/-- A draw with one mode: the velocity is not zero at the first grid point. -/
example : ∃ (rx ry : Fld (Fin 2)), ∃ j, drawn2 (fun _ => 4) {Pi.single 1 1, Pi.single 1 (-1)} (fun _ => 1) 1 rx ry j
    ≠ (0, 0) := by
  refine ⟨fun k => if k = Pi.single 1 1 then 1 else 0, fun _ => 0, 0, ?_⟩
  have hp : filter 1 (knorm2 (fun _ => 1) (Pi.single 1 1)) ≠ 0 := (filter_pos one_pos _).ne'
  have hne : (Pi.single 1 1 : Fin 2 → ℤ) ≠ Pi.single 1 (-1) := by
    intro h; have := congrFun h 1; simp at this
  have hne2 : (Pi.single 1 (-1) : Fin 2 → ℤ) ≠ Pi.single 1 1 := hne.symm
  have h0 : (Pi.single 1 1 : Fin 2 → ℤ) ≠ 0 := by
    intro h; have := congrFun h 1; simp at this
  have h1 : (Pi.single 1 (-1) : Fin 2 → ℤ) ≠ 0 := by
    intro h; have := congrFun h 1; simp at this
  intro h
  have h := congrArg Prod.fst h
  simp only [drawn2, ifftHalf] at h
  rw [Finset.filter_true_of_mem (by intro k hk; simp at hk; rcases hk with rfl | rfl <;> simp),
    Finset.sum_pair hne] at h
  simp [filtered2, projPerp, h0, h1, chi, k2not0, hne2] at h
  exact hp h

/-- C64, plates: the maximum over the grid of `√(w² + z²)` is `velo_max`; the velocity `w` is at most `velo_max`.
Missing: equality. -/
theorem C64_noise_plate2d_partial (lambda0 : ℝ) {veloMax : ℝ} (hv : 0 < veloMax)
    (rw rz : Fld (Fin 2))
    (hr : ∃ j, noisePlate n S δ lambda0 veloMax rw rz j ≠ (0, 0)) :
    maxNorm2 (noisePlate n S δ lambda0 veloMax rw rz) = veloMax ∧
    ∀ j, |(noisePlate n S δ lambda0 veloMax rw rz j).1| ≤ veloMax := by
  set f := fun (r : Fld (Fin 2)) (k : Fin 2 → ℤ) => (if k = 0 then 0 else r k) * (filter lambda0 (knorm2 δ k) : ℂ)
    with hf
  set u := fun j : Pt n => (ifftHalf n S (f rw) j, ifftHalf n S (f rz) j) with hu
  have e : noisePlate n S δ lambda0 veloMax rw rz
      = fun j => (veloMax / maxNorm2 u * (u j).1, veloMax / maxNorm2 u * (u j).2) := by
    funext j
    simp only [noisePlate]
    refine Prod.ext ?_ ?_ <;> exact mul_div_right_comm _ _ _
  obtain ⟨j, hj⟩ := hr
  have hM0 : 0 ≤ maxNorm2 u := Real.iSup_nonneg fun _ => Real.sqrt_nonneg _
  have hM : maxNorm2 u ≠ 0 := by
    intro h0
    apply hj
    rw [e]; simp [h0]
  have hmax : maxNorm2 (noisePlate n S δ lambda0 veloMax rw rz) = veloMax := by
    rw [e, maxNorm2_smul _ (by positivity), div_mul_cancel₀ _ hM]
  refine ⟨hmax, fun i => ?_⟩
  refine le_trans (Real.abs_le_sqrt ?_) (le_trans (le_maxNorm2 (noisePlate n S δ lambda0 veloMax rw rz) i) hmax.le)
  nlinarith [sq_nonneg (noisePlate n S δ lambda0 veloMax rw rz i).2]

/-- C64, finding: in plate2d the maximum of the velocity `w` is smaller than `velo_max` as soon as the displacement
`z` is not zero at the points where `√(w² + z²)` is maximum, as for almost every draw: a velocity and a displacement
are added. -/
theorem C64_noise_plate2d_violated (lambda0 : ℝ) {veloMax : ℝ} (hv : 0 < veloMax)
    (rw rz : Fld (Fin 2)) (hr : ∃ j, noisePlate n S δ lambda0 veloMax rw rz j ≠ (0, 0))
    (hz : ∀ j, (noisePlate n S δ lambda0 veloMax rw rz j).1 ^ 2 + (noisePlate n S δ lambda0 veloMax rw rz j).2 ^ 2
      = veloMax ^ 2 → (noisePlate n S δ lambda0 veloMax rw rz j).2 ≠ 0) :
    ∀ j, |(noisePlate n S δ lambda0 veloMax rw rz j).1| < veloMax := by
  obtain ⟨hmax, hle⟩ := C64_noise_plate2d_partial lambda0 hv rw rz hr
  intro j
  refine lt_of_le_of_ne (hle j) fun heq => ?_
  have h1 := le_maxNorm2 (noisePlate n S δ lambda0 veloMax rw rz) j
  rw [hmax, Real.sqrt_le_left hv.le] at h1
  have h2 : (noisePlate n S δ lambda0 veloMax rw rz j).1 ^ 2 = veloMax ^ 2 := by
    rw [← sq_abs, heq]
  have h3 : (noisePlate n S δ lambda0 veloMax rw rz j).2 = 0 := by
    have : (noisePlate n S δ lambda0 veloMax rw rz j).2 ^ 2 ≤ 0 := by linarith
    simpa using le_antisymm this (sq_nonneg _)
  exact hz j (by rw [h3, h2]; ring) h3

end ns2d

section ns3d
variable {n : Fin 3 → ℕ} {S G : Finset (Fin 3 → ℤ)} {δ : Fin 3 → ℝ}

theorem perpk_conj (k : K3) (v : V3) :
    perpk ⟨-k.x, -k.y, -k.z⟩ ⟨(starRingEnd ℂ) v.x, (starRingEnd ℂ) v.y, (starRingEnd ℂ) v.z⟩
      = ⟨(starRingEnd ℂ) (perpk k v).x, (starRingEnd ℂ) (perpk k v).y, (starRingEnd ℂ) (perpk k v).z⟩ := by
  have : k2 ⟨-k.x, -k.y, -k.z⟩ = k2 k := by simp [k2, kh2]
  ext <;> simp only [perpk, kradial, this, map_sub, map_mul, map_add, Complex.conj_ofReal] <;> push_cast <;> ring

theorem filtered3_conj (n : Fin 3 → ℕ) (δ : Fin 3 → ℝ) (lambda0 : ℝ) (r : Pt n → ℝ × ℝ × ℝ) (k : Fin 3 → ℤ) :
    (filtered3 n δ lambda0 r (-k)).x = (starRingEnd ℂ) (filtered3 n δ lambda0 r k).x ∧
    (filtered3 n δ lambda0 r (-k)).y = (starRingEnd ℂ) (filtered3 n δ lambda0 r k).y ∧
    (filtered3 n δ lambda0 r (-k)).z = (starRingEnd ℂ) (filtered3 n δ lambda0 r k).z := by
  have hw : wave3 δ (-k) = ⟨-(wave3 δ k).x, -(wave3 δ k).y, -(wave3 δ k).z⟩ := by simp [wave3]
  have hnorm : knorm3 δ (-k) = knorm3 δ k := by simp [knorm3]
  have hv : ∀ v v' : V3, v' = ⟨(starRingEnd ℂ) v.x, (starRingEnd ℂ) v.y, (starRingEnd ℂ) v.z⟩ →
      perpk (wave3 δ (-k)) v' = ⟨(starRingEnd ℂ) (perpk (wave3 δ k) v).x, (starRingEnd ℂ) (perpk (wave3 δ k) v).y,
        (starRingEnd ℂ) (perpk (wave3 δ k) v).z⟩ := by
    intro v v' h; rw [hw, h, perpk_conj]
  by_cases hk : k = 0
  · subst hk
    have e : (-0 : Fin 3 → ℤ) = 0 := neg_zero
    rw [e]
    simp [filtered3, perpk, kradial]
  · have hk' : -k ≠ 0 := neg_ne_zero.mpr hk
    have h := hv (fftVec n (fun j => ⟨((r j).1 - 0.5 : ℝ), ((r j).2.1 - 0.5 : ℝ), ((r j).2.2 - 0.5 : ℝ)⟩) k)
      (fftVec n (fun j => ⟨((r j).1 - 0.5 : ℝ), ((r j).2.1 - 0.5 : ℝ), ((r j).2.2 - 0.5 : ℝ)⟩) (-k))
      (by simp only [fftVec]
          rw [fft_real_conj n (fun j => (r j).1 - 0.5), fft_real_conj n (fun j => (r j).2.1 - 0.5),
            fft_real_conj n (fun j => (r j).2.2 - 0.5)])
    simp only [filtered3, if_neg hk, if_neg hk', h, hnorm, map_mul, Complex.conj_ofReal]
    exact ⟨trivial, trivial, trivial⟩

theorem drawn3_real (hS : ∀ k ∈ S, -k ∈ S) (lambda0 : ℝ) (r : Pt n → ℝ × ℝ × ℝ) (j : Pt n) :
    gridVec n S (filtered3 n δ lambda0 r) j = ⟨((drawn3 n S δ lambda0 r j).1 : ℂ),
      ((drawn3 n S δ lambda0 r j).2.1 : ℂ), ((drawn3 n S δ lambda0 r j).2.2 : ℂ)⟩ := by
  have key : ∀ u : Fld (Fin 3), (∀ k, u (-k) = (starRingEnd ℂ) (u k)) →
      gridVal n S u j = ((gridVal n S u j).re : ℂ) := by
    intro u h
    exact (Complex.conj_eq_iff_re.mp (real_grid (fun k hk => ⟨hS k hk, h k⟩) j)).symm
  ext
  · exact key _ fun k => (filtered3_conj n δ lambda0 r k).1
  · exact key _ fun k => (filtered3_conj n δ lambda0 r k).2.1
  · exact key _ fun k => (filtered3_conj n δ lambda0 r k).2.2

/-- The velocity in spectral space is the drawn one, normalised and truncated. -/
theorem noiseVel3_eq (hn : ∀ d, 0 < n d) (hG : Distinct n G) (hSG : S ⊆ G) (hS : ∀ k ∈ S, -k ∈ S) (lambda0 veloMax : ℝ)
    (r : Pt n → ℝ × ℝ × ℝ) {k : Fin 3 → ℤ} (hk : k ∈ G) :
    let c := ((veloMax / maxNorm3 (drawn3 n S δ lambda0 r) : ℝ) : ℂ)
    let f := filtered3 n δ lambda0 r k
    noiseVel3 n S δ lambda0 veloMax r k = if k ∈ S then ⟨c * f.x, c * f.y, c * f.z⟩ else ⟨0, 0, 0⟩ := by
  intro c f
  have comp : ∀ (g : Pt n → ℝ) (u : Fld (Fin 3)), (∀ j, gridVal n S u j = (g j : ℂ)) →
      fftCoef n (fun j => ((veloMax * g j / maxNorm3 (drawn3 n S δ lambda0 r) : ℝ) : ℂ)) k
        = if k ∈ S then c * u k else 0 := by
    intro g u h
    rw [← fft_sub hn hG hSG (fun k => c * u k) hk]
    congr 1
    funext j
    have : (veloMax * g j / maxNorm3 (drawn3 n S δ lambda0 r) : ℝ)
        = veloMax / maxNorm3 (drawn3 n S δ lambda0 r) * g j := by ring
    rw [this, Complex.ofReal_mul, ← h j]
    simp only [gridVal, mul_sum, mul_assoc, c]
  have hd := fun j => drawn3_real (n := n) (δ := δ) hS lambda0 r j
  have c1 := comp (fun j => (drawn3 n S δ lambda0 r j).1) (fun k => (filtered3 n δ lambda0 r k).x)
    fun j => congrArg V3.x (hd j)
  have c2 := comp (fun j => (drawn3 n S δ lambda0 r j).2.1) (fun k => (filtered3 n δ lambda0 r k).y)
    fun j => congrArg V3.y (hd j)
  have c3 := comp (fun j => (drawn3 n S δ lambda0 r j).2.2) (fun k => (filtered3 n δ lambda0 r k).z)
    fun j => congrArg V3.z (hd j)
  have : noiseVel3 n S δ lambda0 veloMax r k = ⟨_, _, _⟩ := rfl
  rw [this, c1, c2, c3]
  split <;> rfl

/-- C64, noise of ns3d, for every draw: the velocity is divergence-free, has no mean and no truncated modes, and, if
the draw is not identically zero, the maximum of its modulus over the grid is `velo_max`. -/
theorem C64_noise_ns3d (hn : ∀ d, 0 < n d) (hG : Distinct n G) (hSG : S ⊆ G) (hS : ∀ k ∈ S, -k ∈ S) (lambda0 : ℝ)
    {veloMax : ℝ} (hv : 0 ≤ veloMax) (r : Pt n → ℝ × ℝ × ℝ) :
    let v := noiseVel3 n S δ lambda0 veloMax r
    (∀ k ∈ G, kdot (wave3 δ k) (v k) = 0 ∧ (k = 0 ∨ k ∉ S → v k = ⟨0, 0, 0⟩)) ∧
    ((∃ j, (drawn3 n S δ lambda0 r j).1 ^ 2 + (drawn3 n S δ lambda0 r j).2.1 ^ 2
        + (drawn3 n S δ lambda0 r j).2.2 ^ 2 ≠ 0) →
      maxNorm3 (fun j => ((gridVec n G v j).x.re, (gridVec n G v j).y.re, (gridVec n G v j).z.re)) = veloMax) := by
  intro v
  have e := fun {k : Fin 3 → ℤ} (hk : k ∈ G) => noiseVel3_eq (δ := δ) hn hG hSG hS lambda0 veloMax r hk
  constructor
  · intro k hk
    have hv' : v k = noiseVel3 n S δ lambda0 veloMax r k := rfl
    rw [hv', e hk]
    constructor
    · split
      · have h0 := C28_orthogonal (wave3 δ k) (if k = 0 then ⟨0, 0, 0⟩ else
          fftVec n (fun j => ⟨((r j).1 - 0.5 : ℝ), ((r j).2.1 - 0.5 : ℝ), ((r j).2.2 - 0.5 : ℝ)⟩) k)
        simp only [kdot] at h0 ⊢
        simp only [filtered3]
        linear_combination (((veloMax / maxNorm3 (drawn3 n S δ lambda0 r) : ℝ) : ℂ)
          * (filter lambda0 (knorm3 δ k) : ℂ)) * h0
      · simp [kdot]
    · rintro (rfl | h)
      · simp [filtered3, perpk, kradial]
      · rw [if_neg h]
  · rintro ⟨j, hj⟩
    have hM := maxNorm3_pos hj
    have hd := fun j => drawn3_real (n := n) (δ := δ) hS lambda0 r j
    set c := veloMax / maxNorm3 (drawn3 n S δ lambda0 r) with hc
    have comp : ∀ (g : Pt n → ℝ) (u w : Fld (Fin 3)), (∀ j, gridVal n S u j = (g j : ℂ)) →
        (∀ k ∈ G, w k = if k ∈ S then (c : ℂ) * u k else 0) → ∀ j, (gridVal n G w j).re = c * g j := by
      intro g u w h1 h2 j
      rw [gridVal_sub hSG (fun k => (c : ℂ) * u k) w h2 j]
      have : gridVal n S (fun k => (c : ℂ) * u k) j = ((c * g j : ℝ) : ℂ) := by
        rw [Complex.ofReal_mul, ← h1 j]
        simp only [gridVal, mul_sum, mul_assoc]
      rw [this, Complex.ofReal_re]
    have e1 := comp _ _ (fun k => (v k).x) (fun j => congrArg V3.x (hd j)) (fun k hk => by
      have := congrArg V3.x (e hk); simp only [v, this]; split <;> rfl)
    have e2 := comp _ _ (fun k => (v k).y) (fun j => congrArg V3.y (hd j)) (fun k hk => by
      have := congrArg V3.y (e hk); simp only [v, this]; split <;> rfl)
    have e3 := comp _ _ (fun k => (v k).z) (fun j => congrArg V3.z (hd j)) (fun k hk => by
      have := congrArg V3.z (e hk); simp only [v, this]; split <;> rfl)
    have : (fun j => ((gridVec n G v j).x.re, (gridVec n G v j).y.re, (gridVec n G v j).z.re))
        = fun j => (c * (drawn3 n S δ lambda0 r j).1, c * (drawn3 n S δ lambda0 r j).2.1,
          c * (drawn3 n S δ lambda0 r j).2.2) := by
      funext j
      refine Prod.ext (e1 j) (Prod.ext (e2 j) (e3 j))
    rw [this, maxNorm3_smul _ (by positivity), hc, div_mul_cancel₀ _ hM.ne']

/-- The transform of a draw different from 1/2 at one grid point only. -/
theorem fft_point (c : ℝ) (k : Fin 3 → ℤ) :
    fftCoef (fun _ : Fin 3 => 3) (fun j => (((if j = 0 then c else 0 : ℝ)) : ℂ)) k = c / 27 := by
  have : ∀ j : Pt (fun _ : Fin 3 => 3), (((if j = 0 then c else 0 : ℝ)) : ℂ) * chi (fun _ => 3) (-k) j
      = if j = 0 then (c : ℂ) else 0 := by
    intro j
    split
    · subst_vars; simp [chi]
    · simp
  simp only [fftCoef, this, Finset.sum_ite_eq', mem_univ, if_true]
  norm_num

example : ∃ r : Pt (fun _ : Fin 3 => 3) → ℝ × ℝ × ℝ, ∃ j,
    (drawn3 (fun _ => 3) {Pi.single 2 1, Pi.single 2 (-1)} (fun _ => 1) 1 r j).1 ^ 2
      + (drawn3 (fun _ => 3) {Pi.single 2 1, Pi.single 2 (-1)} (fun _ => 1) 1 r j).2.1 ^ 2
      + (drawn3 (fun _ => 3) {Pi.single 2 1, Pi.single 2 (-1)} (fun _ => 1) 1 r j).2.2 ^ 2 ≠ 0 := by
  refine ⟨fun j => ((if j = 0 then 27 else 0) + 0.5, 0.5, 0.5), 0, ?_⟩
  have hne : (Pi.single 2 1 : Fin 3 → ℤ) ≠ Pi.single 2 (-1) := by
    intro h; have := congrFun h 2; simp at this
  have h0 : (Pi.single 2 1 : Fin 3 → ℤ) ≠ 0 := by
    intro h; have := congrFun h 2; simp at this
  have h1 : (Pi.single 2 (-1) : Fin 3 → ℤ) ≠ 0 := by
    intro h; have := congrFun h 2; simp at this
  have hf : ∀ k : Fin 3 → ℤ, fftVec (fun _ : Fin 3 => 3)
      (fun j => ⟨(((if j = 0 then 27 else 0) + 0.5 - 0.5 : ℝ) : ℂ), ((0.5 - 0.5 : ℝ) : ℂ), ((0.5 - 0.5 : ℝ) : ℂ)⟩) k
      = ⟨1, 0, 0⟩ := by
    intro k
    have := fft_point 27 k
    simp only [fftVec, sub_self, add_sub_cancel_right]
    ext
    · simp only [this]; norm_num
    · simp [fftCoef]
    · simp [fftCoef]
  have key : (drawn3 (fun _ : Fin 3 => 3) {Pi.single 2 1, Pi.single 2 (-1)} (fun _ => 1) 1
      (fun j => ((if j = 0 then 27 else 0) + 0.5, 0.5, 0.5)) 0).1
      = filter 1 (knorm3 (fun _ => 1) (Pi.single 2 1)) + filter 1 (knorm3 (fun _ => 1) (Pi.single 2 (-1))) := by
    simp only [drawn3, gridVec, gridVal, Finset.sum_pair hne, filtered3, if_neg h0, if_neg h1, hf]
    simp [perpk, kradial, wave3, chi]
  rw [key]
  have p1 := filter_pos one_pos (knorm3 (fun _ => 1) (Pi.single 2 1))
  have p2 := filter_pos one_pos (knorm3 (fun _ => 1) (Pi.single 2 (-1)))
  positivity

/-- C64, the other variables of ns3d (buoyancy), for every draw: no mean, and the maximum of the modulus over the grid
is the requested one (`velo_max × N`). -/
theorem C64_noise_ns3d_buoyancy_partial (lambda0 : ℝ) {fieldMax : ℝ} (hv : 0 ≤ fieldMax) (r : Pt n → ℝ)
    (hr : ∃ j, (gridVal n G (filteredB n δ lambda0 r) j).re ≠ 0) :
    noiseB n G δ lambda0 fieldMax r 0 = 0 ∧
    ⨆ j, |(gridVal n G (noiseB n G δ lambda0 fieldMax r) j).re| = fieldMax := by
  obtain ⟨j, hj⟩ := hr
  refine ⟨by simp [noiseB, filteredB], ?_⟩
  set M := ⨆ j, |(gridVal n G (filteredB n δ lambda0 r) j).re| with hM
  have hMpos : 0 < M := lt_of_lt_of_le (abs_pos.mpr hj)
    (le_ciSup (f := fun j => |(gridVal n G (filteredB n δ lambda0 r) j).re|) (Set.finite_range _).bddAbove j)
  have e : ∀ j, |(gridVal n G (noiseB n G δ lambda0 fieldMax r) j).re|
      = fieldMax / M * |(gridVal n G (filteredB n δ lambda0 r) j).re| := by
    intro j
    have : gridVal n G (noiseB n G δ lambda0 fieldMax r) j
        = ((fieldMax / M : ℝ) : ℂ) * gridVal n G (filteredB n δ lambda0 r) j := by
      have : ∀ k, noiseB n G δ lambda0 fieldMax r k = ((fieldMax / M : ℝ) : ℂ) * filteredB n δ lambda0 r k :=
        fun _ => rfl
      simp only [gridVal, this, mul_sum, mul_assoc]
    rw [this, Complex.re_ofReal_mul, abs_mul, abs_of_nonneg (by positivity)]
  simp only [e]
  rw [← Real.mul_iSup_of_nonneg (by positivity), ← hM, div_mul_cancel₀ _ hMpos.ne']

/-- C64, finding: the buoyancy is not truncated: each mode removed by the truncation for which the transform of the
draw is not zero is present in the initial state. -/
theorem C64_noise_ns3d_buoyancy_violated {lambda0 fieldMax : ℝ} (hl : 0 < lambda0) (hf : 0 < fieldMax) (r : Pt n → ℝ)
    (hr : ∃ j, (gridVal n G (filteredB n δ lambda0 r) j).re ≠ 0) {k : Fin 3 → ℤ} (hk : k ∉ S) (h0 : k ≠ 0)
    (hfft : fftCoef n (fun j => ((r j : ℝ) : ℂ)) k ≠ 0) : noiseB n G δ lambda0 fieldMax r k ≠ 0 := by
  have _ := hk
  obtain ⟨j, hj⟩ := hr
  have hMpos : 0 < ⨆ j, |(gridVal n G (filteredB n δ lambda0 r) j).re| := lt_of_lt_of_le (abs_pos.mpr hj)
    (le_ciSup (f := fun j => |(gridVal n G (filteredB n δ lambda0 r) j).re|) (Set.finite_range _).bddAbove j)
  simp only [noiseB, filteredB, if_neg h0]
  refine mul_ne_zero ?_ (mul_ne_zero hfft ?_)
  · exact_mod_cast (div_pos hf hMpos).ne'
  · exact_mod_cast (filter_pos hl _).ne'

end ns3d

/-- C64: the noise of the other solvers is between `-max` and `max`. -/
theorem C64_noise_base {m r : ℝ} (hm : 0 ≤ m) (h0 : 0 ≤ r) (h1 : r ≤ 1) : |noiseBase m r| ≤ m := by
  have : noiseBase m r = m * (2 * r - 1) := by rw [noiseBase]; ring
  rw [this, abs_le]
  constructor <;> nlinarith

example : noiseBase 3 0.25 = -1.5 := by norm_num [noiseBase]

end

end Verif.InitFields
