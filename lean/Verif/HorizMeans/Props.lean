import Verif.HorizMeans.Lemmas

/-! # C103: the horizontal means -/

namespace Verif.HorizMeans

open Verif.Fourier Verif.Galerkin Verif.Energy Verif.Vectors Finset

set_option linter.unusedSectionVars false

noncomputable section

variable {K : Type} [Field K] {n : Fin 3 → ℕ}

/-- **C103** (definition) The nine saved profiles are, at each level, the means over the level of the
components of the velocity, and the covariances of the components over the level. -/
theorem C103_profiles [CharZero K] (h0 : 0 < n 0) (h1 : 0 < n 1) (vx vy vz : Pt n → K) :
    let cov := fun f g : Pt n → K => fun c =>
      levelMean n (fun j => f j * g j) c - levelMean n f c * levelMean n g c
    compute n vx vy vz =
      [("vx", levelMean n vx), ("vy", levelMean n vy), ("vz", levelMean n vz),
       ("vxp_vxp", cov vx vx), ("vyp_vyp", cov vy vy), ("vzp_vzp", cov vz vz),
       ("vyp_vxp", cov vy vx), ("vzp_vxp", cov vz vx), ("vzp_vyp", cov vz vy)] := by
  intro cov
  have e : ∀ f g : Pt n → K, stress n f g = cov f g := by
    intro f g
    funext c
    rw [stress_eq h0 h1, hmean_eq, hmean_eq, hmean_eq]
  simp only [compute, e, hmean_eq]

/-- **C103** The variances are not negative and a covariance is bounded by the variances
(Cauchy-Schwarz). -/
theorem C103_bounds (f g : Pt n → ℝ) (c : Fin (n 2)) :
    0 ≤ stress n f f c ∧ stress n f g c ^ 2 ≤ stress n f f c * stress n g g c := by
  have hN : (0 : ℝ) ≤ ((n 0 * n 1 : ℕ) : ℝ) := Nat.cast_nonneg _
  constructor
  · simp only [stress, hmean]
    exact div_nonneg (sum_nonneg fun b _ => sum_nonneg fun a _ => mul_self_nonneg _) hN
  · simp only [stress, hmean, div_pow, div_mul_div_comm, ← sq ((n 0 * n 1 : ℕ) : ℝ)]
    refine div_le_div_of_nonneg_right ?_ (sq_nonneg _)
    have := sum_mul_sq_le_sq_mul_sq (univ : Finset (Fin (n 1) × Fin (n 0)))
      (fun t => fluct n f (pt t.2 t.1 c)) (fun t => fluct n g (pt t.2 t.1 c))
    simpa only [Fintype.sum_prod_type, sq (fluct n _ _)] using this

/-- **C103** The mean over the grid of a product is the mean over the levels of the product of the means
plus the covariance; so that the kinetic energy is the one of the mean profiles plus the one of the
fluctuations. -/
theorem C103_energy [CharZero K] (h0 : 0 < n 0) (h1 : 0 < n 1) (f g : Pt n → K) :
    gridMean n (fun j => f j * g j) =
      zMean (fun c => hmean n f c * hmean n g c) + zMean (stress n f g) := by
  have hc : Fintype.card (Pt n) = n 0 * n 1 * n 2 := by
    rw [Fintype.card_pi, Fin.prod_univ_three]
    simp
  have hz : ((n 0 * n 1 : ℕ) : K) ≠ 0 := by
    rw [Nat.cast_ne_zero]
    positivity
  have e : ∀ c, hmean n f c * hmean n g c + stress n f g c = hmean n (fun j => f j * g j) c := by
    intro c
    rw [stress_eq h0 h1]
    ring
  rw [zMean, zMean, ← add_div, ← sum_add_distrib]
  simp only [e]
  rw [gridMean, hc, sum_pt, Nat.cast_mul]
  simp only [hmean, ← sum_div]
  rw [div_div]

/-- **C103** The mean profile of the vertical velocity of a divergence-free flow does not depend on z:
it is the mean of the vertical velocity. -/
theorem C103_vz (h0 : 0 < n 0) (h1 : 0 < n 1) {S : Finset (Fin 3 → ℤ)}
    (hS : ∀ k ∈ S, |k 0| < n 0 ∧ |k 1| < n 1) {δ : Fin 3 → ℝ} (hδ : δ 2 ≠ 0) (v : (Fin 3 → ℤ) → V3)
    (hdiv : ∀ k ∈ S, kdot (wave3 δ k) (v k) = 0) (c : Fin (n 2)) :
    hmean n (gridVal n S fun k => (v k).z) c = if (0 : Fin 3 → ℤ) ∈ S then (v 0).z else 0 := by
  rw [hmean_gridVal h0 h1 hS]
  have e : ∀ k ∈ S, (if k 0 = 0 ∧ k 1 = 0 then
      (v k).z * Complex.exp (2 * Real.pi * Complex.I * ((k 2 : ℂ) * (c : ℕ) / n 2)) else 0)
      = if k = 0 then (v 0).z else 0 := by
    intro k hk
    by_cases h : k 0 = 0 ∧ k 1 = 0
    · rw [if_pos h]
      by_cases h2 : k 2 = 0
      · have hk0 : k = 0 := by
          funext d
          fin_cases d
          · exact h.1
          · exact h.2
          · exact h2
        subst hk0
        simp
      · have hne : k ≠ 0 := fun e => h2 (by rw [e]; rfl)
        have hd := hdiv k hk
        simp only [kdot, wave3, h.1, h.2, Int.cast_zero, mul_zero, Complex.ofReal_zero, zero_mul,
          zero_add] at hd
        have hw : ((δ 2 * (k 2 : ℝ) : ℝ) : ℂ) ≠ 0 := by
          rw [Complex.ofReal_ne_zero]
          exact mul_ne_zero hδ (by exact_mod_cast h2)
        have : (v k).z = 0 := (mul_eq_zero.1 hd).resolve_left hw
        rw [if_neg hne, this, zero_mul]
    · have hne : k ≠ 0 := fun e => h (by rw [e]; exact ⟨rfl, rfl⟩)
      rw [if_neg h, if_neg hne]
  rw [sum_congr rfl e, sum_ite_eq']

/-- The Fourier coefficients of the mean profiles are the ones of the state. -/
theorem C103_profile_modes (hn : ∀ d, 0 < n d) {S : Finset (Fin 3 → ℤ)} (hS : NoAlias n S)
    (u : (Fin 3 → ℤ) → ℂ) (k : ℤ) (hk : vertical k ∈ S) :
    profileFft (hmean n (gridVal n S u)) k = u (vertical k) := by
  rw [← fft_vertical]
  exact fft_grid hn hS.distinct u hk

/-- The advection of a divergence-free velocity is the divergence of the flux. -/
theorem advect_flux {S : Finset (Fin 3 → ℤ)} (δ : Fin 3 → ℝ) (v : (Fin 3 → ℤ) → V3)
    (hdiv : ∀ k ∈ S, kdot (wave3 δ k) (v k) = 0) (a : Fld (Fin 3)) (k : ℤ) :
    advect S δ (comp v) a (vertical k) =
      Complex.I * ((δ 2 * k : ℝ) : ℂ) * exactProduct S (comp v 2) a (vertical k) := by
  have l0 := exact_leibniz S δ 0 (comp v 0) a (vertical k)
  have l1 := exact_leibniz S δ 1 (comp v 1) a (vertical k)
  have l2 := exact_leibniz S δ 2 (comp v 2) a (vertical k)
  have hz : exactProduct S (pd δ 0 (comp v 0)) a (vertical k)
      + exactProduct S (pd δ 1 (comp v 1)) a (vertical k)
      + exactProduct S (pd δ 2 (comp v 2)) a (vertical k) = 0 := by
    rw [← exact_add_left, ← exact_add_left]
    simp only [exactProduct]
    refine sum_eq_zero fun q hq => sum_eq_zero fun r _ => ?_
    have := hdiv q hq
    simp only [kdot, wave3] at this
    split
    · simp only [pd, comp]
      linear_combination (Complex.I * a r) * this
    · rfl
  have k0 : vertical k 0 = 0 := rfl
  have k1 : vertical k 1 = 0 := rfl
  have k2 : vertical k 2 = k := rfl
  simp only [k0, k1, k2, Int.cast_zero, mul_zero, Complex.ofReal_zero, zero_mul] at l0 l1 l2
  simp only [advect, Fin.sum_univ_three]
  linear_combination -(l0 + l1 + l2) - hz

/-- **C103** (budget of the mean profiles, ns3d) For a divergence-free flow, without aliasing errors,
the tendency of the mean profile of each horizontal component is minus the vertical derivative of the
saved profile of the vertical flux, minus the advection by the mean vertical velocity `W`, with the
Coriolis force: `∂t <vx> = -∂z <vz' vx'> - W ∂z <vx> + f <vy>` and
`∂t <vy> = -∂z <vz' vy'> - W ∂z <vy> - f <vx>`, for all the vertical wavenumbers of the flow. -/
theorem C103_budget (hn : ∀ d, 0 < n d) {S : Finset (Fin 3 → ℤ)} (hS : NoAlias n S)
    (hb : ∀ k ∈ S, |k 0| < n 0 ∧ |k 1| < n 1) {δ : Fin 3 → ℝ} (hδ : δ 2 ≠ 0) (f : Option ℝ)
    (v : (Fin 3 → ℤ) → V3) (hdiv : ∀ k ∈ S, kdot (wave3 δ k) (v k) = 0) (k : ℤ)
    (hk : vertical k ∈ S) :
    let vx := gridVal n S fun k => (v k).x
    let vy := gridVal n S fun k => (v k).y
    let vz := gridVal n S fun k => (v k).z
    let W := if (0 : Fin 3 → ℤ) ∈ S then (v 0).z else 0
    let ddz := fun p : Fin (n 2) → ℂ => Complex.I * ((δ 2 * k : ℝ) : ℂ) * profileFft p k
    (ns3d n S δ f .none false v (vertical k)).x =
        -ddz (stress n vz vx) - W * ddz (hmean n vx) + (f.getD 0 : ℝ) * profileFft (hmean n vy) k ∧
      (ns3d n S δ f .none false v (vertical k)).y =
        -ddz (stress n vz vy) - W * ddz (hmean n vy) - (f.getD 0 : ℝ) * profileFft (hmean n vx) k := by
  intro vx vy vz W ddz
  have h := C57_ns3d hn hS δ f .none false v hk
  simp only [Bool.false_eq_true, false_and, if_false] at h
  have w0 : (wave3 δ (vertical k)).x = 0 := by simp [wave3, vertical]
  have w1 : (wave3 δ (vertical k)).y = 0 := by simp [wave3, vertical]
  -- the flux
  have flux : ∀ u : Fld (Fin 3), exactProduct S (comp v 2) u (vertical k) =
      profileFft (stress n vz (gridVal n S u)) k + W * profileFft (hmean n (gridVal n S u)) k := by
    intro u
    rw [← fft_prod hn hS _ _ hk, fft_vertical]
    have e : hmean n (fun j => gridVal n S (comp v 2) j * gridVal n S u j) =
        fun c => stress n vz (gridVal n S u) c + W * hmean n (gridVal n S u) c := by
      funext c
      rw [stress_eq (hn 0) (hn 1), C103_vz (hn 0) (hn 1) hb hδ v hdiv c]
      show hmean n (fun j => vz j * gridVal n S u j) c = _
      ring
    rw [e]
    simp only [profileFft, add_mul, sum_add_distrib, add_div, mul_assoc, ← mul_sum, mul_div_assoc]
  have ex := C103_profile_modes hn hS (fun k => (v k).x) k hk
  have ey := C103_profile_modes hn hS (fun k => (v k).y) k hk
  have ax := advect_flux δ v hdiv (fun k => (v k).x) k
  have ay := advect_flux δ v hdiv (fun k => (v k).y) k
  rw [flux] at ax ay
  constructor
  · rw [h]
    simp only [projector, perpk, kradial, w0, w1, navierStokes, Complex.ofReal_zero, zero_mul,
      mul_zero, sub_zero]
    show -advect S δ (comp v) (fun k => (v k).x) (vertical k) + _ = _
    rw [ax]
    simp only [ddz, vx, vy]
    rw [ey]
    ring
  · rw [h]
    simp only [projector, perpk, kradial, w0, w1, navierStokes, Complex.ofReal_zero, zero_mul,
      mul_zero, sub_zero]
    show -advect S δ (comp v) (fun k => (v k).y) (vertical k) - _ = _
    rw [ay]
    simp only [ddz, vx, vy]
    rw [ex]
    ring

/-- **C103** A uniform velocity added to the flow is added to the mean profiles and does not change the
covariances. -/
theorem C103_galilean [CharZero K] (h0 : 0 < n 0) (h1 : 0 < n 1) (f g : Pt n → K) (U W : K) (c : Fin (n 2)) :
    hmean n (fun j => f j + U) c = hmean n f c + U ∧
      stress n (fun j => f j + U) (fun j => g j + W) c = stress n f g c := by
  have e : ∀ (f : Pt n → K) (U : K) (c : Fin (n 2)), hmean n (fun j => f j + U) c = hmean n f c + U := by
    intro f U c
    rw [hmean_add, hmean_const h0 h1 fun _ => U]
  refine ⟨e f U c, ?_⟩
  have : ∀ (f : Pt n → K) (U : K), fluct n (fun j => f j + U) = fluct n f := by
    intro f U
    funext j
    simp only [fluct, e]
    ring
  rw [stress, this, this]
  rfl

theorem shift_bijective {m : ℕ} (hm : 0 < m) (s : ℕ) :
    Function.Bijective fun a : Fin m => (⟨((a : ℕ) + s) % m, Nat.mod_lt _ hm⟩ : Fin m) := by
  rw [← Finite.injective_iff_bijective]
  intro a b h
  have h : ((a : ℕ) + s) % m = ((b : ℕ) + s) % m := congrArg Fin.val h
  have h2 : (a : ℕ) ≡ b [MOD m] := Nat.ModEq.add_right_cancel' s h
  exact Fin.ext (h2.eq_of_lt_of_lt a.2 b.2)

theorem shift_pt (hn : ∀ d, 0 < n d) (s : Fin 3 → ℕ) (a : Fin (n 0)) (b : Fin (n 1)) (c : Fin (n 2)) :
    shiftPt hn s (pt a b c) = pt ⟨((a : ℕ) + s 0) % n 0, Nat.mod_lt _ (hn 0)⟩
      ⟨((b : ℕ) + s 1) % n 1, Nat.mod_lt _ (hn 1)⟩ ⟨((c : ℕ) + s 2) % n 2, Nat.mod_lt _ (hn 2)⟩ := by
  funext d
  fin_cases d <;> rfl

theorem hmean_shift (hn : ∀ d, 0 < n d) (s : Fin 3 → ℕ) (f : Pt n → K) (c : Fin (n 2)) :
    hmean n (fun j => f (shiftPt hn s j)) c =
      hmean n f ⟨((c : ℕ) + s 2) % n 2, Nat.mod_lt _ (hn 2)⟩ := by
  simp only [hmean, shift_pt]
  congr 1
  refine Fintype.sum_bijective _ (shift_bijective (hn 1) (s 1)) _ _ fun b => ?_
  exact Fintype.sum_bijective _ (shift_bijective (hn 0) (s 0)) _ _ fun a => rfl

/-- **C103** When the flow is translated in the periodic domain, the profiles are translated vertically;
a horizontal translation does not change them. -/
theorem C103_shift (hn : ∀ d, 0 < n d) (s : Fin 3 → ℕ) (f g : Pt n → K) (c : Fin (n 2)) :
    hmean n (fun j => f (shiftPt hn s j)) c =
        hmean n f ⟨((c : ℕ) + s 2) % n 2, Nat.mod_lt _ (hn 2)⟩ ∧
      stress n (fun j => f (shiftPt hn s j)) (fun j => g (shiftPt hn s j)) c =
        stress n f g ⟨((c : ℕ) + s 2) % n 2, Nat.mod_lt _ (hn 2)⟩ := by
  refine ⟨hmean_shift hn s f c, ?_⟩
  have e : ∀ f : Pt n → K, fluct n (fun j => f (shiftPt hn s j)) = fun j => fluct n f (shiftPt hn s j) := by
    intro f
    funext j
    simp only [fluct, hmean_shift]
    rfl
  rw [stress, e, e]
  exact hmean_shift hn s (fun j => fluct n f j * fluct n g j) c

/-- The case of a horizontal translation. -/
example (hn : ∀ d, 0 < n d) (f g : Pt n → K) (c : Fin (n 2)) (a b : ℕ) :
    stress n (fun j => f (shiftPt hn ![a, b, 0] j)) (fun j => g (shiftPt hn ![a, b, 0] j)) c
      = stress n f g c := by
  rw [(C103_shift hn _ f g c).2]
  congr 1
  exact Fin.ext (Nat.mod_eq_of_lt c.2)

/-- A flow: `vx = cos(z)`, on a grid of `4 × 4 × 4` points, for the hypotheses of the budget. -/
example : ∃ (S : Finset (Fin 3 → ℤ)) (v : (Fin 3 → ℤ) → V3),
    NoAlias (fun _ => 4) S ∧ (∀ k ∈ S, |k 0| < 4 ∧ |k 1| < 4) ∧
      (∀ k ∈ S, kdot (wave3 (fun _ => 1) k) (v k) = 0) ∧ vertical 1 ∈ S ∧ v (vertical 1) ≠ ⟨0, 0, 0⟩ := by
  refine ⟨{vertical 1, vertical (-1)}, fun _ => ⟨1, 0, 0⟩, ?_, ?_, ?_, ?_, ?_⟩
  · refine noAlias_of_small _ _ ?_
    intro k hk d
    simp only [mem_insert, mem_singleton] at hk
    rcases hk with rfl | rfl <;> fin_cases d <;> simp [vertical]
  · intro k hk
    simp only [mem_insert, mem_singleton] at hk
    rcases hk with rfl | rfl <;> simp [vertical]
  · intro k hk
    simp only [mem_insert, mem_singleton] at hk
    rcases hk with rfl | rfl <;> simp [vertical, kdot, wave3]
  · simp
  · intro h
    have := congrArg V3.x h
    simp at this

end

end Verif.HorizMeans
