import Verif.Forcing.Lemmas

/-!
# C31 - C34: forcings
-/

namespace Verif.Forcing

set_option linter.unusedSectionVars false

variable {ι : Type} [Fintype ι]

/-! ### C31: 2nd degree equation -/

/-- C31: whatever the order of the roots and the option, a normalised forcing injects exactly the
prescribed rate, for every raw forcing for which there are two roots. -/
theorem C31_rate (w : ι → ℝ) {dt rate : ℝ} (hdt : dt ≠ 0) (v f g : ι → ℂ) (which : String)
    (r : ℝ × ℝ) (hr : NpRoots (coefA w dt f) (coefB w v f) (-rate) (some r))
    (h : normalize2nd which (some r) f = .ok g) : energyInput w dt v g = rate := by
  obtain ⟨c, hc, rfl⟩ := normalize2nd_ok h
  rw [input_scale w hdt]
  have := (roots_eq hr c).2 (coef_is_root hc)
  linarith

/-- C31: for a non-negative rate the equation always has real roots (so the previous theorem
applies to every state), and in general exactly when the discriminant is not negative. -/
theorem C31_real_roots (w : ι → ℝ) (dt rate : ℝ) (v f : ι → ℂ) (hA : coefA w dt f ≠ 0) :
    (∃ r, NpRoots (coefA w dt f) (coefB w v f) (-rate) (some r)) ↔
      0 ≤ coefB w v f ^ 2 + 4 * coefA w dt f * rate := by
  set a := coefA w dt f
  set b := coefB w v f
  constructor
  · rintro ⟨r, hr⟩
    have h := (roots_eq hr r.1).2 (Or.inl rfl)
    have e : b ^ 2 + 4 * a * rate = (2 * a * r.1 + b) ^ 2 := by linear_combination (-4 * a) * h
    rw [e]; positivity
  · intro hd
    refine ⟨((-b + √(b ^ 2 + 4 * a * rate)) / (2 * a), (-b - √(b ^ 2 + 4 * a * rate)) / (2 * a)),
      hA, fun x => ?_⟩
    have hs := Real.sq_sqrt hd
    generalize √(b ^ 2 + 4 * a * rate) = q at hs
    field_simp
    linear_combination (1 : ℝ) * hs

theorem C31_real_roots_of_rate_nonneg (w : ι → ℝ) (hw : ∀ i, 0 ≤ w i) {dt rate : ℝ} (hdt : 0 ≤ dt)
    (hrate : 0 ≤ rate) (v f : ι → ℂ) (hA : coefA w dt f ≠ 0) :
    ∃ r, NpRoots (coefA w dt f) (coefB w v f) (-rate) (some r) := by
  rw [C31_real_roots w dt rate v f hA]
  have : 0 ≤ coefA w dt f :=
    mul_nonneg (by positivity) (Finset.sum_nonneg fun i _ => mul_nonneg (hw i) (by positivity))
  positivity

/-- C31: if there is no real root, no multiple of the raw forcing injects the rate: nothing is
missed by the restriction to real roots. -/
theorem C31_no_real_root (w : ι → ℝ) {dt rate : ℝ} (hdt : dt ≠ 0) (v f : ι → ℂ)
    (hA : coefA w dt f ≠ 0)
    (h : ¬ ∃ r, NpRoots (coefA w dt f) (coefB w v f) (-rate) (some r)) (c : ℝ) :
    energyInput w dt v (scale c f) ≠ rate := by
  rw [C31_real_roots w dt rate v f hA, not_le] at h
  rw [input_scale w hdt]
  intro e
  have e' : coefB w v f ^ 2 + 4 * coefA w dt f * rate = (2 * coefA w dt f * c + coefB w v f) ^ 2 := by
    linear_combination (-4 * coefA w dt f) * e
  rw [e'] at h
  exact absurd h (not_lt.2 (sq_nonneg _))

/-- C31: a raw forcing which vanishes on all the modes that count gives no forcing and no input
(and no exception). -/
theorem C31_zero_raw_forcing (w : ι → ℝ) (hw : ∀ i, 0 < w i) {dt rate : ℝ} (hdt : 0 < dt)
    (v f g : ι → ℂ) (which : String) (roots : Option (ℝ × ℝ))
    (hr : NpRoots (coefA w dt f) (coefB w v f) (-rate) roots) :
    (roots = none ↔ ∀ i, f i = 0) ∧
      (normalize2nd which none f = .ok g → ∀ i, g i = 0) := by
  constructor
  · have hA : coefA w dt f = 0 ↔ ∀ i, f i = 0 := by
      simp only [coefA, sumK]
      constructor
      · intro h i
        have h1 : ∑ i, w i * ‖f i‖ ^ 2 = 0 := by
          rcases mul_eq_zero.1 h with h | h
          · linarith
          · exact h
        rw [Finset.sum_eq_zero_iff_of_nonneg
          (fun i _ => mul_nonneg (hw i).le (by positivity))] at h1
        have := h1 i (Finset.mem_univ i)
        rcases mul_eq_zero.1 this with h | h
        · exact absurd h (hw i).ne'
        · simpa using h
      · intro h; simp [h]
    rw [← hA]
    cases roots with
    | none => exact ⟨fun _ => hr, fun _ => rfl⟩
    | some r => simpa using hr.1
  · intro h i
    obtain ⟨c, hc, rfl⟩ := normalize2nd_ok h
    cases hc
    simp [scale]

/-- C31: the option `minabs` takes a multiple of the raw forcing with the smallest possible
coefficient. -/
theorem C31_minabs (w : ι → ℝ) {dt rate : ℝ} (hdt : dt ≠ 0) (v f : ι → ℂ) (r : ℝ × ℝ)
    (hr : NpRoots (coefA w dt f) (coefB w v f) (-rate) (some r)) :
    ∃ c, normalize2nd "minabs" (some r) f = .ok (scale c f) ∧
      energyInput w dt v (scale c f) = rate ∧
      ∀ c', energyInput w dt v (scale c' f) = rate → |c| ≤ |c'| := by
  have key : ∀ c', energyInput w dt v (scale c' f) = rate → c' = r.1 ∨ c' = r.2 := by
    intro c' h
    rw [input_scale w hdt] at h
    exact (roots_eq hr c').1 (by linarith)
  obtain ⟨r1, r2⟩ := r
  by_cases hlt : |r2| < |r1|
  · have e : normalize2nd "minabs" (some (r1, r2)) f = .ok (scale r2 f) := by
      simp [normalize2nd, coefNormalization, hlt, bind, Except.bind, pure, Except.pure]
    refine ⟨r2, e, C31_rate w hdt v f _ _ _ hr e, fun c' h => ?_⟩
    rcases key c' h with rfl | rfl
    · exact hlt.le
    · exact le_rfl
  · have e : normalize2nd "minabs" (some (r1, r2)) f = .ok (scale r1 f) := by
      simp [normalize2nd, coefNormalization, hlt, bind, Except.bind, pure, Except.pure]
    refine ⟨r1, e, C31_rate w hdt v f _ _ _ hr e, fun c' h => ?_⟩
    rcases key c' h with rfl | rfl
    · exact le_rfl
    · exact not_lt.1 hlt

/-- C31: for a positive rate the option `positive` takes the positive coefficient, which is
unique. -/
theorem C31_positive (w : ι → ℝ) (hw : ∀ i, 0 ≤ w i) {dt rate : ℝ} (hdt : 0 < dt)
    (hrate : 0 < rate) (v f : ι → ℂ) (r : ℝ × ℝ)
    (hr : NpRoots (coefA w dt f) (coefB w v f) (-rate) (some r)) :
    ∃ c, normalize2nd "positive" (some r) f = .ok (scale c f) ∧ 0 < c ∧
      energyInput w dt v (scale c f) = rate ∧
      ∀ c', 0 < c' → energyInput w dt v (scale c' f) = rate → c' = c := by
  have hA : 0 < coefA w dt f := lt_of_le_of_ne
    (mul_nonneg (by positivity) (Finset.sum_nonneg fun i _ => mul_nonneg (hw i) (by positivity)))
    (Ne.symm hr.1)
  have key : ∀ c', energyInput w dt v (scale c' f) = rate → c' = r.1 ∨ c' = r.2 := by
    intro c' h
    rw [input_scale w hdt.ne'] at h
    exact (roots_eq hr c').1 (by linarith)
  obtain ⟨r1, r2⟩ := r
  have hprod : r1 * r2 < 0 := by
    have h0 := hr.2 0
    simp only [zero_sub] at h0
    nlinarith
  by_cases h2 : r2 > 0
  · have e : normalize2nd "positive" (some (r1, r2)) f = .ok (scale r2 f) := by
      simp [normalize2nd, coefNormalization, h2, bind, Except.bind, pure, Except.pure]
    refine ⟨r2, e, h2, C31_rate w hdt.ne' v f _ _ _ hr e, fun c' hc h => ?_⟩
    rcases key c' h with rfl | rfl
    · nlinarith
    · rfl
  · have e : normalize2nd "positive" (some (r1, r2)) f = .ok (scale r1 f) := by
      simp [normalize2nd, coefNormalization, h2, bind, Except.bind, pure, Except.pure]
    have h1 : 0 < r1 := by
      by_contra h; nlinarith
    refine ⟨r1, e, h1, C31_rate w hdt.ne' v f _ _ _ hr e, fun c' hc h => ?_⟩
    rcases key c' h with rfl | rfl
    · rfl
    · exact absurd hc h2

/-- C31: an unknown option is refused as soon as there are two roots; the four documented ones are
accepted. -/
theorem C31_options (which : String) (r : ℝ × ℝ) (f : ι → ℂ) :
    (∃ g, normalize2nd which (some r) f = .ok g) ↔
      which ∈ ["minabs", "first", "second", "positive"] := by
  obtain ⟨r1, r2⟩ := r
  constructor
  · rintro ⟨g, h⟩
    obtain ⟨c, hc, -⟩ := normalize2nd_ok h
    simp only [coefNormalization] at hc
    by_contra hn
    simp only [List.mem_cons, List.not_mem_nil, or_false, not_or] at hn
    rw [if_neg hn.1, if_neg hn.2.1, if_neg hn.2.2.1, if_neg hn.2.2.2] at hc
    cases hc
  · intro h
    have : ∃ c, coefNormalization which (some (r1, r2)) = .ok c := by
      simp only [List.mem_cons, List.not_mem_nil, or_false] at h
      rcases h with rfl | rfl | rfl | rfl
      · by_cases hh : |r2| < |r1|
        · exact ⟨r2, by simp [coefNormalization, hh]⟩
        · exact ⟨r1, by simp [coefNormalization, hh]⟩
      · exact ⟨r1, by simp [coefNormalization]⟩
      · exact ⟨r2, by simp [coefNormalization]⟩
      · by_cases hh : r2 > 0
        · exact ⟨r2, by simp [coefNormalization, hh]⟩
        · exact ⟨r1, by simp [coefNormalization, hh]⟩
    obtain ⟨c, hc⟩ := this
    exact ⟨scale c f, by simp only [normalize2nd, hc]; rfl⟩

/-- C31 (finding): `first` ("root with positive sign before discriminant") and `second` take the
roots in the order of `np.roots`, which is not specified: whatever the equation with two different
roots, an admissible order makes `first` the other root. -/
theorem C31_first_second_violated (w : ι → ℝ) {dt rate : ℝ} (v f : ι → ℂ) (r : ℝ × ℝ)
    (hr : NpRoots (coefA w dt f) (coefB w v f) (-rate) (some r)) :
    ∃ r', NpRoots (coefA w dt f) (coefB w v f) (-rate) (some r') ∧
      coefNormalization "first" (some r') = .ok r.2 ∧
      coefNormalization "second" (some r') = .ok r.1 := by
  refine ⟨(r.2, r.1), ⟨hr.1, fun x => ?_⟩, by simp [coefNormalization],
    by simp [coefNormalization]⟩
  rw [hr.2 x]; ring

/-- C31 (finding): for an unknown type of normalisation the exception is built but not raised: the
raw forcing is used as it is. -/
theorem C31_unknown_type_violated (type : String) (h1 : type ≠ "2nd_degree_eq")
    (h2 : type ≠ "particular_k") (second part : (ι → ℂ) → Except String (ι → ℂ)) (f : ι → ℂ) :
    normalizeForcing type second part f = .ok f := by
  simp [normalizeForcing, h1, h2]

/-- C31: with several forced keys, each key gets its own normalised forcing, hence its own rate, and
the variables which are not forced get none. -/
theorem C31_several_keys {κ : Type} [DecidableEq κ] (w : ι → ℝ) (dt rate : ℝ) (v : κ → ι → ℂ) :
    ∀ (l : List (κ × (ι → ℂ))), (l.map Prod.fst).Nodup →
      (∀ p ∈ l, energyInput w dt (v p.1) p.2 = rate) →
      (∀ k ∈ l.map Prod.fst, energyInput w dt (v k) (computeKeys l k) = rate) ∧
      (∀ k, k ∉ l.map Prod.fst → ∀ i, computeKeys l k i = 0)
  | [], _, _ => ⟨fun _ h => by simp at h, fun _ _ _ => rfl⟩
  | (key, fa) :: rest, hnd, hrate => by
    simp only [List.map_cons, List.nodup_cons] at hnd
    obtain ⟨ih1, ih2⟩ := C31_several_keys w dt rate v rest hnd.2
      (fun p hp => hrate p (List.mem_cons_of_mem _ hp))
    refine ⟨fun k hk => ?_, fun k hk i => ?_⟩
    · by_cases hkk : k = key
      · subst hkk
        have e : computeKeys ((k, fa) :: rest) k = fa := by
          funext i; simp [computeKeys, ih2 k hnd.1 i]
        rw [e]
        exact hrate (k, fa) List.mem_cons_self
      · have e : computeKeys ((key, fa) :: rest) k = computeKeys rest k := by
          funext i; simp [computeKeys, hkk]
        rw [e]
        refine ih1 k ?_
        simpa [hkk] using hk
    · simp only [List.map_cons, List.mem_cons, not_or] at hk
      simp [computeKeys, hk.1, ih2 k hk.2 i]

/-- A case of the hypotheses: one mode, two roots. -/
example : ∃ r, NpRoots (coefA (ι := Unit) (fun _ => 2) 1 (fun _ => 1))
      (coefB (ι := Unit) (fun _ => 2) (fun _ => 1) (fun _ => 1)) (-3) (some r) ∧
    normalize2nd (ι := Unit) "minabs" (some r) (fun _ => 1) = .ok (fun _ => 1) := by
  refine ⟨(1, -3), ⟨?_, fun x => ?_⟩, ?_⟩
  · simp [coefA, sumK]
  · simp [coefA, coefB, sumK]; ring
  · simp [normalize2nd, coefNormalization, bind, Except.bind, pure, Except.pure]
    funext i; simp [scale]

/-- A case of `C31_several_keys`. -/
example : (∀ k ∈ [true, false], energyInput (ι := Unit) (fun _ => 1) 1 (fun _ => 0)
    (computeKeys [(true, fun _ => (2 : ℂ)), (false, fun _ => 2)] k) = 2) := by
  refine (C31_several_keys (ι := Unit) (fun _ => 1) 1 2 (fun _ _ => 0)
    [(true, fun _ => (2 : ℂ)), (false, fun _ => 2)] (by simp) ?_).1
  intro p hp
  simp only [List.mem_cons, List.not_mem_nil, or_false] at hp
  rcases hp with rfl | rfl <;> simp [energyInput, quad] <;> norm_num

/-! ### C31: rates of the energies in ns2d and ns2d.strat -/

/-- C31: with `constant_rate_of="energy"` in ns2d, the forcing of the vorticity injects kinetic
energy at the prescribed rate. -/
theorem C31_ns2d_energy (w kx ky : ι → ℝ) {dt rate : ℝ} (hdt : dt ≠ 0) (v f g : ι → ℂ)
    (rateOf key which : String) (a b : ℝ) (hab : coefABns2d w kx ky rateOf key f v dt = .ok (a, b))
    (r : ℝ × ℝ) (hr : NpRoots a b (-rate) (some r))
    (h : normalize2nd which (some r) f = .ok g) :
    (energyK w kx ky (fun i => v i + dt * g i) - energyK w kx ky v) / dt = rate := by
  obtain ⟨c, hc, rfl⟩ := normalize2nd_ok h
  simp only [coefABns2d] at hab
  split at hab
  · cases hab
  split at hab
  · injection hab with hab
    rw [Prod.mk.injEq] at hab
    obtain ⟨ha, hb⟩ := hab
    simp only [vec_norm, vec_inner] at ha hb
    rw [energyK_step]
    have e1 : sumK w (fun i => invk2 (kx i) (ky i) * ((starRingEnd ℂ) (v i) * scale c f i).re) =
        c * b := by
      rw [← hb]
      simp only [sumK, scale, Finset.mul_sum]
      refine Finset.sum_congr rfl fun i _ => ?_
      rw [← mul_assoc ((starRingEnd ℂ) (v i)), Complex.re_mul_ofReal]; ring
    have e2 : dt / 2 * sumK w (fun i => invk2 (kx i) (ky i) * ‖scale c f i‖ ^ 2) = c ^ 2 * a := by
      rw [← ha]
      simp only [sumK, scale, Finset.mul_sum, norm_mul, Complex.norm_real, mul_pow,
        Real.norm_eq_abs, sq_abs]
      exact Finset.sum_congr rfl fun i _ => by ring
    rw [e1, e2, mul_div_cancel_left₀ _ hdt]
    have := (roots_eq hr c).2 (coef_is_root hc)
    linarith
  · cases hab

/-- C31: only the two energies and only the forcing of the vorticity are accepted in ns2d. -/
theorem C31_ns2d_accepted (w kx ky : ι → ℝ) (rateOf key : String) (f v : ι → ℂ) (dt : ℝ) :
    (∃ ab, coefABns2d w kx ky rateOf key f v dt = .ok ab) ↔
      (rateOf = "energy" ∨ rateOf = "energyK") ∧ key = "rot_fft" := by
  simp only [coefABns2d]
  constructor
  · rintro ⟨ab, h⟩
    split at h
    · cases h
    split at h
    · rename_i h1 h2; exact ⟨by tauto, h2⟩
    · cases h
  · rintro ⟨h1, h2⟩
    rw [if_neg (by tauto), if_pos h2]
    exact ⟨_, rfl⟩

/-- C31: in ns2d.strat with the mode `ap` forced and `constant_rate_of="energy"`, the total (kinetic
plus potential) energy of the flow increases at the prescribed rate, for every state, also if it
contains the other modes. The forcing is `ap`, the state is changed by the corresponding vorticity
and buoyancy. -/
theorem C31_strat_ap_energy (w kx ky : ι → ℝ) {dt rate N : ℝ} (hdt : dt ≠ 0) (hN : N ≠ 0)
    (rot b f g : ι → ℂ) (which : String) (a b' : ℝ)
    (hab : coefABstrat w kx ky N "energy" "ap_fft" f
      (fun i => apFrom N (kx i) (ky i) (rot i) (b i)) dt = .ok (a, b'))
    (r : ℝ × ℝ) (hr : NpRoots a b' (-rate) (some r))
    (h : normalize2nd which (some r) f = .ok g) :
    ((energyK w kx ky (fun i => rot i + dt * (rotbFromAp N (kx i) (ky i) (g i)).1) +
        energyA w N (fun i => b i + dt * (rotbFromAp N (kx i) (ky i) (g i)).2)) -
      (energyK w kx ky rot + energyA w N b)) / dt = rate := by
  obtain ⟨c, hc, rfl⟩ := normalize2nd_ok h
  have hab : (_ : ℝ × ℝ) = (a, b') := Except.ok.inj hab
  rw [Prod.mk.injEq] at hab
  obtain ⟨ha, hb⟩ := hab
  simp only [vec_norm, vec_inner] at ha hb
  have hroot := (roots_eq hr c).2 (coef_is_root hc)
  have hk := energyK_step w kx ky dt rot (fun i => (rotbFromAp N (kx i) (ky i) (scale c f i)).1)
  have hA := energyA_step w N dt b (fun i => (rotbFromAp N (kx i) (ky i) (scale c f i)).2)
  have e1 : sumK w (fun i => invk2 (kx i) (ky i) *
        ((starRingEnd ℂ) (rot i) * (rotbFromAp N (kx i) (ky i) (scale c f i)).1).re) +
      sumK w (fun i => ((starRingEnd ℂ) (b i) *
        (rotbFromAp N (kx i) (ky i) (scale c f i)).2).re) / N ^ 2 = c * b' := by
    rw [← hb]
    simp only [sumK, Finset.mul_sum, Finset.sum_div, ← Finset.sum_add_distrib]
    refine Finset.sum_congr rfl fun i _ => ?_
    have hi := ap_inner hN (kx i) (ky i) (rot i) (b i) (f i)
    simp only [scale, rotbFromAp_scale, ← mul_assoc, Complex.re_mul_ofReal]
    linear_combination (-(w i * c)) * hi
  have e2 : dt / 2 * sumK w (fun i => invk2 (kx i) (ky i) *
        ‖(rotbFromAp N (kx i) (ky i) (scale c f i)).1‖ ^ 2) +
      dt / 2 * sumK w (fun i => ‖(rotbFromAp N (kx i) (ky i) (scale c f i)).2‖ ^ 2) / N ^ 2 =
      c ^ 2 * a := by
    rw [← ha]
    simp only [sumK, scale, rotbFromAp_scale, Finset.mul_sum, Finset.sum_div, norm_mul,
      Complex.norm_real, mul_pow, Real.norm_eq_abs, sq_abs, ← Finset.sum_add_distrib]
    exact Finset.sum_congr rfl fun i _ => by ring
  rw [div_eq_iff hdt]
  linear_combination hk + hA + dt * e1 + dt * e2 + dt * hroot

/-- C31: in ns2d.strat with the vorticity forced, the kinetic energy increases at the prescribed
rate and the potential energy is not forced. -/
theorem C31_strat_rot_energy (w kx ky : ι → ℝ) {dt rate N : ℝ} (hdt : dt ≠ 0) (v f g : ι → ℂ)
    (rateOf which : String) (a b : ℝ)
    (hab : coefABstrat w kx ky N rateOf "rot_fft" f v dt = .ok (a, b))
    (r : ℝ × ℝ) (hr : NpRoots a b (-rate) (some r))
    (h : normalize2nd which (some r) f = .ok g) :
    (energyK w kx ky (fun i => v i + dt * g i) - energyK w kx ky v) / dt = rate := by
  refine C31_ns2d_energy w kx ky hdt v f g rateOf "rot_fft" which a b ?_ r hr h
  simp only [coefABstrat] at hab
  simp only [coefABns2d]
  split at hab
  · cases hab
  · rename_i h1
    rw [if_neg h1]
    exact hab

/-- C31 (finding): with `constant_rate_of="energyK"` and the mode `ap` forced, the code uses the
velocity of the part `ap` of the flow only, and the rate of the kinetic energy is not the prescribed
one if the flow contains the opposite mode. -/
theorem C31_strat_ap_energyK_violated :
    ∃ (rot b f g : Unit → ℂ) (a b' rate : ℝ) (r : ℝ × ℝ),
      coefABstrat (fun _ => 1) (fun _ => 1) (fun _ => 0) 1 "energyK" "ap_fft" f
        (fun i => apFrom 1 1 0 (rot i) (b i)) 1 = .ok (a, b') ∧
      NpRoots a b' (-rate) (some r) ∧ normalize2nd "positive" (some r) f = .ok g ∧
      (energyK (fun _ => 1) (fun _ => 1) (fun _ => 0)
          (fun i => rot i + (1 : ℝ) * (rotbFromAp 1 1 0 (g i)).1) -
        energyK (fun _ => 1) (fun _ => 1) (fun _ => 0) rot) / 1 ≠ rate := by
  have hT : ∀ z : ℂ, (rotbFromAp 1 1 0 z).1 = Complex.I * (1 / 2) * z := fun z => by
    simp [rotbFromAp, rotFromVec]; ring
  refine ⟨fun _ => Complex.I, fun _ => Complex.I, fun _ => 2, fun _ => 2, 1 / 2, 0, 1 / 2,
    (1, -1), ?_, ⟨by norm_num, fun x => by norm_num; ring⟩, ?_, ?_⟩
  · have hap : apFrom 1 1 0 Complex.I Complex.I = 0 := by
      simp [apFrom, vecFromRot, k2not0]
    have hz : (rotbFromAp 1 1 0 0).1 = 0 := by rw [hT]; ring
    have h2 : (rotbFromAp 1 1 0 2).1 = Complex.I := by rw [hT]; ring
    have hn : ‖(vecFromRot 1 0 Complex.I).1‖ ^ 2 + ‖(vecFromRot 1 0 Complex.I).2‖ ^ 2 = 1 := by
      rw [vec_norm]; simp [invk2]
    have hi : ((starRingEnd ℂ) (vecFromRot 1 0 0).1 * (vecFromRot 1 0 Complex.I).1).re +
      ((starRingEnd ℂ) (vecFromRot 1 0 0).2 * (vecFromRot 1 0 Complex.I).2).re = 0 := by
      rw [vec_inner]; simp
    have ne1 : ("ap_fft" = "rot_fft") = False := by decide
    simp only [coefABstrat, ne1, hap, hz, h2, hn, hi, sumK]
    simp
  · have : ¬ ((1 : ℝ) < 0) := by norm_num
    simp [normalize2nd, coefNormalization, this, bind, Except.bind, pure, Except.pure]
    funext i; simp [scale]
  · simp only [energyK, hT]
    simp
    norm_num
    rw [show Complex.I + Complex.I = 2 * Complex.I by ring]
    simp
    norm_num

/-- A case of the hypotheses of `C31_ns2d_energy`. -/
example : ∃ a b r, coefABns2d (ι := Unit) (fun _ => 1) (fun _ => 1) (fun _ => 0) "energy" "rot_fft"
    (fun _ => 1) (fun _ => 0) 2 = .ok (a, b) ∧ NpRoots a b (-4) (some r) := by
  refine ⟨1, 0, (2, -2), ?_, by norm_num, fun x => by ring⟩
  simp only [coefABns2d, vec_norm, vec_inner]
  simp [sumK, invk2]

/-- A case of the hypotheses of `C31_strat_ap_energy` with a state which contains both modes. -/
example : ∃ a b r, coefABstrat (ι := Unit) (fun _ => 1) (fun _ => 1) (fun _ => 0) 1 "energy"
    "ap_fft" (fun _ => 2) (fun _ => apFrom 1 1 0 (3 * Complex.I) (-Complex.I)) 1 = .ok (a, b) ∧
    NpRoots a b (-5) (some r) := by
  have hap : apFrom 1 1 0 (3 * Complex.I) (-Complex.I) = 4 := by
    have : Complex.I * (3 * Complex.I) = -3 := by
      linear_combination 3 * Complex.I_mul_I
    simp [apFrom, vecFromRot, k2not0, this]; norm_num
  have h1 : ∀ z : ℂ, (rotbFromAp 1 1 0 z) = (Complex.I * (1 / 2) * z, -Complex.I * (1 / 2) * z) :=
    fun z => by
      rw [rotbFromAp_ne one_ne_zero]; simp
  refine ⟨1, 4, (1, -5), ?_, by norm_num, fun x => by ring⟩
  have ne1 : ("ap_fft" = "rot_fft") = False := by decide
  have ne2 : ("energy" = "energyK") = False := by decide
  simp only [coefABstrat, vec_norm, vec_inner, h1, hap]
  simp [ne1, ne2, sumK, invk2]
  norm_num

/-! ### C31: normalisation with a particular mode -/

/-- C31: the normalisation with one particular mode also gives exactly the prescribed rate, for every
real field and every raw forcing, provided that the drawn mode has a non-zero real part, that the
modified forcing is not zero and that the rate is not negative. The weights are those of
`sum_wavenumbers`: 1 for `kx = 0` and 2 for the drawn mode otherwise. -/
theorem C31_particular_mode (w : ℕ → ℝ) {n nkx iy ix : ℕ} (hn : Even n) (hy : iy < n)
    (hx : ix < nkx) (hw : w ix = if ix = 0 then 1 else 2) {dt rate : ℝ} (hdt : 0 < dt)
    (hrate : 0 ≤ rate) {v : ℕ → ℕ → ℂ} (hv : RealField n nkx v) (f : ℕ → ℕ → ℂ)
    (hre : (v iy ix).re ≠ 0) (hw0 : ∀ x, 0 ≤ w x)
    (hne : ∃ y x, y < n ∧ x < nkx ∧ w x ≠ 0 ∧ normalizePartK w n nkx dt rate iy ix v f y x ≠ 0) :
    energyInputXY w n nkx dt v (normalizePartK w n nkx dt rate iy ix v f) = rate := by
  have hn0 : 0 < n := by omega
  obtain ⟨f2, hf2⟩ : ∃ f2 : ℕ → ℕ → ℂ, f2 = projRealX n nkx (setEntry (projRealX n nkx f) iy ix
      (((fun c0 : ℝ => if ix ≠ 0 then c0 / 2 else c0)
        (-(sumXY w n nkx (fun y x => ((starRingEnd ℂ) (projRealX n nkx f y x) * v y x).re) -
          (fun part0 : ℝ => if ix = 0 then part0 / 2 else part0)
            ((starRingEnd ℂ) (projRealX n nkx f iy ix) * v iy ix +
              projRealX n nkx f iy ix * (starRingEnd ℂ) (v iy ix)).re) / (v iy ix).re) : ℝ) : ℂ)) :=
    ⟨_, rfl⟩
  have hdef : normalizePartK w n nkx dt rate iy ix v f =
      fun y x => f2 y x * (√(rate / (sumXY w n nkx (fun y x => ‖f2 y x‖ ^ 2) * dt / 2)) : ℝ) := by
    rw [hf2]; rfl
  set PZ := sumXY w n nkx (fun y x => ‖f2 y x‖ ^ 2) * dt / 2 with hPZ
  have hS : sumXY w n nkx (fun y x => ((starRingEnd ℂ) (f2 y x) * v y x).re) = 0 := by
    rw [hf2, proj_inner hn hn0 w hv]
    rw [sumXY_set w hy hx _ (fun y x => ((starRingEnd ℂ) (projRealX n nkx f y x) * v y x).re)]
    · simp only [setEntry, and_self, if_true, hw]
      set S := sumXY w n nkx (fun y x => ((starRingEnd ℂ) (projRealX n nkx f y x) * v y x).re)
      generalize projRealX n nkx f iy ix = p
      generalize v iy ix = u at hre
      have e : (p * (starRingEnd ℂ) u).re = ((starRingEnd ℂ) p * u).re := by
        simp only [Complex.mul_re, Complex.conj_re, Complex.conj_im]; ring
      simp only [Complex.add_re, e, Complex.conj_ofReal, Complex.re_ofReal_mul]
      by_cases h0 : ix = 0
      · simp only [h0, if_true, ne_eq, not_true, if_false]
        field_simp
        ring
      · simp only [h0, if_false, ne_eq, not_false_eq_true, if_true]
        field_simp
        ring
    · intro y x hyx
      simp only [setEntry, if_neg hyx]
  have hPZ0 : 0 < PZ := by
    obtain ⟨y, x, hy', hx', hwx, hnz⟩ := hne
    rw [hdef] at hnz
    have hz : f2 y x ≠ 0 := fun h => hnz (by simp only [h, zero_mul])
    have : 0 < sumXY w n nkx (fun y x => ‖f2 y x‖ ^ 2) := by
      refine Finset.sum_pos' (fun x _ => Finset.sum_nonneg fun y _ =>
        mul_nonneg (hw0 x) (by positivity)) ⟨x, Finset.mem_range.2 hx', ?_⟩
      refine Finset.sum_pos' (fun y _ => mul_nonneg (hw0 x) (by positivity))
        ⟨y, Finset.mem_range.2 hy', ?_⟩
      have := lt_of_le_of_ne (hw0 x) (Ne.symm hwx)
      have := norm_pos_iff.2 hz
      positivity
    positivity
  rw [inputXY_eq w n nkx hdt.ne', hdef]
  have hq := Real.sq_sqrt (div_nonneg hrate hPZ0.le)
  have e1 : sumXY w n nkx (fun y x => ((starRingEnd ℂ)
      (f2 y x * (√(rate / PZ) : ℝ)) * v y x).re) = 0 := by
    have : ∀ y x, ((starRingEnd ℂ) (f2 y x * (√(rate / PZ) : ℝ)) * v y x).re =
        √(rate / PZ) * ((starRingEnd ℂ) (f2 y x) * v y x).re := fun y x => by
      rw [map_mul, Complex.conj_ofReal, mul_assoc, mul_comm, mul_assoc, Complex.re_ofReal_mul,
        mul_comm (v y x)]
    simp only [this]
    rw [← mul_zero √(rate / PZ), ← hS]
    simp only [sumXY, Finset.mul_sum]
    exact Finset.sum_congr rfl fun x _ => Finset.sum_congr rfl fun y _ => by ring
  have e2 : sumXY w n nkx (fun y x => ‖f2 y x * (√(rate / PZ) : ℝ)‖ ^ 2) =
      rate / PZ * sumXY w n nkx (fun y x => ‖f2 y x‖ ^ 2) := by
    simp only [sumXY, Finset.mul_sum, norm_mul, Complex.norm_real, mul_pow, Real.norm_eq_abs,
      sq_abs, hq]
    exact Finset.sum_congr rfl fun x _ => Finset.sum_congr rfl fun y _ => by ring
  rw [e1, e2]
  have hs : sumXY w n nkx (fun y x => ‖f2 y x‖ ^ 2) = 2 * PZ / dt := by
    rw [hPZ]; field_simp
  rw [hs]
  field_simp
  ring

/-- A case of the hypotheses of `C31_particular_mode`. -/
example : RealField 2 2 (fun _ _ => 1) ∧
    normalizePartK (fun x => if x = 0 then 1 else 2) 2 2 1 1 0 0 (fun _ _ => 1)
      (fun y x => if y = 1 ∧ x = 0 then 1 else 0) 1 0 ≠ 0 := by
  constructor
  · intro ix _; simp
  · simp [normalizePartK, sumXY, projRealX, setEntry, Finset.sum_range_succ]

/-! ### C32 -/

/-- C32: one explicit step with the proportional forcing increases the quadratic quantity by exactly
`rate * dt`, as soon as the quantity of the forced band is positive (and, for a negative rate, at
least what has to be removed). -/
theorem C32_rate (w : ι → ℝ) (noF : ι → Bool) {dt rate : ℝ} (hdt : 0 < dt) (v : ι → ℂ)
    (hZ : 0 < quad w (fun i => if noF i then 0 else v i))
    (hrate : 0 ≤ quad w (fun i => if noF i then 0 else v i) + dt * rate) :
    quad w (fun i => v i + dt * proportional w noF dt rate v i) = quad w v + rate * dt := by
  set Z := quad w (fun i => if noF i then 0 else v i) with hZdef
  have hZ' : sumK w (fun i => ‖if noF i then 0 else v i‖ ^ 2 / 2) = Z := by
    simp only [hZdef, quad, sumK]
    exact Finset.sum_congr rfl fun i _ => by ring
  have hs : √(1 + dt * rate / Z) ^ 2 = 1 + dt * rate / Z := by
    refine Real.sq_sqrt ?_
    have : 1 + dt * rate / Z = (Z + dt * rate) / Z := by field_simp
    rw [this]; positivity
  have hstep : ∀ i, v i + dt * proportional w noF dt rate v i =
      if noF i then v i else (√(1 + dt * rate / Z) : ℝ) * v i := by
    intro i
    simp only [proportional, hZ']
    have hd : (dt : ℂ) ≠ 0 := by exact_mod_cast hdt.ne'
    split
    · simp
    · push_cast
      field_simp
      ring
  simp only [hstep]
  generalize √(1 + dt * rate / Z) = q at hs
  have e : ∀ i, w i * ‖if noF i then v i else (q : ℂ) * v i‖ ^ 2 / 2 =
      w i * ‖v i‖ ^ 2 / 2 + (q ^ 2 - 1) * (w i * ‖if noF i then 0 else v i‖ ^ 2 / 2) := by
    intro i
    split
    · simp
    · rw [norm_mul, Complex.norm_real, mul_pow, Real.norm_eq_abs, sq_abs]; ring
  simp only [quad] at hZdef ⊢
  rw [Finset.sum_congr rfl fun i _ => e i, Finset.sum_add_distrib, ← Finset.mul_sum, ← hZdef, hs]
  field_simp
  ring

/-- C32: nothing is forced outside of the band, and in the band the forcing is a common real multiple
of the state. -/
theorem C32_band (w : ι → ℝ) (noF : ι → Bool) (dt rate : ℝ) (v : ι → ℂ) :
    (∀ i, noF i = true → proportional w noF dt rate v i = 0) ∧
      ∃ alpha : ℝ, ∀ i, noF i = false → proportional w noF dt rate v i = alpha * v i := by
  refine ⟨fun i h => by simp [proportional, h],
    ⟨(√(1 + dt * rate / sumK w (fun i => ‖if noF i then 0 else v i‖ ^ 2 / 2)) - 1) / dt,
      fun i h => by simp [proportional, h]⟩⟩

/-- C32: with a positive rate the forcing amplifies. -/
theorem C32_amplifies (w : ι → ℝ) (noF : ι → Bool) {dt rate : ℝ} (hdt : 0 < dt) (hrate : 0 < rate)
    (v : ι → ℂ) (hZ : 0 < quad w (fun i => if noF i then 0 else v i)) :
    ∃ alpha : ℝ, 0 < alpha ∧ ∀ i, noF i = false →
      proportional w noF dt rate v i = alpha * v i := by
  have hZ' : sumK w (fun i => ‖if noF i then 0 else v i‖ ^ 2 / 2) =
      quad w (fun i => if noF i then 0 else v i) := by
    simp only [quad, sumK]
    exact Finset.sum_congr rfl fun i _ => by ring
  refine ⟨(√(1 + dt * rate / quad w (fun i => if noF i then 0 else v i)) - 1) / dt, ?_,
    fun i h => by simp only [proportional, hZ', h]; simp⟩
  refine div_pos (sub_pos.2 ?_) hdt
  refine Real.lt_sqrt_of_sq_lt ?_
  have : 0 < dt * rate / quad w (fun i => if noF i then 0 else v i) := by positivity
  linarith

/-- A case of the hypotheses of C32: two modes, one of them forced. -/
example : 0 < quad (ι := Bool) (fun _ => 2) (fun i => if i then 0 else (3 : ℂ)) ∧
    quad (ι := Bool) (fun _ => 2) (fun i => if i then 0 else (3 : ℂ)) = 9 := by
  constructor
  · simp [quad]
  · simp [quad]; norm_num

/-! ### C33 -/

/-- C33: a second call at the same time changes nothing and does not call the maker. -/
theorem C33_repeated_call {F : Type} (maker : ℝ → F → F) (t : ℝ) (s : Cache F) :
    computeCached maker t (computeCached maker t s).1 = ((computeCached maker t s).1, false) := by
  obtain ⟨last, f⟩ := s
  cases last with
  | none => simp [computeCached]
  | some l =>
    by_cases h : l < t <;> simp [computeCached, h]

/-- C33: a call at a later time than all the previous ones recomputes the forcing. -/
theorem C33_later_call {F : Type} (maker : ℝ → F → F) (t : ℝ) (s : Cache F)
    (h : ∀ l, s.last = some l → l < t) :
    computeCached maker t s = (⟨some t, maker t s.forcing⟩, true) := by
  obtain ⟨last, f⟩ := s
  cases last with
  | none => rfl
  | some l => simp [computeCached, h l rfl]

/-- C33: whatever the sequence of calls, the maker is called at strictly increasing times, hence at
most once per time. -/
theorem C33_once_per_time {F : Type} (maker : ℝ → F → F) : ∀ (ts : List ℝ) (s : Cache F),
    (cacheRun maker ts s).2.Pairwise (· < ·) ∧
      ∀ c ∈ (cacheRun maker ts s).2, ∀ l, s.last = some l → l < c
  | [], _ => ⟨List.Pairwise.nil, fun _ h => by simp [cacheRun] at h⟩
  | t :: ts, s => by
    obtain ⟨ih1, ih2⟩ := C33_once_per_time maker ts (computeCached maker t s).1
    by_cases hc : ∀ l, s.last = some l → l < t
    · have e := C33_later_call maker t s hc
      rw [e] at ih1 ih2
      simp only [cacheRun, e, if_true]
      refine ⟨List.pairwise_cons.2 ⟨fun c hcm => ih2 c hcm t rfl, ih1⟩, fun c hcm l hl => ?_⟩
      rcases List.mem_cons.1 hcm with rfl | hcm
      · exact hc l hl
      · exact (hc l hl).trans (ih2 c hcm t rfl)
    · push Not at hc
      obtain ⟨l, hl, hle⟩ := hc
      have e : computeCached maker t s = (s, false) := by
        simp [computeCached, hl, not_lt.2 hle]
      rw [e] at ih1 ih2
      simp only [cacheRun, e]
      exact ⟨ih1, ih2⟩

/-- C33: if the times never decrease, the maker is called at each of the times of the calls: the
forcing in use is always the one of the current time. -/
theorem C33_every_time {F : Type} (maker : ℝ → F → F) : ∀ (ts : List ℝ) (s : Cache F),
    ts.Pairwise (· ≤ ·) → (∀ l, s.last = some l → ∀ t ∈ ts, l ≤ t) →
      ∀ t ∈ ts, t ∈ (cacheRun maker ts s).2 ∨ s.last = some t
  | [], _, _, _ => fun _ h => by simp at h
  | t :: ts, s, hp, hl => by
    rw [List.pairwise_cons] at hp
    intro u hu
    by_cases hc : ∀ l, s.last = some l → l < t
    · have e := C33_later_call maker t s hc
      have ih := C33_every_time maker ts ⟨some t, maker t s.forcing⟩ hp.2
        (fun l hl' v hv => by cases hl'; exact hp.1 v hv)
      simp only [cacheRun, e, if_true]
      rcases List.mem_cons.1 hu with rfl | hu
      · exact Or.inl List.mem_cons_self
      · rcases ih u hu with h | h
        · exact Or.inl (List.mem_cons_of_mem _ h)
        · injection h with h; subst h; exact Or.inl List.mem_cons_self
    · push Not at hc
      obtain ⟨l, hl', hle⟩ := hc
      have e : computeCached maker t s = (s, false) := by
        simp [computeCached, hl', not_lt.2 hle]
      simp only [cacheRun, e]
      rcases List.mem_cons.1 hu with rfl | hu
      · have : l = u := le_antisymm (hl l hl' u List.mem_cons_self) hle
        subst this; exact Or.inr hl'
      · exact C33_every_time maker ts s hp.2
          (fun l hl' v hv => hl l hl' v (List.mem_cons_of_mem _ hv)) u hu

/-- C33 (finding): if the time is set back (as `set_viscosity` does, which reinitialises the time
stepping), the forcing is not recomputed: the one of a later time is used. -/
theorem C33_time_set_back_violated :
    ∃ (ts : List ℝ), ts = [2, 1] ∧
      (cacheRun (fun t _ => t) ts ⟨none, (0 : ℝ)⟩).1 = [2, 2] := by
  refine ⟨_, rfl, ?_⟩
  have : ¬ ((2 : ℝ) < 1) := by norm_num
  simp [cacheRun, computeCached, this]

/-- A case of C33: three calls, two computations. -/
example : cacheRun (fun t f => t + f) [0, 1, 1] ⟨none, (0 : ℝ)⟩ = ([0, 1, 1], [0, 1]) := by
  simp [cacheRun, computeCached]

/-! ### C34 -/

variable {G F : Type}

/-- C34: at every time the raw forcing is a convex combination of the two current fields. -/
theorem C34_convex [AddCommGroup F] [Module ℝ F] (period t tlc : ℝ) (f0 f1 : F) :
    ∃ a b : ℝ, 0 ≤ a ∧ 0 ≤ b ∧ a + b = 1 ∧ fromF0F1 period t tlc f0 f1 = a • f0 + b • f1 := by
  set c := Real.cos ((t - tlc) * (Real.pi / period)) with hc
  have h1 : -1 ≤ c := Real.neg_one_le_cos _
  have h2 : c ≤ 1 := Real.cos_le_one _
  refine ⟨(c + 1) / 2, 1 - (c + 1) / 2, by linarith, by linarith, by ring, ?_⟩
  rw [fromF0F1, ← hc, show (0.5 * (c + 1) : ℝ) = (c + 1) / 2 by ring, smul_sub, sub_smul, one_smul]
  abel

/-- C34: it equals the first field at the beginning of the interval and the second one at the end. -/
theorem C34_ends [AddCommGroup F] [Module ℝ F] {period : ℝ} (hp : period ≠ 0) (tlc : ℝ) (f0 f1 : F) :
    fromF0F1 period tlc tlc f0 f1 = f0 ∧ fromF0F1 period (tlc + period) tlc f0 f1 = f1 := by
  constructor
  · have : (0.5 * (Real.cos ((tlc - tlc) * (Real.pi / period)) + 1) : ℝ) = 1 := by
      rw [sub_self, zero_mul, Real.cos_zero]; norm_num
    rw [fromF0F1, this, one_smul]; abel
  · have : (0.5 * (Real.cos ((tlc + period - tlc) * (Real.pi / period)) + 1) : ℝ) = 0 := by
      rw [show (tlc + period - tlc) * (Real.pi / period) = Real.pi by field_simp; ring,
        Real.cos_pi]; norm_num
    rw [fromF0F1, this, zero_smul, sub_zero]

/-- C34: between changes it is a continuous function of time. -/
theorem C34_continuous [NormedAddCommGroup F] [NormedSpace ℝ F] (period tlc : ℝ) (f0 f1 : F) :
    Continuous fun t => fromF0F1 period t tlc f0 f1 := by
  unfold fromF0F1
  fun_prop

/-- After a call the time is in the current interval. -/
theorem tcrEach_interval [AddCommGroup F] [Module ℝ F] (r : Rng G F) (b : Bool) {period : ℝ}
    (hp : 0 < period) (t : ℝ) (s : Tcr G F) (h : s.tlc ≤ t) :
    (tcrEach r b period t s).1.tlc ≤ t ∧ t - (tcrEach r b period t s).1.tlc < period := by
  simp only [tcrEach, tcrChange]
  split
  · simp [hp]
  · rename_i h'; exact ⟨h, not_le.1 h'⟩

theorem tcrRun_tlc_le [AddCommGroup F] [Module ℝ F] (r : Rng G F) (b : Bool) (period : ℝ)
    (t : ℝ) : ∀ (ts : List ℝ) (s : Tcr G F), s.tlc ≤ t → (∀ u ∈ ts, u ≤ t) →
      (tcrRun r b period ts s).1.tlc ≤ t
  | [], _, h, _ => h
  | u :: us, s, h, hu => by
    refine tcrRun_tlc_le r b period t us _ ?_ (fun x hx => hu x (List.mem_cons_of_mem _ hx))
    simp only [tcrChange]
    split
    · exact hu u List.mem_cons_self
    · exact h

/-- C34: continuity across the changes. For every history and two consecutive calls at times
`t ≤ t'` (whether the fields change in between or not, and however late the change is detected), the
raw forcing varies by at most `pi / (2 period) * (t' - t)` times the difference of the fields in use:
it is Lipschitz in time, with no jump. -/
theorem C34_no_jump [NormedAddCommGroup F] [NormedSpace ℝ F] (r : Rng G F) (b : Bool) {period : ℝ}
    (hp : 0 < period) (s0 : Tcr G F) (pre : List ℝ) (t t' : ℝ) (htt : t ≤ t')
    (hpre : ∀ u ∈ pre, u ≤ t) (h0 : s0.tlc ≤ t) :
    let s := (tcrRun r b period pre s0).1
    let now := tcrEach r b period t s
    let next := tcrEach r b period t' now.1
    ‖next.2 - now.2‖ ≤ Real.pi / (2 * period) * (t' - t) * ‖now.1.f1 - now.1.f0‖ := by
  intro s now next
  have hs : s.tlc ≤ t := tcrRun_tlc_le r b period t pre s0 h0 hpre
  obtain ⟨h1, h2⟩ := tcrEach_interval r b hp t s hs
  have hnow : now.2 = fromF0F1 period t now.1.tlc now.1.f0 now.1.f1 := rfl
  change now.1.tlc ≤ t at h1
  change t - now.1.tlc < period at h2
  have hpi := Real.pi_pos
  have hom : 0 < Real.pi / period := by positivity
  by_cases hch : t' - now.1.tlc ≥ period
  · have hnext : next.2 = now.1.f1 := by
      have e : next.2 = fromF0F1 period t' t' now.1.f1
          (r.raw (r.seed (r.randint now.1.g).1)).1 := by
        simp only [next, tcrEach, tcrChange, if_pos hch]
      rw [e]
      exact (C34_ends hp.ne' t' _ _).1
    have e : next.2 - now.2 =
        (0.5 * (Real.cos ((t - now.1.tlc) * (Real.pi / period)) + 1) : ℝ) •
          (now.1.f1 - now.1.f0) := by
      rw [hnext, hnow, fromF0F1]; abel
    rw [e, norm_smul]
    refine mul_le_mul_of_nonneg_right ?_ (norm_nonneg _)
    have hc := Real.abs_cos_sub_cos_le ((t - now.1.tlc) * (Real.pi / period)) Real.pi
    rw [Real.cos_pi, sub_neg_eq_add] at hc
    have hle : (t - now.1.tlc) * (Real.pi / period) ≤ Real.pi := by
      have := mul_le_mul_of_nonneg_right h2.le hom.le
      rwa [mul_div_cancel₀ _ hp.ne'] at this
    rw [abs_of_nonpos (by linarith : (t - now.1.tlc) * (Real.pi / period) - Real.pi ≤ 0)] at hc
    have h3 : Real.pi - (t - now.1.tlc) * (Real.pi / period) ≤ Real.pi / period * (t' - t) := by
      have := mul_le_mul_of_nonneg_right hch hom.le
      rw [mul_div_cancel₀ _ hp.ne'] at this
      nlinarith
    rw [Real.norm_eq_abs, abs_mul, abs_of_nonneg (by norm_num : (0 : ℝ) ≤ 0.5)]
    have h4 : Real.pi / (2 * period) * (t' - t) = 0.5 * (Real.pi / period * (t' - t)) := by
      field_simp; ring
    rw [h4]
    refine mul_le_mul_of_nonneg_left ?_ (by norm_num)
    linarith
  · have hnext : next.2 = fromF0F1 period t' now.1.tlc now.1.f0 now.1.f1 := by
      simp only [next, tcrEach, tcrChange, if_neg hch]
    have e : next.2 - now.2 =
        (0.5 * (Real.cos ((t - now.1.tlc) * (Real.pi / period)) -
          Real.cos ((t' - now.1.tlc) * (Real.pi / period))) : ℝ) • (now.1.f1 - now.1.f0) := by
      rw [hnext, hnow, fromF0F1, fromF0F1, sub_sub_sub_cancel_left, ← sub_smul]
      congr 1; ring
    rw [e, norm_smul]
    refine mul_le_mul_of_nonneg_right ?_ (norm_nonneg _)
    have hc := Real.abs_cos_sub_cos_le ((t - now.1.tlc) * (Real.pi / period))
      ((t' - now.1.tlc) * (Real.pi / period))
    rw [← sub_mul, abs_mul, abs_of_pos hom, sub_sub_sub_cancel_right, abs_of_nonpos
      (by linarith : t - t' ≤ 0)] at hc
    rw [Real.norm_eq_abs, abs_mul, abs_of_nonneg (by norm_num : (0 : ℝ) ≤ 0.5)]
    have h4 : Real.pi / (2 * period) * (t' - t) = 0.5 * (-(t - t') * (Real.pi / period)) := by
      field_simp; ring
    rw [h4]
    exact mul_le_mul_of_nonneg_left hc (by norm_num)

/-- C34: restart. For every run with saving enabled, stopped after any number of calls and restarted
in the same directory at any later moment with any state of the generator, the forcings of the
continued run are those of the uninterrupted run, through all the later changes, provided that only
the forcing draws numbers from the global generator. -/
theorem C34_restart [AddCommGroup F] [Module ℝ F] (r : Rng G F) (period : ℝ) (file : StateFile)
    (t0 : ℝ) (g : G) (s0 : Tcr G F) (hinit : tcrInit r true file t0 g = .ok s0)
    (before after : List ℝ) (t1 : ℝ) (g' : G) :
    ∃ s1, tcrInit r true (tcrRun r true period before s0).1.file t1 g' = .ok s1 ∧
      (tcrRun r true period (before ++ after) s0).2 =
        (tcrRun r true period before s0).2 ++ (tcrRun r true period after s1).2 := by
  refine ⟨_, consistent_reinit r (consistent_run r period before (consistent_init r hinit)) t1 g',
    ?_⟩
  rw [tcrRun_append]

/-- C34: restart from an earlier moment (the last saved fields) of a run that went further, if the
random fields were not changed in the meantime. -/
theorem C34_restart_earlier_partial [AddCommGroup F] [Module ℝ F] (r : Rng G F) (period : ℝ)
    (file : StateFile) (t0 : ℝ) (g : G) (s0 : Tcr G F)
    (hinit : tcrInit r true file t0 g = .ok s0) (before lost after : List ℝ) (t1 : ℝ) (g' : G)
    (hlost : ∀ t ∈ lost, t - (tcrRun r true period before s0).1.tlc < period) :
    ∃ s1, tcrInit r true (tcrRun r true period (before ++ lost) s0).1.file t1 g' = .ok s1 ∧
      (tcrRun r true period (before ++ after) s0).2 =
        (tcrRun r true period before s0).2 ++ (tcrRun r true period after s1).2 := by
  rw [tcrRun_append r true period before lost, tcrRun_nochange r true period lost _ hlost]
  exact C34_restart r period file t0 g s0 hinit before after t1 g'

/-- What a run with noise keeps: seeds, fields and file agree. -/
theorem noise_keeps [AddCommGroup F] [Module ℝ F] (r : Rng G F) (period : ℝ) :
    ∀ (ops : List (ℝ × (G → G))) (s : Tcr G F),
      (∃ g, Consistent r { s with g := g }) →
      ∃ g, Consistent r { (tcrRunNoise r true period ops s).1 with g := g }
  | [], _, h => h
  | (t, noise) :: ops, s, ⟨g, h⟩ => by
    refine noise_keeps r period ops _ ?_
    simp only [tcrChange]
    split
    · exact ⟨(r.raw (r.seed (r.randint s.g).1)).2, h.2.1, rfl, rfl, rfl⟩
    · exact ⟨g, h⟩

/-- C34: if other code uses the generator, the restarted run has the same forcing until the next
change of the random fields. -/
theorem C34_restart_noise_partial [AddCommGroup F] [Module ℝ F] (r : Rng G F) (period : ℝ)
    (file : StateFile) (t0 : ℝ) (g : G) (s0 : Tcr G F)
    (hinit : tcrInit r true file t0 g = .ok s0) (before : List (ℝ × (G → G))) (after : List ℝ)
    (t1 : ℝ) (g' : G)
    (hafter : ∀ t ∈ after, t - (tcrRunNoise r true period before s0).1.tlc < period) :
    ∃ s1, tcrInit r true (tcrRunNoise r true period before s0).1.file t1 g' = .ok s1 ∧
      (tcrRun r true period after s1).2 =
        (tcrRun r true period after (tcrRunNoise r true period before s0).1).2 := by
  obtain ⟨g1, hc⟩ := noise_keeps r period before s0 ⟨s0.g, consistent_init r hinit⟩
  set s := (tcrRunNoise r true period before s0).1
  refine ⟨{ s with g := g1 }, consistent_reinit r hc t1 g', ?_⟩
  rw [tcrRun_nochange r true period after s hafter,
    tcrRun_nochange r true period after { s with g := g1 } hafter]

/-- A generator for the examples. -/
noncomputable def toyRng : Rng ℕ ℝ := ⟨fun n => n, fun g => (g, g + 1), fun g => ((g : ℝ), g + 1)⟩

/-- C34 (finding): if other code uses the generator between the calls (the normalisation with a
particular mode does), the run restarted after the first call has another forcing after the next
change. -/
theorem C34_restart_noise_violated :
    ∃ (s0 s1 : Tcr ℕ ℝ), tcrInit toyRng true (.written 0 1 2) 0 0 = .ok s0 ∧
      tcrInit toyRng true (tcrRunNoise toyRng true 1 [(0, (· + 5))] s0).1.file 1 0 = .ok s1 ∧
      (tcrRunNoise toyRng true 1 [(0, (· + 5)), (1, id), (2, id)] s0).2 = [1, 2, 8] ∧
      (tcrRun toyRng true 1 [1, 2] s1).2 = [2, 3] := by
  have h0 : ∀ t a b : ℝ, fromF0F1 1 t t a b = a := fun t a b => (C34_ends one_ne_zero t a b).1
  have ht : ¬ ((1 : ℝ) ≤ 0) := by norm_num
  have h21 : (1 : ℝ) ≤ 2 - 1 := by norm_num
  refine ⟨⟨0, 1, 2, 1, 2, 3, .written 0 1 2⟩, ⟨0, 1, 2, 1, 2, 3, .written 0 1 2⟩, ?_, ?_, ?_, ?_⟩
  · simp [tcrInit, toyRng]
  · simp [tcrRunNoise, tcrEach, tcrChange, ht, tcrInit, toyRng]
  · simp [tcrRunNoise, tcrEach, tcrChange, ht, h21, toyRng, h0]
  · simp [tcrRun, tcrEach, tcrChange, h21, toyRng, h0]

/-- C34 (finding): restarted from fields saved before the last change, the run has another forcing:
the file only holds the last change. -/
theorem C34_restart_before_change_violated :
    ∃ (s0 s1 : Tcr ℕ ℝ), tcrInit toyRng true (.written 0 1 2) 0 0 = .ok s0 ∧
      tcrInit toyRng true (tcrRun toyRng true 1 [0, 1] s0).1.file 0 0 = .ok s1 ∧
      (tcrRun toyRng true 1 [0] s0).2 = [1] ∧ (tcrRun toyRng true 1 [0] s1).2 = [3] := by
  have h0 : ∀ t a b : ℝ, fromF0F1 1 t t a b = a := fun t a b => (C34_ends one_ne_zero t a b).1
  have ht : ¬ ((1 : ℝ) ≤ 0) := by norm_num
  have ht' : ¬ ((1 : ℝ) ≤ -1) := by norm_num
  refine ⟨⟨0, 1, 2, 1, 2, 3, .written 0 1 2⟩, ⟨1, 2, 3, 2, 3, 4, .written 1 2 3⟩, ?_, ?_, ?_, ?_⟩
  · simp [tcrInit, toyRng]
  · simp [tcrRun, tcrEach, tcrChange, ht, tcrInit, toyRng, saveState]
  · simp [tcrRun, tcrEach, tcrChange, ht, h0]
  · simp [tcrRun, tcrEach, tcrChange, ht', fromF0F1]

/-- C34 (finding): a restart in a new directory does not find the file: new random fields are drawn
and the forcing jumps at the restart. -/
theorem C34_restart_new_directory_violated :
    ∃ (s0 s1 : Tcr ℕ ℝ), tcrInit toyRng true (.written 0 1 2) 0 0 = .ok s0 ∧
      tcrInit toyRng true .missing 0 7 = .ok s1 ∧
      (tcrRun toyRng true 1 [0] s0).2 = [1] ∧ (tcrRun toyRng true 1 [0] s1).2 = [7] := by
  have h0 : ∀ t a b : ℝ, fromF0F1 1 t t a b = a := fun t a b => (C34_ends one_ne_zero t a b).1
  have ht : ¬ ((1 : ℝ) ≤ 0) := by norm_num
  refine ⟨⟨0, 1, 2, 1, 2, 3, .written 0 1 2⟩, ⟨0, 7, 8, 7, 8, 9, .written 0 7 8⟩, ?_, ?_, ?_, ?_⟩
  · simp [tcrInit, toyRng]
  · simp [tcrInit, toyRng, saveState]
  · simp [tcrRun, tcrEach, tcrChange, ht, h0]
  · simp [tcrRun, tcrEach, tcrChange, ht, h0]

/-- C34 (finding): a crash while the file is being saved may leave it empty, and then the simulation
cannot be restarted in its directory. -/
theorem C34_crash_while_saving_violated (r : Rng G F) (old : StateFile) (tlc : ℝ) (s0 s1 : ℕ) :
    ∃ file ∈ crashPoints old tlc s0 s1, ∀ t g,
      tcrInit r true file t g = Except.error "IndexError" :=
  ⟨.empty, by simp [crashPoints], fun _ _ => rfl⟩

/-- A case of the hypotheses of C34: a run with a change, restarted, which goes on with another
change. -/
example : ∃ s0 : Tcr ℕ ℝ, tcrInit toyRng true .missing 0 7 = .ok s0 ∧
    (tcrRun toyRng true 1 [0, 1, 2] s0).2 = [7, 8, 9] := by
  have h0 : ∀ t a b : ℝ, fromF0F1 1 t t a b = a := fun t a b => (C34_ends one_ne_zero t a b).1
  have ht : ¬ ((1 : ℝ) ≤ 0) := by norm_num
  have h21 : (1 : ℝ) ≤ 2 - 1 := by norm_num
  refine ⟨⟨0, 7, 8, 7, 8, 9, .written 0 7 8⟩, ?_, ?_⟩
  · simp [tcrInit, toyRng, saveState]
  · simp [tcrRun, tcrEach, tcrChange, ht, h21, toyRng, h0]

end Verif.Forcing
