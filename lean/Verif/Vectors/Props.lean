import Verif.Vectors.Lemmas
import Mathlib.Analysis.SpecialFunctions.Complex.Arg

/-!
# C28, C29, C30: projections and Laplacians
-/

namespace Verif.Vectors

set_option linter.unusedSectionVars false

/-! ### C28 -/

/-- C28: the projected field is orthogonal to the wavevector. -/
theorem C28_orthogonal (k : K3) (v : V3) : kdot k (perpk k v) = 0 := by
  rcases radial_real k with ⟨-, hx, hy, hz⟩ | ⟨-, h⟩
  · simp [kdot, hx, hy, hz]
  · simp only [kdot, perpk, kradial]
    linear_combination (-(k.x * v.x + k.y * v.y + k.z * v.z)) * h

/-- C28: only a multiple of the wavevector is removed. -/
theorem C28_removes_gradient (k : K3) (v : V3) :
    ∃ a : ℂ, v = add (perpk k v) (smul a (ofReal k.x k.y k.z)) := by
  refine ⟨(k.x * v.x + k.y * v.y + k.z * v.z) * ((1 / nozero (k2 k) : ℝ) : ℂ), ?_⟩
  ext <;> simp only [add, smul, ofReal, perpk, kradial] <;> ring

/-- C28: a divergence-free field is unchanged. -/
theorem C28_divergence_free_unchanged (k : K3) (v : V3) (h : kdot k v = 0) : perpk k v = v := by
  simp only [kdot] at h
  ext <;> simp [perpk, kradial, h]

/-- C28: the projection is idempotent. -/
theorem C28_idempotent (k : K3) (v : V3) : perpk k (perpk k v) = perpk k v :=
  C28_divergence_free_unchanged k _ (C28_orthogonal k v)

/-- C28: it is the orthogonal projection: among the divergence-free vectors the result is the
closest one to the field. -/
theorem C28_closest (k : K3) (v w : V3) (hw : kdot k w = 0) :
    (inner (sub v (perpk k v)) (sub v (perpk k v))).re ≤ (inner (sub v w) (sub v w)).re := by
  obtain ⟨a, ha⟩ := C28_removes_gradient k v
  have h0 := C28_orthogonal k v
  set p := perpk k v with hp
  have hd : kdot k (sub p w) = 0 := by
    simp only [kdot, sub] at *
    linear_combination h0 - hw
  have e : inner (sub v w) (sub v w) = inner (sub v p) (sub v p) +
      inner (sub p w) (sub p w) + (a * (starRingEnd ℂ) (kdot k (sub p w)) +
        (starRingEnd ℂ) a * kdot k (sub p w)) := by
    rw [ha]
    simp only [inner, sub, add, smul, ofReal, kdot, map_sub, map_add, map_mul, Complex.conj_ofReal]
    ring
  rw [hd] at e
  simp only [map_zero, mul_zero, add_zero] at e
  rw [e, Complex.add_re]
  have : 0 ≤ (inner (sub p w) (sub p w)).re := by
    simp only [inner, Complex.mul_conj, ← Complex.ofReal_add, Complex.ofReal_re]
    have h1 := Complex.normSq_nonneg (sub p w).x
    have h2 := Complex.normSq_nonneg (sub p w).y
    have h3 := Complex.normSq_nonneg (sub p w).z
    positivity
  linarith

/-- C28: the radial projection is the complementary part: a multiple of the wavevector, zero
exactly when the field is divergence free. -/
theorem C28_radial (k : K3) (v : V3) :
    add (perpk k v) (kradial k v) = v ∧ (kradial k v = zero ↔ kdot k v = 0) ∧
      kradial k (kradial k v) = kradial k v := by
  refine ⟨?_, ?_, ?_⟩
  · ext <;> simp [add, perpk]
  · constructor
    · intro h
      have h0 := C28_orthogonal k v
      simp only [kdot, perpk, h, zero, sub_zero] at h0 ⊢
      exact h0
    · intro h
      simp only [kdot] at h
      ext <;> simp [kradial, h, zero]
  · rcases radial_real k with ⟨-, hx, hy, hz⟩ | ⟨-, h⟩
    · ext <;> simp [kradial, hx, hy, hz]
    · ext <;> simp only [kradial]
      · linear_combination (k.x * ((k.x * v.x + k.y * v.y + k.z * v.z) *
          ((1 / nozero (k2 k) : ℝ) : ℂ))) * h
      · linear_combination (k.y * ((k.x * v.x + k.y * v.y + k.z * v.z) *
          ((1 / nozero (k2 k) : ℝ) : ℂ))) * h
      · linear_combination (k.z * ((k.x * v.x + k.y * v.y + k.z * v.z) *
          ((1 / nozero (k2 k) : ℝ) : ℂ))) * h

/-- k = (3, 0, 4), v = (1, 2, 0): the projection is (16/25, 2, -12/25). -/
example : perpk ⟨3, 0, 4⟩ ⟨1, 2, 0⟩ = ⟨16 / 25, 2, -12 / 25⟩ := by
  have h : nozero (k2 ⟨3, 0, 4⟩) = 25 := by norm_num [nozero, k2, kh2]
  simp only [perpk, kradial, h]
  ext <;> push_cast <;> norm_num

/-! ### C29 -/

/-- C29: the poloidal projection is the projection on the documented unit vector, for every
wavevector that is not vertical. -/
theorem C29_poloidal_documented (r θ φ : ℝ) (hr : 0 < r) (hθ : 0 < Real.sin θ) (v : V3) :
    poloidal (spherical r θ φ) v = smul (dot v (eTheta θ φ)) (eTheta θ φ) ∧
    toroidal (spherical r θ φ) v = smul (dot v (ePhi φ)) (ePhi φ) := by
  have hc : Real.cos φ ^ 2 + Real.sin φ ^ 2 = 1 := Real.cos_sq_add_sin_sq φ
  have ht : Real.cos θ ^ 2 + Real.sin θ ^ 2 = 1 := Real.cos_sq_add_sin_sq θ
  have h1 : kh2 (spherical r θ φ) = (r * Real.sin θ) ^ 2 := by
    simp only [kh2, spherical]; linear_combination ((r * Real.sin θ) ^ 2) * hc
  have h2 : k2 (spherical r θ φ) = r ^ 2 := by
    rw [k2, h1]; simp only [spherical]; linear_combination (r ^ 2) * ht
  have hrs : 0 < r * Real.sin θ := mul_pos hr hθ
  have n1 : nozero (kh2 (spherical r θ φ)) = (r * Real.sin θ) ^ 2 := by
    rw [h1]; exact nozero_of_ne (by positivity)
  have n2 : nozero (k2 (spherical r θ φ)) = r ^ 2 := by
    rw [h2]; exact nozero_of_ne (by positivity)
  have s1 : √(1 / (r * Real.sin θ) ^ 2) = 1 / (r * Real.sin θ) := by
    rw [Real.sqrt_div zero_le_one, Real.sqrt_one, Real.sqrt_sq hrs.le]
  have s2 : √(1 / r ^ 2) = 1 / r := by
    rw [Real.sqrt_div zero_le_one, Real.sqrt_one, Real.sqrt_sq hr.le]
  have a1 : cosTheta (spherical r θ φ) = Real.cos θ := by
    rw [cosTheta, n2, s2]; simp only [spherical]; field_simp
  have a2 : sinTheta (spherical r θ φ) = Real.sin θ := by
    rw [sinTheta, n2, h1, show (r * Real.sin θ) ^ 2 * (1 / r ^ 2) = Real.sin θ ^ 2 by field_simp,
      Real.sqrt_sq hθ.le]
  have a3 : cosPhi (spherical r θ φ) = Real.cos φ := by
    rw [cosPhi, n1, s1]; simp only [spherical]; field_simp
  have a4 : sinPhi (spherical r θ φ) = Real.sin φ := by
    rw [sinPhi, n1, s1]; simp only [spherical]; field_simp
  constructor
  · ext <;> simp only [poloidal, smul, dot, eTheta, ofReal, a1, a2, a3, a4] <;> push_cast <;> ring
  · ext <;> simp only [toroidal, smul, dot, ePhi, ofReal, a3, a4] <;> push_cast <;> ring

/-- Every wavevector that is not vertical has such coordinates: the previous theorem covers all
non-shear modes. -/
theorem C29_spherical_covers (k : K3) (h : ¬ Shear k) :
    ∃ r θ φ, 0 < r ∧ 0 < Real.sin θ ∧ k = spherical r θ φ := by
  obtain ⟨κ, h', h1, h2, h3, h4, h5, h6, h7, h8⟩ := angles h
  have hs : 0 < sinTheta k := by
    rw [h4] at h2; exact (mul_pos_iff_of_pos_left h1).1 h2
  have circle : ∀ c s : ℝ, c ^ 2 + s ^ 2 = 1 → ∃ t, Real.cos t = c ∧ Real.sin t = s := by
    intro c s hcs
    have hn : ‖(⟨c, s⟩ : ℂ)‖ = 1 := by
      rw [Complex.norm_def, Complex.normSq_mk, show c * c + s * s = 1 by linarith [hcs, sq c, sq s],
        Real.sqrt_one]
    refine ⟨Complex.arg ⟨c, s⟩, ?_, ?_⟩
    · rw [Complex.cos_arg (by intro e; rw [e] at hn; simp at hn), hn, div_one]
    · rw [Complex.sin_arg, hn, div_one]
  obtain ⟨θ, t1, t2⟩ := circle _ _ h7
  obtain ⟨φ, p1, p2⟩ := circle _ _ h8
  refine ⟨κ, θ, φ, h1, by rw [t2]; exact hs, ?_⟩
  obtain ⟨x, y, z⟩ := k
  simp only at h3 h5 h6
  simp only [spherical, t1, t2, p1, p2, K3.mk.injEq]
  refine ⟨?_, ?_, h3⟩
  · conv_lhs => rw [h5, h4]
    ring
  · conv_lhs => rw [h6, h4]
    ring

/-- C29: both projections are idempotent, their composition is zero, and the two parts of any
two fields are orthogonal. -/
theorem C29_orthogonal_idempotents (k : K3) (v w : V3) :
    poloidal k (poloidal k v) = poloidal k v ∧ toroidal k (toroidal k v) = toroidal k v ∧
    poloidal k (toroidal k v) = zero ∧ toroidal k (poloidal k v) = zero ∧
    inner (poloidal k v) (toroidal k w) = 0 := by
  by_cases h : Shear k
  · have p := poloidal_shear h
    have t := toroidal_shear h
    refine ⟨by rw [p, p], by rw [t, t], by rw [p], by rw [t], ?_⟩
    rw [p, t]; simp [inner, zero]
  · obtain ⟨κ, h', -, -, -, -, -, -, ht, hp⟩ := anglesC h
    refine ⟨?_, ?_, ?_, ?_, ?_⟩
    · ext <;> simp only [poloidal]
      · linear_combination (cosTheta k * cosPhi k * (cosTheta k * cosPhi k * v.x +
          cosTheta k * sinPhi k * v.y - sinTheta k * v.z)) * (ht + (cosTheta k : ℂ) ^ 2 * hp)
      · linear_combination (cosTheta k * sinPhi k * (cosTheta k * cosPhi k * v.x +
          cosTheta k * sinPhi k * v.y - sinTheta k * v.z)) * (ht + (cosTheta k : ℂ) ^ 2 * hp)
      · linear_combination (-sinTheta k * (cosTheta k * cosPhi k * v.x +
          cosTheta k * sinPhi k * v.y - sinTheta k * v.z)) * (ht + (cosTheta k : ℂ) ^ 2 * hp)
    · ext <;> simp only [toroidal]
      · linear_combination (-sinPhi k * (-sinPhi k * v.x + cosPhi k * v.y)) * hp
      · linear_combination (cosPhi k * (-sinPhi k * v.x + cosPhi k * v.y)) * hp
    · ext <;> simp only [poloidal, toroidal, zero] <;> ring
    · ext <;> simp only [poloidal, toroidal, zero] <;> ring
    · simp only [inner, poloidal, toroidal, map_mul, map_neg, Complex.conj_ofReal, map_zero]
      ring

/-- C29: a divergence-free field is the sum of its poloidal and toroidal parts, plus its shear
modes. -/
theorem C29_decomposition (k : K3) (v : V3) (hv : kdot k v = 0) :
    (¬ Shear k → add (poloidal k v) (toroidal k v) = v) ∧
    (Shear k → poloidal k v = zero ∧ toroidal k v = zero) := by
  refine ⟨fun h => ?_, fun h => ⟨poloidal_shear h v, toroidal_shear h v⟩⟩
  obtain ⟨κ, h', hκ, hh, e1, e2, e3, e4, ht, hp⟩ := anglesC h
  have hd : (sinTheta k : ℂ) * (cosPhi k * v.x + sinPhi k * v.y) + cosTheta k * v.z = 0 := by
    have : κ * ((sinTheta k : ℂ) * (cosPhi k * v.x + sinPhi k * v.y) + cosTheta k * v.z) = 0 := by
      rw [← hv, kdot, e1, e3, e4, e2]; ring
    exact (mul_eq_zero.1 this).resolve_left hκ
  ext <;> simp only [add, poloidal, toroidal]
  · linear_combination (-(sinTheta k : ℂ) * cosPhi k) * hd +
      (cosPhi k * (cosPhi k * v.x + sinPhi k * v.y)) * ht + v.x * hp
  · linear_combination (-(sinTheta k : ℂ) * sinPhi k) * hd +
      (sinPhi k * (cosPhi k * v.x + sinPhi k * v.y)) * ht + v.y * hp
  · linear_combination (-(cosTheta k : ℂ)) * hd + v.z * ht

/-- C29: the two parts are divergence free. -/
theorem C29_parts_divergence_free (k : K3) (v : V3) :
    kdot k (poloidal k v) = 0 ∧ kdot k (toroidal k v) = 0 := by
  by_cases h : Shear k
  · rw [poloidal_shear h, toroidal_shear h]; simp [kdot, zero]
  · obtain ⟨κ, h', hκ, hh, e1, e2, e3, e4, ht, hp⟩ := anglesC h
    constructor
    · simp only [kdot, poloidal, e1, e3, e4, e2]
      linear_combination (κ * sinTheta k * cosTheta k * (cosTheta k * cosPhi k * v.x +
          cosTheta k * sinPhi k * v.y - sinTheta k * v.z)) * hp
    · simp only [kdot, toroidal, e3, e4]; ring

/-- C29: the poloidal and toroidal scalars carry the projected field: converting to the scalar
and back is the projection. -/
theorem C29_scalar_roundtrip (k : K3) (v : V3) :
    vecFromVp k (vpFromVec k v) = poloidal k v ∧ vecFromVt k (vtFromVec k v) = toroidal k v := by
  have hI : Complex.I ^ 2 = -1 := Complex.I_sq
  constructor
  · ext <;> simp only [vecFromVp, vpFromVec, poloidal]
  · ext <;> simp only [vecFromVt, vtFromVec, toroidal]
    · linear_combination (-(sinPhi k : ℂ) ^ 2 * v.x + sinPhi k * cosPhi k * v.y) * hI
    · linear_combination ((sinPhi k : ℂ) * cosPhi k * v.x - (cosPhi k : ℂ) ^ 2 * v.y) * hI

/-- C29: off the shear modes the scalar of the vector of a scalar is that scalar, and it has the
modulus of the vector (same energy). -/
theorem C29_scalar_energy (k : K3) (h : ¬ Shear k) (a : ℂ) (v : V3) :
    vpFromVec k (vecFromVp k a) = a ∧ vtFromVec k (vecFromVt k a) = a ∧
    inner (poloidal k v) (poloidal k v) = vpFromVec k v * (starRingEnd ℂ) (vpFromVec k v) ∧
    inner (toroidal k v) (toroidal k v) = vtFromVec k v * (starRingEnd ℂ) (vtFromVec k v) := by
  obtain ⟨κ, h', hκ, hh, e1, e2, e3, e4, ht, hp⟩ := anglesC h
  have hI : Complex.I ^ 2 = -1 := Complex.I_sq
  refine ⟨?_, ?_, ?_, ?_⟩
  · simp only [vpFromVec, vecFromVp]
    linear_combination a * ht + (a * (cosTheta k : ℂ) ^ 2) * hp
  · simp only [vtFromVec, vecFromVt]
    linear_combination a * hp - (a * ((sinPhi k : ℂ) ^ 2 + (cosPhi k : ℂ) ^ 2)) * hI
  · simp only [inner, poloidal, vpFromVec, map_mul, map_add, map_sub, map_neg,
      Complex.conj_ofReal]
    set t := (cosTheta k * cosPhi k * v.x + cosTheta k * sinPhi k * v.y - sinTheta k * v.z : ℂ)
    set t' := (cosTheta k * cosPhi k * (starRingEnd ℂ) v.x +
      cosTheta k * sinPhi k * (starRingEnd ℂ) v.y - sinTheta k * (starRingEnd ℂ) v.z : ℂ)
    linear_combination (t * t') * ht + (t * t' * (cosTheta k : ℂ) ^ 2) * hp
  · simp only [inner, toroidal, vtFromVec, map_mul, map_add, map_neg,
      Complex.conj_ofReal, Complex.conj_I, map_zero]
    set t := (-sinPhi k * v.x + cosPhi k * v.y : ℂ) with ht
    set t' := (-sinPhi k * (starRingEnd ℂ) v.x + cosPhi k * (starRingEnd ℂ) v.y : ℂ) with ht'
    have : (-Complex.I * sinPhi k * v.x + Complex.I * cosPhi k * v.y) *
        (- -Complex.I * sinPhi k * (starRingEnd ℂ) v.x +
          -Complex.I * cosPhi k * (starRingEnd ℂ) v.y) = t * t' := by
      rw [ht, ht']
      linear_combination (-(-sinPhi k * v.x + cosPhi k * v.y) *
        (-sinPhi k * (starRingEnd ℂ) v.x + cosPhi k * (starRingEnd ℂ) v.y)) * hI
    rw [this]
    linear_combination (t * t') * hp

/-- C29: the horizontal decomposition: the rotational part (with the shear modes) has no
horizontal divergence, the divergent part has no vertical vorticity, their sum is the field. -/
theorem C29_urud (k : K3) (vx vy : ℂ) :
    let q := urud k vx vy
    q.1.1 + q.2.1 = vx ∧ q.1.2 + q.2.2 = vy ∧ divh k q.1.1 q.1.2 = 0 ∧ rotz k q.2.1 q.2.2 = 0 ∧
    (Shear k → q.2 = (0, 0)) ∧
    (¬ Shear k → q.1 = vxvyFromRotz k (rotz k vx vy) ∧ q.2 = vxvyFromDivh k (divh k vx vy)) := by
  have hI : Complex.I ^ 2 = -1 := Complex.I_sq
  have hinv : ¬ Shear k →
      ((1 / nozero (kh2 k) : ℝ) : ℂ) * ((k.x : ℂ) ^ 2 + (k.y : ℂ) ^ 2) = 1 := by
    intro h
    rw [nozero_of_ne (kh2_pos h).ne']
    have : ((1 / kh2 k) * (k.x ^ 2 + k.y ^ 2) : ℝ) = 1 := by
      have e : k.x ^ 2 + k.y ^ 2 = kh2 k := rfl
      have := (kh2_pos h).ne'
      rw [e]; field_simp
    exact_mod_cast this
  refine ⟨?_, ?_, ?_, ?_, ?_, ?_⟩
  · simp [urud]
  · simp [urud]
  · by_cases h : Shear k
    · simp [divh, h.1, h.2]
    · simp only [divh, urud]
      linear_combination (-Complex.I * (k.x * vx + k.y * vy)) * hinv h
  · simp only [rotz, urud]; ring
  · intro h; simp [urud, h.1, h.2]
  · intro h
    refine ⟨Prod.ext ?_ ?_, Prod.ext ?_ ?_⟩ <;>
      simp only [urud, vxvyFromRotz, vxvyFromDivh, rotz, divh]
    · linear_combination (-vx) * hinv h + (-(k.y : ℂ) * ((1 / nozero (kh2 k) : ℝ) : ℂ) *
        (k.x * vy - k.y * vx)) * hI
    · linear_combination (-vy) * hinv h + ((k.x : ℂ) * ((1 / nozero (kh2 k) : ℝ) : ℂ) *
        (k.x * vy - k.y * vx)) * hI
    · linear_combination ((k.x : ℂ) * ((1 / nozero (kh2 k) : ℝ) : ℂ) *
        (k.x * vx + k.y * vy)) * hI
    · linear_combination ((k.y : ℂ) * ((1 / nozero (kh2 k) : ℝ) : ℂ) *
        (k.x * vx + k.y * vy)) * hI

/-- k = (3, 4, 12) is not a shear mode, v = (4, -3, 0) is divergence free there and is purely
toroidal. -/
example : ¬ Shear ⟨3, 4, 12⟩ ∧ kdot ⟨3, 4, 12⟩ ⟨4, -3, 0⟩ = 0 := by
  constructor
  · norm_num [Shear]
  · norm_num [kdot]

/-! ### C28 for the solvers -/

theorem projected_manifold (p : Projection) (k : K3) (v : V3) :
    kdot k (projector p k v) = 0 ∧ InManifold p k (projector p k v) := by
  cases p
  · exact ⟨C28_orthogonal k v, trivial⟩
  · refine ⟨(C29_parts_divergence_free k v).2, ?_⟩
    by_cases h : Shear k
    · refine ⟨0, ?_⟩
      simp only [projector, toroidal_shear h]
      ext <;> simp [zero]
    · obtain ⟨κ, h', hκ, hh, e1, e2, e3, e4, ht, hp⟩ := anglesC h
      refine ⟨(-sinPhi k * v.x + cosPhi k * v.y) / h', ?_⟩
      ext <;> simp only [projector, toroidal, e3, e4] <;> field_simp
  · refine ⟨(C29_parts_divergence_free k v).1, ?_⟩
    by_cases h : Shear k
    · simp only [InManifold, projector, poloidal_shear h]; simp [zero]
    · obtain ⟨κ, h', hκ, hh, e1, e2, e3, e4, ht, hp⟩ := anglesC h
      simp only [InManifold, projector, poloidal, e3, e4]; ring

/-- C28, solvers: after a time step of any ns3d solver (any scheme, any previous state, any
projection option), the velocity is divergence free and on the chosen manifold at every mode,
truncated modes are zero, and with `no_vz_kz0` the vertical velocity and the buoyancy are zero
at `kz = 0`. -/
theorem C28_state_after_step {ι : Type*} (K : ι → K3) (masked : ι → Bool) (p : Projection)
    (noVzKz0 : Bool) (rk : (ι → ModeState) → ι → ModeState) (s : ι → ModeState) (i : ι) :
    let s' := oneStep K masked p noVzKz0 rk s i
    kdot (K i) s'.v = 0 ∧ InManifold p (K i) s'.v ∧
    (masked i = true → s'.v = zero ∧ ∀ b, s'.b = some b → b = 0) ∧
    (noVzKz0 = true → (K i).z = 0 → s'.v.z = 0 ∧ ∀ b, s'.b = some b → b = 0) := by
  have hz : InManifold p (K i) zero := by
    cases p
    · trivial
    · exact ⟨0, by ext <;> simp [zero]⟩
    · simp [InManifold, zero]
  have hpr := projected_manifold p (K i) (rk s i).v
  simp only [oneStep, dealias, projectState]
  by_cases hm : masked i = true
  · simp only [hm, if_true]
    refine ⟨by simp [kdot], hz, fun _ => ⟨rfl, ?_⟩, fun _ _ => ⟨trivial, ?_⟩⟩ <;>
    · intro b hb
      split_ifs at hb <;> simp at hb <;> obtain ⟨_, _, rfl⟩ := hb <;> rfl
  · simp only [hm, Bool.false_eq_true, if_false]
    by_cases hc : noVzKz0 = true ∧ |(K i).z| = 0
    · rw [if_pos hc]
      have hz0 : (K i).z = 0 := abs_eq_zero.1 hc.2
      refine ⟨?_, ?_, fun h => absurd h (by simp), fun _ _ => ⟨rfl, ?_⟩⟩
      · have := hpr.1
        simp only [kdot, hz0] at this ⊢
        simpa using this
      · have := hpr.2
        cases p
        · trivial
        · obtain ⟨a, ha⟩ := this
          exact ⟨a, by rw [ha]⟩
        · exact this
      · intro b hb
        simp at hb
        obtain ⟨_, _, rfl⟩ := hb
        rfl
    · rw [if_neg hc]
      refine ⟨hpr.1, hpr.2, fun h => absurd h (by simp), fun h1 h2 => ?_⟩
      exact absurd ⟨h1, by rw [h2, abs_zero]⟩ hc

/-- C28, solvers: hence after any number of steps, with any schemes. -/
theorem C28_state_always {ι : Type*} (K : ι → K3) (masked : ι → Bool) (p : Projection)
    (noVzKz0 : Bool) (rks : List ((ι → ModeState) → ι → ModeState)) (s : ι → ModeState)
    (h0 : ∀ i, kdot (K i) (s i).v = 0) (i : ι) :
    kdot (K i) (rks.foldl (fun s rk => oneStep K masked p noVzKz0 rk s) s i).v = 0 := by
  induction rks generalizing s with
  | nil => exact h0 i
  | cons rk rks ih =>
    exact ih _ fun j => (C28_state_after_step K masked p noVzKz0 rk s j).1

/-- C28, solvers: the projection does nothing to a state already divergence free (default
projection, no truncated mode): it does not perturb the scheme. -/
theorem C28_projection_neutral {ι : Type*} (K : ι → K3)
    (rk : (ι → ModeState) → ι → ModeState) (s : ι → ModeState)
    (h : ∀ i, kdot (K i) (rk s i).v = 0) :
    oneStep K (fun _ => false) .none false rk s = rk s := by
  funext i
  simp [oneStep, dealias, projectState, projector, C28_divergence_free_unchanged _ _ (h i)]

/-- The options accepted for the projection. -/
theorem C28_projection_option (s : Option String) :
    (∃ p, chooseProjector s = .ok p) ↔
      s = none ∨ s = some "toroidal" ∨ s = some "vortical" ∨ s = some "poloidal" := by
  unfold chooseProjector
  split <;> simp_all

/-- C28, solvers: what the option means for the state after a time step: with "toroidal" or "vortical"
the flow has no vertical velocity, with "poloidal" it has no vertical vorticity. -/
theorem C28_projection_option_effect {ι : Type*} (K : ι → K3) (masked : ι → Bool) (o : String)
    (p : Projection) (h : chooseProjector (some o) = .ok p) (noVzKz0 : Bool)
    (rk : (ι → ModeState) → ι → ModeState) (s : ι → ModeState) (i : ι) :
    let v := (oneStep K masked p noVzKz0 rk s i).v
    (o = "toroidal" ∨ o = "vortical" → v.z = 0) ∧
      (o = "poloidal" → rotz (K i) v.x v.y = 0) := by
  intro v
  have hm := (C28_state_after_step K masked p noVzKz0 rk s i).2.1
  constructor
  · intro ho
    have hp : p = .toroidal := by
      rcases ho with rfl | rfl <;> simpa [chooseProjector] using h.symm
    subst hp
    obtain ⟨a, ha⟩ := hm
    change (oneStep K masked .toroidal noVzKz0 rk s i).v.z = 0
    rw [ha]
  · rintro rfl
    have hp : p = .poloidal := by simpa [chooseProjector] using h.symm
    subst hp
    change _ = _ at hm
    simp only [rotz]
    linear_combination Complex.I * hm

/-- C28: the gradient of a scalar is along the wavevector and its divergence is the Laplacian of the
scalar; a gradient is removed by the projection. -/
theorem C28_gradient (k : K3) (a : ℂ) :
    grad k a = smul (Complex.I * a) (ofReal k.x k.y k.z) ∧
      Complex.I * kdot k (grad k a) = -(k2 k : ℂ) * a ∧ perpk k (grad k a) = zero := by
  have h1 : grad k a = smul (Complex.I * a) (ofReal k.x k.y k.z) := by
    ext <;> simp only [grad, smul, ofReal] <;> ring
  have hI : Complex.I ^ 2 = -1 := Complex.I_sq
  refine ⟨h1, ?_, ?_⟩
  · simp only [kdot, grad, k2, kh2]; push_cast
    linear_combination (((k.x : ℂ) ^ 2 + (k.y : ℂ) ^ 2 + (k.z : ℂ) ^ 2) * a) * hI
  · rcases radial_real k with ⟨-, hx, hy, hz⟩ | ⟨-, h⟩
    · ext <;> simp [perpk, kradial, grad, zero, hx, hy, hz]
    · ext <;> simp only [perpk, kradial, grad, zero]
      · linear_combination (-Complex.I * k.x * a) * h
      · linear_combination (-Complex.I * k.y * a) * h
      · linear_combination (-Complex.I * k.z * a) * h

/-! ### C30 -/

theorem abs_pow_even (kx ky : ℝ) (m : ℕ) :
    (((√(kx ^ 2 + ky ^ 2)) ^ (2 * m) : ℝ) : ℂ) = ((kx : ℂ) ^ 2 + (ky : ℂ) ^ 2) ^ m := by
  rw [pow_mul, Real.sq_sqrt (by positivity)]; push_cast; rfl

theorem lapSymbol_eq (kx ky : ℝ) (m : ℕ) :
    lapSymbol kx ky (2 * m) = powI (2 * (m : ℤ)) * ((kx : ℂ) ^ 2 + (ky : ℂ) ^ 2) ^ m := by
  have e : powI (2 * (m : ℤ)) = (-1) ^ m := by
    unfold powI
    rw [zpow_mul, show (Complex.I ^ (2 : ℤ)) = -1 by
      rw [show ((2 : ℤ)) = ((2 : ℕ) : ℤ) by rfl, zpow_natCast, Complex.I_sq], zpow_natCast]
  rw [lapSymbol, e, Nat.mul_div_cancel_left _ (by norm_num), ← mul_pow, mul_pow, mul_pow,
    Complex.I_sq]
  ring

section
variable {ι : Type*} [DecidableEq ι] {origin : ι} {rank : ℕ} {kx ky : ι → ℝ}

theorem laplacian_ok {attr : ℤ → Option (ι → ℝ)} {Kn : ι → ℝ} (m : ℕ)
    (ha : attr (2 * (m : ℤ)) = some Kn) (a : ι → ℂ) (negative : Bool) :
    laplacian attr a (2 * (m : ℤ)) negative =
      .ok fun i => (if negative then -1 else 1) * powI (2 * (m : ℤ)) * (a i * Kn i) := by
  have him : ¬ (powI (2 * (m : ℤ))).im ≠ 0 := by
    rcases powI_even m with h | h <;> simp [h]
  simp only [laplacian, if_neg him, ha]
  cases negative <;> simp only [Bool.false_eq_true, if_false, if_true] <;> split_ifs with h <;>
    congr 1 <;> funext i <;> simp only [lapArr]
  · rw [h]; ring
  · ring
  · linear_combination (-(a i * Kn i)) * h
  · ring

theorem invlaplacian_ok {attr : ℤ → Option (ι → ℝ)} {Kn : ι → ℝ} (m : ℕ)
    (ha : attr (2 * (m : ℤ)) = some Kn) (a : ι → ℂ) (negative : Bool) :
    invlaplacian origin rank attr a (2 * (m : ℤ)) negative =
      .ok fun i => (if negative then -1 else 1) * powI (2 * (m : ℤ)) *
        (if rank = 0 ∧ i = origin then 0 else a i / Kn i) := by
  have hinv : 1 / powI (2 * (m : ℤ)) = powI (2 * (m : ℤ)) := by
    rcases powI_even m with h | h <;> rw [h] <;> norm_num
  have him : ¬ (1 / powI (2 * (m : ℤ))).im ≠ 0 := by
    rcases powI_even m with h | h <;> simp [h]
  rw [hinv] at him
  simp only [invlaplacian, hinv, if_neg him, ha]
  cases negative <;> simp only [Bool.false_eq_true, if_false, if_true] <;> split_ifs with h <;>
    congr 1 <;> funext i <;> simp only [invlapArr]
  · rw [h]; ring
  · ring
  · generalize (if rank = 0 ∧ i = origin then (0 : ℂ) else a i / Kn i) = t
    linear_combination (-t) * h
  · ring

/-- C30: for every even order whose array exists, `laplacian_fft` multiplies each mode by the
symbol of the Laplacian to the power `order/2`, with the requested sign. -/
theorem C30_laplacian (m : ℕ) (attr : ℤ → Option (ι → ℝ)) (Kn KnNot0 : ι → ℝ)
    (ha : attr (2 * (m : ℤ)) = some Kn)
    (hw : Wavenumbers origin rank kx ky (2 * m) Kn KnNot0) (a : ι → ℂ) (negative : Bool) :
    ∃ l, laplacian attr a (2 * (m : ℤ)) negative = .ok l ∧
      ∀ i, l i = (if negative then -1 else 1) * (lapSymbol (kx i) (ky i) (2 * m) * a i) := by
  refine ⟨_, laplacian_ok m ha a negative, fun i => ?_⟩
  rw [lapSymbol_eq, hw.kn, abs_pow_even]; ring

/-- C30: the inverse Laplacian of the Laplacian is the field without its mean mode, for every
even order and both sign conventions; and conversely. -/
theorem C30_inverse (m : ℕ) (attr attrNot0 : ℤ → Option (ι → ℝ)) (Kn KnNot0 : ι → ℝ)
    (ha : attr (2 * (m : ℤ)) = some Kn) (hn : attrNot0 (2 * (m : ℤ)) = some KnNot0)
    (hw : Wavenumbers origin rank kx ky (2 * m) Kn KnNot0) (a : ι → ℂ) (negative : Bool) :
    (∃ l r, laplacian attr a (2 * (m : ℤ)) negative = .ok l ∧
      invlaplacian origin rank attrNot0 l (2 * (m : ℤ)) negative = .ok r ∧
      ∀ i, r i = if kx i = 0 ∧ ky i = 0 then 0 else a i) ∧
    (∃ l r, invlaplacian origin rank attrNot0 a (2 * (m : ℤ)) negative = .ok l ∧
      laplacian attr l (2 * (m : ℤ)) negative = .ok r ∧
      ∀ i, r i = if kx i = 0 ∧ ky i = 0 then 0 else a i) := by
  have hs : powI (2 * (m : ℤ)) * powI (2 * (m : ℤ)) = 1 := by
    rcases powI_even m with h | h <;> rw [h] <;> norm_num
  have hneg : ∀ b : Bool, ((if b then -1 else 1 : ℂ)) * (if b then -1 else 1) = 1 := by
    intro b; cases b <;> norm_num
  have hK : ∀ i, ¬ (kx i = 0 ∧ ky i = 0) → (KnNot0 i : ℂ) = Kn i ∧ (Kn i : ℂ) ≠ 0 := by
    intro i hi
    have hi' : kx i ≠ 0 ∨ ky i ≠ 0 := by
      by_contra hc
      push Not at hc
      exact hi hc
    have h := (hw.not0 i).2 hi'
    refine ⟨by rw [h], ?_⟩
    rw [← h]
    exact_mod_cast (hw.not0 i).1
  constructor
  · refine ⟨_, _, laplacian_ok m ha a negative, invlaplacian_ok m hn _ negative, fun i => ?_⟩
    by_cases h0 : kx i = 0 ∧ ky i = 0
    · rw [if_pos h0, if_pos ((hw.mean i).1 h0), mul_zero]
    · obtain ⟨e, hne⟩ := hK i h0
      rw [if_neg h0, if_neg (fun h => h0 ((hw.mean i).2 h)), e]
      field_simp
      linear_combination (a i * powI (2 * (m : ℤ)) * powI (2 * (m : ℤ))) * hneg negative +
        a i * hs
  · refine ⟨_, _, invlaplacian_ok m hn a negative, laplacian_ok m ha _ negative, fun i => ?_⟩
    by_cases h0 : kx i = 0 ∧ ky i = 0
    · rw [if_pos h0]
      simp [(hw.mean i).1 h0]
    · obtain ⟨e, hne⟩ := hK i h0
      rw [if_neg h0, if_neg (fun h => h0 ((hw.mean i).2 h)), e]
      field_simp
      linear_combination (a i * powI (2 * (m : ℤ)) * powI (2 * (m : ℤ))) * hneg negative +
        a i * hs

/-- C30: every odd order is refused by both methods. -/
theorem C30_odd_refused (m : ℤ) (attr : ℤ → Option (ι → ℝ)) (a : ι → ℂ) (negative : Bool) :
    laplacian attr a (2 * m + 1) negative = .error "ValueError" ∧
    invlaplacian origin rank attr a (2 * m + 1) negative = .error "ValueError" := by
  have h := powI_odd m
  constructor
  · rcases h with h | h <;> simp [laplacian, h]
  · rcases h with h | h <;> simp [invlaplacian, h]

/-- C30: an even order is refused only if the operator has no array for it (the documented
orders are 2, 4 and 8). -/
theorem C30_even_missing (m : ℤ) (attr : ℤ → Option (ι → ℝ)) (h : attr (2 * m) = none)
    (a : ι → ℂ) (negative : Bool) :
    laplacian attr a (2 * m) negative = .error "AttributeError" := by
  have hp := powI_even m
  rcases hp with h' | h' <;> simp [laplacian, h', h]

end

/-- C30: a stream function gives a divergence-free velocity whose vorticity is its Laplacian. -/
theorem C30_stream_function (kx ky : ℝ) (psi : ℂ) :
    let u := uxuyFromPsi kx ky psi
    Complex.I * kx * u.1 + Complex.I * ky * u.2 = 0 ∧
    Complex.I * kx * u.2 - Complex.I * ky * u.1 = lapSymbol kx ky 2 * psi := by
  constructor
  · simp only [uxuyFromPsi]; ring
  · simp only [uxuyFromPsi, lapSymbol]; ring

/-- Wavenumbers on three modes with the mean mode first: the hypotheses are met for order 4. -/
example : Wavenumbers (0 : Fin 3) 0 (fun i => (i : ℕ)) (fun i => 2 * (i : ℕ)) 4
    (fun i => (√(((i : ℕ) : ℝ) ^ 2 + (2 * ((i : ℕ) : ℝ)) ^ 2)) ^ 4)
    (fun i => if i = 0 then 1 / 10 ^ 9
      else (√(((i : ℕ) : ℝ) ^ 2 + (2 * ((i : ℕ) : ℝ)) ^ 2)) ^ 4) := by
  refine ⟨fun i => rfl, fun i => ?_, fun i => ?_⟩
  · by_cases h : i = 0
    · subst h; simp
    · have hp : (0 : ℝ) < ((i : ℕ) : ℝ) := by
        have : (i : ℕ) ≠ 0 := fun e => h (Fin.ext e)
        exact_mod_cast Nat.pos_of_ne_zero this
      refine ⟨?_, fun _ => by simp [h]⟩
      simp only [h, if_false]
      positivity
  · constructor
    · rintro ⟨h, -⟩
      refine ⟨rfl, ?_⟩
      have : (i : ℕ) = 0 := by exact_mod_cast h
      exact Fin.ext this
    · rintro ⟨-, rfl⟩; simp

end Verif.Vectors
