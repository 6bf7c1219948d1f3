import Verif.StateVars.Props
import Verif.StateVars.Model3d
import Verif.Vectors.Props

/-! # C77: the variables given by the states of ns3d, ns3d.strat, ns3d.bouss and plate2d -/

set_option linter.unusedSectionVars false
set_option linter.unusedSimpArgs false

namespace Verif.StateVars

open Verif.Fourier Verif.Energy Verif.Vectors Finset

noncomputable section

/-! ### Specification -/

/-- The meaning of the names of the 3D solvers, for the velocity `(x, y, z)` and the wavevector `k` of one mode: vertical
vorticity, horizontal divergence, poloidal component `v · e_θ` and toroidal component `i v · e_φ`, with
`e_θ = (kx kz, ky kz, -kh²) / (|k| kh)` and `e_φ = (-ky, kx, 0) / kh`; the two are zero for the vertical wavevectors,
where the directions are not defined. -/
def mode3 (k : K3) (v : V3) (b : ℂ) : Var → Option ℂ
  | .vx_fft | .vx => some v.x
  | .vy_fft | .vy => some v.y
  | .vz_fft | .vz => some v.z
  | .b_fft | .b => some b
  | .rotz_fft | .rotz => some (Complex.I * k.x * v.y - Complex.I * k.y * v.x)
  | .divh_fft | .divh => some (Complex.I * k.x * v.x + Complex.I * k.y * v.y)
  | .vp_fft | .vp => some (if k.x = 0 ∧ k.y = 0 then 0 else
      (k.z * (k.x * v.x + k.y * v.y) - (k.x ^ 2 + k.y ^ 2) * v.z)
        / (√(k.x ^ 2 + k.y ^ 2 + k.z ^ 2) * √(k.x ^ 2 + k.y ^ 2) : ℝ))
  | .vt_fft | .vt => some (if k.x = 0 ∧ k.y = 0 then 0 else
      Complex.I * (k.x * v.y - k.y * v.x) / (√(k.x ^ 2 + k.y ^ 2) : ℝ))
  | _ => none

/-- The array `a` holds the variable `key`: in spectral space for the kept modes, else its values at the points of the
grid. -/
def Holds3 (δ : Fin 3 → ℝ) (n : Fin 3 → ℕ) (S : Finset (Fin 3 → ℤ)) (s : Flow3) (key : Var) : Arr3 n → Prop
  | .K a => key ∈ [Var.vx_fft, .vy_fft, .vz_fft, .b_fft, .rotz_fft, .divh_fft, .vp_fft, .vt_fft] ∧
      ∀ k ∈ S, mode3 (wave3 δ k) (s.v k) (s.b k) key = some (a k)
  | .X a => key ∈ [Var.vx, .vy, .vz, .b, .rotz, .divh, .vp, .vt] ∧
      ∃ f : Fld (Fin 3), (∀ k ∈ S, mode3 (wave3 δ k) (s.v k) (s.b k) key = some (f k)) ∧ ∀ j, a j = gridVal n S f j

/-! ### Proofs -/

variable {δ : Fin 3 → ℝ} {n : Fin 3 → ℕ} {S : Finset (Fin 3 → ℤ)}

theorem ranked_ns3d : Ranked (ns3dState δ n S) rankV := by
  intro key r h d hd
  cases key <;> simp only [ns3dState, rules3, ofK3, reduceCtorEq, Option.some.injEq] at h <;>
    subst h <;> simp only [List.mem_singleton, List.not_mem_nil] at hd <;> subst hd <;> decide

theorem ranked_strat3 : Ranked (strat3State δ n S) rankV := by
  intro key r h d hd
  cases key <;> simp only [strat3State, rules3, ofK3, reduceCtorEq, Option.some.injEq] at h <;>
    subst h <;> simp only [List.mem_singleton, List.not_mem_nil] at hd <;> subst hd <;> decide

theorem coherent_ns3d (s : Flow3) : Coherent (ns3dState δ n S) s (fun _ => False) :=
  coherent_of_none fun key r h => by
    cases key <;> simp only [ns3dState, rules3, ofK3, reduceCtorEq, Option.some.injEq] at h <;> subst h <;> rfl

theorem coherent_strat3 (s : Flow3) : Coherent (strat3State δ n S) s (fun _ => False) :=
  coherent_of_none fun key r h => by
    cases key <;> simp only [strat3State, rules3, ofK3, reduceCtorEq, Option.some.injEq] at h <;> subst h <;> rfl

theorem vp_formula (k : K3) (v : V3) : vpFromVec k v = if k.x = 0 ∧ k.y = 0 then 0 else
    (k.z * (k.x * v.x + k.y * v.y) - (k.x ^ 2 + k.y ^ 2) * v.z)
      / (√(k.x ^ 2 + k.y ^ 2 + k.z ^ 2) * √(k.x ^ 2 + k.y ^ 2) : ℝ) := by
  by_cases h : k.x = 0 ∧ k.y = 0
  · obtain ⟨h1, h2, h3⟩ := angles_shear (k := k) h
    rw [if_pos h]
    simp [vpFromVec, h1, h2, h3]
  · rw [if_neg h]
    have hh := kh2_pos (k := k) h
    have hk := k2_pos_of_not_shear (k := k) h
    have a1 : (0 : ℝ) < √(kh2 k) := Real.sqrt_pos.mpr hh
    have a2 : (0 : ℝ) < √(k2 k) := Real.sqrt_pos.mpr hk
    have e1 : cosTheta k = k.z / √(k2 k) := by
      rw [cosTheta, nozero_of_ne hk.ne', Real.sqrt_div zero_le_one, Real.sqrt_one]; ring
    have e2 : sinTheta k = √(kh2 k) / √(k2 k) := by
      rw [sinTheta, nozero_of_ne hk.ne', Real.sqrt_mul hh.le, Real.sqrt_div zero_le_one, Real.sqrt_one]; ring
    have e3 : cosPhi k = k.x / √(kh2 k) := by
      rw [cosPhi, nozero_of_ne hh.ne', Real.sqrt_div zero_le_one, Real.sqrt_one]; ring
    have e4 : sinPhi k = k.y / √(kh2 k) := by
      rw [sinPhi, nozero_of_ne hh.ne', Real.sqrt_div zero_le_one, Real.sqrt_one]; ring
    have s1 : ((√(kh2 k) : ℝ) : ℂ) ^ 2 = k.x ^ 2 + k.y ^ 2 := by
      rw [← Complex.ofReal_pow, Real.sq_sqrt hh.le, kh2]; push_cast; rfl
    have n1 : ((√(kh2 k) : ℝ) : ℂ) ≠ 0 := by exact_mod_cast a1.ne'
    have n2 : ((√(k2 k) : ℝ) : ℂ) ≠ 0 := by exact_mod_cast a2.ne'
    have f1 : k.x ^ 2 + k.y ^ 2 + k.z ^ 2 = k2 k := rfl
    have f2 : k.x ^ 2 + k.y ^ 2 = kh2 k := rfl
    rw [vpFromVec, e1, e2, e3, e4, f1, f2]
    push_cast
    rw [← s1]
    field_simp

theorem vt_formula (k : K3) (v : V3) : vtFromVec k v = if k.x = 0 ∧ k.y = 0 then 0 else
    Complex.I * (k.x * v.y - k.y * v.x) / (√(k.x ^ 2 + k.y ^ 2) : ℝ) := by
  by_cases h : k.x = 0 ∧ k.y = 0
  · obtain ⟨h1, h2, h3⟩ := angles_shear (k := k) h
    rw [if_pos h]
    simp [vtFromVec, h1, h2, h3]
  · rw [if_neg h]
    have hh := kh2_pos (k := k) h
    have e3 : cosPhi k = k.x / √(kh2 k) := by
      rw [cosPhi, nozero_of_ne hh.ne', Real.sqrt_div zero_le_one, Real.sqrt_one]; ring
    have e4 : sinPhi k = k.y / √(kh2 k) := by
      rw [sinPhi, nozero_of_ne hh.ne', Real.sqrt_div zero_le_one, Real.sqrt_one]; ring
    have f2 : k.x ^ 2 + k.y ^ 2 = kh2 k := rfl
    rw [vtFromVec, e3, e4, f2]
    push_cast
    ring

theorem rotz_formula (k : K3) (x y : ℂ) : rotzFft k x y = Complex.I * k.x * y - Complex.I * k.y * x := by
  rw [rotzFft]; ring

theorem divh_formula (k : K3) (x y : ℂ) : divh k x y = Complex.I * k.x * x + Complex.I * k.y * y := by
  rw [divh]; ring

/-- C77: every variable of ns3d, ns3d.strat and ns3d.bouss (velocity, vertical vorticity, horizontal divergence, poloidal
and toroidal components, and the buoyancy in the last two) is the documented function of the flow, whatever was read
before in the iteration. -/
theorem C77_ns3d (s : Flow3) (key : Var)
    (hkey : key ∈ [Var.vx, .vy, .vz, .rotz, .divh, .vp, .vt, .vx_fft, .vy_fft, .vz_fft, .rotz_fft, .divh_fft, .vp_fft,
      .vt_fft]) :
    Gives (ns3dState δ n S) s key (Holds3 δ n S s key) ∧ Gives (strat3State δ n S) s key (Holds3 δ n S s key) ∧
    Gives (strat3State δ n S) s .b (Holds3 δ n S s .b) ∧ Gives (strat3State δ n S) s .b_fft (Holds3 δ n S s .b_fft) := by
  have hg1 : ∀ {key : Var} {v : Arr3 n} {R : Arr3 n → Prop}, value (ns3dState δ n S) s key = some v → R v →
      Gives (ns3dState δ n S) s key R := fun hv hR =>
    gives_of_value ranked_ns3d rankV_le (coherent_ns3d s) id hv hR
  have hg2 : ∀ {key : Var} {v : Arr3 n} {R : Arr3 n → Prop}, value (strat3State δ n S) s key = some v → R v →
      Gives (strat3State δ n S) s key R := fun hv hR =>
    gives_of_value ranked_strat3 rankV_le (coherent_strat3 s) id hv hR
  refine ⟨?_, ?_, hg2 rfl ⟨by simp, _, fun _ _ => rfl, fun _ => rfl⟩, hg2 rfl ⟨by simp, fun _ _ => rfl⟩⟩
  · simp only [List.mem_cons, List.not_mem_nil, or_false] at hkey
    rcases hkey with rfl | rfl | rfl | rfl | rfl | rfl | rfl | rfl | rfl | rfl | rfl | rfl | rfl | rfl <;>
      refine hg1 rfl ?_ <;> first
      | exact ⟨by simp, _, fun k _ => by rfl, fun _ => rfl⟩
      | exact ⟨by simp, fun k _ => by rfl⟩
      | exact ⟨by simp, _, fun k _ => congrArg some (rotz_formula _ _ _).symm, fun _ => rfl⟩
      | exact ⟨by simp, _, fun k _ => congrArg some (divh_formula _ _ _).symm, fun _ => rfl⟩
      | exact ⟨by simp, _, fun k _ => congrArg some (vp_formula _ _).symm, fun _ => rfl⟩
      | exact ⟨by simp, _, fun k _ => congrArg some (vt_formula _ _).symm, fun _ => rfl⟩
      | exact ⟨by simp, fun k _ => congrArg some (rotz_formula _ _ _).symm⟩
      | exact ⟨by simp, fun k _ => congrArg some (divh_formula _ _ _).symm⟩
      | exact ⟨by simp, fun k _ => congrArg some (vp_formula _ _).symm⟩
      | exact ⟨by simp, fun k _ => congrArg some (vt_formula _ _).symm⟩
  · simp only [List.mem_cons, List.not_mem_nil, or_false] at hkey
    rcases hkey with rfl | rfl | rfl | rfl | rfl | rfl | rfl | rfl | rfl | rfl | rfl | rfl | rfl | rfl <;>
      refine hg2 rfl ?_ <;> first
      | exact ⟨by simp, _, fun k _ => by rfl, fun _ => rfl⟩
      | exact ⟨by simp, fun k _ => by rfl⟩
      | exact ⟨by simp, _, fun k _ => congrArg some (rotz_formula _ _ _).symm, fun _ => rfl⟩
      | exact ⟨by simp, _, fun k _ => congrArg some (divh_formula _ _ _).symm, fun _ => rfl⟩
      | exact ⟨by simp, _, fun k _ => congrArg some (vp_formula _ _).symm, fun _ => rfl⟩
      | exact ⟨by simp, _, fun k _ => congrArg some (vt_formula _ _).symm, fun _ => rfl⟩
      | exact ⟨by simp, fun k _ => congrArg some (rotz_formula _ _ _).symm⟩
      | exact ⟨by simp, fun k _ => congrArg some (divh_formula _ _ _).symm⟩
      | exact ⟨by simp, fun k _ => congrArg some (vp_formula _ _).symm⟩
      | exact ⟨by simp, fun k _ => congrArg some (vt_formula _ _).symm⟩

/-- C77: for a velocity without divergence, at every mode which is not vertical the poloidal component gives the vertical
velocity, `vz = -(kh/|k|) vp`, and the toroidal one the vertical vorticity, `rotz = kh vt`; the energy of the mode is the
sum of the energies of the two. -/
theorem C77_poltor (k : K3) (v : V3) (hk : ¬ (k.x = 0 ∧ k.y = 0)) (hv : k.x * v.x + k.y * v.y + k.z * v.z = 0)
    {vp vt : ℂ} (hp : mode3 k v 0 .vp_fft = some vp) (ht : mode3 k v 0 .vt_fft = some vt) :
    v.z = -((√(k.x ^ 2 + k.y ^ 2) / √(k.x ^ 2 + k.y ^ 2 + k.z ^ 2) : ℝ) : ℂ) * vp ∧
    Complex.I * k.x * v.y - Complex.I * k.y * v.x = (√(k.x ^ 2 + k.y ^ 2) : ℝ) * vt ∧
    ‖v.x‖ ^ 2 + ‖v.y‖ ^ 2 + ‖v.z‖ ^ 2 = ‖vp‖ ^ 2 + ‖vt‖ ^ 2 := by
  simp only [mode3, if_neg hk, Option.some.injEq] at hp ht
  have hh := kh2_pos (k := k) hk
  have hk2 := k2_pos_of_not_shear (k := k) hk
  simp only [k2, kh2] at hh hk2
  have a1 : ((√(k.x ^ 2 + k.y ^ 2) : ℝ) : ℂ) ≠ 0 := by exact_mod_cast (Real.sqrt_pos.mpr hh).ne'
  have a2 : ((√(k.x ^ 2 + k.y ^ 2 + k.z ^ 2) : ℝ) : ℂ) ≠ 0 := by exact_mod_cast (Real.sqrt_pos.mpr hk2).ne'
  have s1 : ((√(k.x ^ 2 + k.y ^ 2) : ℝ) : ℂ) ^ 2 = k.x ^ 2 + k.y ^ 2 := by
    rw [← Complex.ofReal_pow, Real.sq_sqrt hh.le]; push_cast; rfl
  have s2 : ((√(k.x ^ 2 + k.y ^ 2 + k.z ^ 2) : ℝ) : ℂ) ^ 2 = k.x ^ 2 + k.y ^ 2 + k.z ^ 2 := by
    rw [← Complex.ofReal_pow, Real.sq_sqrt hk2.le]; push_cast; rfl
  refine ⟨?_, ?_, ?_⟩
  · rw [← hp]
    push_cast
    rw [eq_comm, neg_mul, neg_eq_iff_eq_neg, div_mul_div_comm, div_eq_iff (by
      exact mul_ne_zero a2 (mul_ne_zero a2 a1))]
    linear_combination (((√(k.x ^ 2 + k.y ^ 2) : ℝ) : ℂ) * k.z) * hv
      + (((√(k.x ^ 2 + k.y ^ 2) : ℝ) : ℂ) * v.z) * s2
  · rw [← ht]
    rw [mul_div_cancel₀ _ a1]; ring
  · have e1 := (C29_scalar_energy k (h := hk) 0 v).2.2
    have d := (C29_decomposition k v hv).1 hk
    have o := (C29_orthogonal_idempotents k v v).2.2.2.2
    have hvp : vpFromVec k v = vp := by rw [vp_formula, if_neg hk]; exact hp
    have hvt : vtFromVec k v = vt := by rw [vt_formula, if_neg hk]; exact ht
    rw [hvp, hvt] at e1
    have key : inner v v = inner (poloidal k v) (poloidal k v) + inner (toroidal k v) (toroidal k v) := by
      have o' : (starRingEnd ℂ) (inner (poloidal k v) (toroidal k v)) = 0 := by rw [o, map_zero]
      conv_lhs => rw [← d]
      simp only [inner, add, map_add, map_mul, Complex.conj_conj] at o o' ⊢
      linear_combination o + o'
    rw [e1.1, e1.2] at key
    simp only [inner, Complex.mul_conj] at key
    have := congrArg Complex.re key
    simp only [Complex.add_re, Complex.ofReal_re, Complex.normSq_eq_norm_sq] at this
    exact this

/-- C77: `has_vars` is right for ns3d, ns3d.strat and ns3d.bouss: the announced variables are exactly those which can be
read. -/
theorem C77_announced_3d (s : Flow3) (key : Var) :
    (hasVar (ns3dState δ n S) key = true ↔ Gives (ns3dState δ n S) s key fun _ => True) ∧
    (hasVar (strat3State δ n S) key = true ↔ Gives (strat3State δ n S) s key fun _ => True) := by
  constructor <;> constructor
  · intro h
    cases key <;> first
      | (simp [hasVar, ns3dState] at h; done)
      | exact gives_of_value ranked_ns3d rankV_le (coherent_ns3d s) id rfl trivial
  · intro h
    obtain ⟨v, hv, -⟩ := h []
    cases key <;> first
      | rfl
      | exact absurd hv (by simp [reads, getVar, compute, ns3dState, rules3, Cache.empty])
  · intro h
    cases key <;> first
      | (simp [hasVar, strat3State] at h; done)
      | exact gives_of_value ranked_strat3 rankV_le (coherent_strat3 s) id rfl trivial
  · intro h
    obtain ⟨v, hv, -⟩ := h []
    cases key <;> first
      | rfl
      | exact absurd hv (by simp [reads, getVar, compute, strat3State, rules3, Cache.empty])

/-! ### plate2d -/

variable {m : Fin 2 → ℕ} {ε : Fin 2 → ℝ} {T G : Finset (Fin 2 → ℤ)}

theorem ranked_plate : Ranked (plateState m ε T G) rankV := by
  intro key r h d hd
  cases key <;> simp only [plateState, direct, ofK, reduceCtorEq, Option.some.injEq] at h <;>
    subst h <;> simp only [List.mem_singleton, List.not_mem_nil] at hd <;> subst hd <;> decide

theorem coherent_plate (s : Plate) : Coherent (plateState m ε T G) s (fun _ => False) :=
  coherent_of_none fun key r h => by
    cases key <;> simp only [plateState, direct, ofK, reduceCtorEq, Option.some.injEq] at h <;> subst h <;> rfl

/-- C77: the variables of plate2d, whatever was read before: the deflection `z`, its velocity `w`, the Airy function
"chi" with `Δ²χ = -{z, z}` and no mean, and "Nw_fft" which is the nonlinear part of the tendency of `w`. -/
theorem C77_plate2d_partial (hε : ∀ d, ε d ≠ 0) (s : Plate) :
    Gives (plateState m ε T G) s .w (Same m T (.X (gridVal m T s.w))) ∧
    Gives (plateState m ε T G) s .z (Same m T (.X (gridVal m T s.z))) ∧
    Gives (plateState m ε T G) s .w_fft (Same m T (.K s.w)) ∧
    Gives (plateState m ε T G) s .z_fft (Same m T (.K s.z)) ∧
    (∃ c : Fld (Fin 2), c 0 = 0 ∧
      (∀ k, k ≠ 0 → ((((ε 0 * k 0) ^ 2 + (ε 1 * k 1) ^ 2) ^ 2 : ℝ) : ℂ) * c k
        = -fftCoef m (mongeAmpere m ε T T s.z s.z) k) ∧
      Gives (plateState m ε T G) s .chi_fft (Same m G (.K c)) ∧
      Gives (plateState m ε T G) s .chi (Same m G (.X (gridVal m G c)))) ∧
    Gives (plateState m ε T G) s .Nw_fft fun a => ∃ N, a = .K N ∧ ∀ k ∈ T,
      (plate2d m ε T G s.w s.z).1 k = -((((ε 0 * k 0) ^ 2 + (ε 1 * k 1) ^ 2) ^ 2 : ℝ) : ℂ) * s.z k + N k := by
  have hg : ∀ {key : Var} {v : Arr m} {R : Arr m → Prop}, value (plateState m ε T G) s key = some v → R v →
      Gives (plateState m ε T G) s key R := fun hv hR =>
    gives_of_value ranked_plate rankV_le (coherent_plate s) id hv hR
  refine ⟨hg rfl fun _ => rfl, hg rfl fun _ => rfl, hg rfl fun _ _ => rfl, hg rfl fun _ _ => rfl,
    ⟨chiFft m ε T s.z, by simp [chiFft], ?_, hg rfl fun _ _ => rfl, hg rfl fun _ => rfl⟩, hg rfl ⟨_, rfl, ?_⟩⟩
  · intro k hk
    rw [chiFft, if_neg hk, mul_neg, mul_div_cancel₀]
    have h : Sw1l.Par.Ok ⟨ε, 0, 1⟩ := ⟨hε, one_pos⟩
    have h2 := h.k2_pos hk
    simp only [Sw1l.Par.k2, Sw1l.Par.kx, Sw1l.Par.ky] at h2
    exact_mod_cast (pow_pos h2 2).ne'
  · intro k hk
    simp only [plate2d, if_pos hk]

/-- C77, finding: in plate2d the variable "lapz_fft" is not the Laplacian `-k² z` of the deflection but its bilaplacian
`k⁴ z`: the two differ for every mode `k ≠ 0` where `z` is not zero. -/
theorem C77_plate2d_lapz_violated (hε : ∀ d, ε d ≠ 0) (s : Plate) :
    Gives (plateState m ε T G) s .lapz_fft (Same m T (.K fun k =>
      ((((ε 0 * k 0) ^ 2 + (ε 1 * k 1) ^ 2) ^ 2 : ℝ) : ℂ) * s.z k)) ∧
    ∀ k, k ≠ 0 → s.z k ≠ 0 →
      ((((ε 0 * k 0) ^ 2 + (ε 1 * k 1) ^ 2) ^ 2 : ℝ) : ℂ) * s.z k
        ≠ -(((ε 0 * k 0) ^ 2 + (ε 1 * k 1) ^ 2 : ℝ) : ℂ) * s.z k := by
  refine ⟨gives_of_value ranked_plate rankV_le (coherent_plate s) id rfl fun k _ => mul_comm _ _, ?_⟩
  intro k hk hz h
  have hO : Sw1l.Par.Ok ⟨ε, 0, 1⟩ := ⟨hε, one_pos⟩
  have h2 := hO.k2_pos hk
  simp only [Sw1l.Par.k2, Sw1l.Par.kx, Sw1l.Par.ky] at h2
  have h3 := mul_right_cancel₀ hz h
  have h4 : ((ε 0 * k 0) ^ 2 + (ε 1 * k 1) ^ 2) ^ 2 = -((ε 0 * k 0) ^ 2 + (ε 1 * k 1) ^ 2) := by exact_mod_cast h3
  nlinarith

/-- C77: in plate2d the announced variables are exactly those which can be read. -/
theorem C77_announced_plate (s : Plate) (key : Var) :
    hasVar (plateState m ε T G) key = true ↔ Gives (plateState m ε T G) s key fun _ => True := by
  constructor
  · intro h
    cases key <;> first
      | (simp [hasVar, plateState] at h; done)
      | exact gives_of_value ranked_plate rankV_le (coherent_plate s) id rfl trivial
  · intro h
    obtain ⟨v, hv, -⟩ := h []
    cases key <;> first
      | rfl
      | exact absurd hv (by simp [reads, getVar, compute, plateState, Cache.empty])

/-! ### The hypotheses are met -/

/-- A velocity without divergence at the mode (1, 2, 2), with both parts. -/
example : ∃ v : V3, (1 : ℂ) * v.x + 2 * v.y + 2 * v.z = 0 ∧ ¬ ((1 : ℝ) = 0 ∧ (2 : ℝ) = 0) ∧
    ∃ vp vt, mode3 ⟨1, 2, 2⟩ v 0 .vp_fft = some vp ∧ mode3 ⟨1, 2, 2⟩ v 0 .vt_fft = some vt ∧ vt ≠ 0 := by
  refine ⟨⟨0, 1, -1⟩, by norm_num, by norm_num, _, _, rfl, rfl, ?_⟩
  have : ¬ ((1 : ℝ) = 0 ∧ (2 : ℝ) = 0) := by norm_num
  simp only [if_neg this]
  have h5 : √((1 : ℝ) ^ 2 + 2 ^ 2) ≠ 0 := by positivity
  simp only [ne_eq, div_eq_zero_iff, not_or]
  exact ⟨by simp, by exact_mod_cast h5⟩

end

end Verif.StateVars
