import Verif.Galerkin.Props
import Verif.Sw1l.ModelMod

/-! # C57: sw1l.modified and sw1l.exactlin.modified -/

set_option linter.unusedSectionVars false

namespace Verif.Galerkin

open Verif.Fourier Verif.Energy Verif.Forcing Finset

noncomputable section

variable {p : Sw1l.Par} {n : Fin 2 → ℕ} {S : Finset (Fin 2 → ℤ)}

/-- For a velocity without divergence, the divergence of the flux is the advection. -/
theorem flux_advect (δ : Fin 2 → ℝ) (vx vy a : Fld (Fin 2))
    (hdiv : ∀ k ∈ S, pd δ 0 vx k + pd δ 1 vy k = 0) (k : Fin 2 → ℤ) :
    Complex.I * ((δ 0 * k 0 : ℝ) : ℂ) * exactProduct S vx a k + Complex.I * ((δ 1 * k 1 : ℝ) : ℂ) * exactProduct S vy a k
      = advect S δ ![vx, vy] a k := by
  have l0 := exact_leibniz S δ 0 vx a k
  have l1 := exact_leibniz S δ 1 vy a k
  have hz : exactProduct S (pd δ 0 vx) a k + exactProduct S (pd δ 1 vy) a k = 0 := by
    rw [← exact_add_left]
    simp only [exactProduct]
    refine sum_eq_zero fun q hq => sum_eq_zero fun r _ => ?_
    rw [hdiv q hq]
    simp
  simp only [advect, Fin.sum_univ_two, Matrix.cons_val_zero, Matrix.cons_val_one]
  linear_combination l0 + l1 + hz

/-- `(vx, vy)` is the rotational part of the velocity `(ux, uy)`: it has the same vorticity and no divergence. -/
def RotationalPart (S : Finset (Fin 2 → ℤ)) (δ : Fin 2 → ℝ) (ux uy vx vy : Fld (Fin 2)) : Prop :=
  Velocity2 S δ (fun k => pd δ 0 uy k - pd δ 1 ux k) vx vy

theorem rotOf_pd (ux uy : Fld (Fin 2)) (k : Fin 2 → ℤ) :
    Sw1l.rotOf p k (ux k) (uy k) = pd p.δ 0 uy k - pd p.δ 1 ux k := by
  simp only [Sw1l.rotOf, pd, Sw1l.Par.kx, Sw1l.Par.ky]; ring

/-- C57 (sw1l.modified): the modified shallow-water equations: advection by the rotational part `u_r` of the velocity,
`∂t u = -(u_r·∇)u - f ez × u - c² ∇η`, `∂t η = -(u_r·∇)η - ∇·u`. -/
theorem C57_sw1l_modified (hn : ∀ d, 0 < n d) (hS : NoAlias n S) (hδ : ∀ d, p.δ d ≠ 0)
    (u : (Fin 2 → ℤ) → Sw1l.UEta) {vx vy : Fld (Fin 2)}
    (hv : RotationalPart S p.δ (fun k => (u k).ux) (fun k => (u k).uy) vx vy) {k : Fin 2 → ℤ} (hk : k ∈ S) :
    let ux : Fld (Fin 2) := fun k => (u k).ux
    let uy : Fld (Fin 2) := fun k => (u k).uy
    let eta : Fld (Fin 2) := fun k => (u k).eta
    let T := Sw1l.modified p n S u k
    T.ux = -advect S p.δ ![vx, vy] ux k + p.f * uy k - p.c2 * pd p.δ 0 eta k ∧
    T.uy = -advect S p.δ ![vx, vy] uy k - p.f * ux k - p.c2 * pd p.δ 1 eta k ∧
    T.eta = -advect S p.δ ![vx, vy] eta k - (pd p.δ 0 ux k + pd p.δ 1 uy k) := by
  intro ux uy eta T
  have hr : (fun k => Sw1l.rotOf p k (u k).ux (u k).uy) = fun k => pd p.δ 0 uy k - pd p.δ 1 ux k :=
    funext fun k => rotOf_pd ux uy k
  have hadv : ∀ a : Fld (Fin 2), fftCoef n (fun j =>
      -gridVal n S (ux2 p.δ fun k => pd p.δ 0 uy k - pd p.δ 1 ux k) j * gridVal n S (Energy.deriv p.δ 0 a) j
        - gridVal n S (uy2 p.δ fun k => pd p.δ 0 uy k - pd p.δ 1 ux k) j * gridVal n S (Energy.deriv p.δ 1 a) j) k
      = -advect S p.δ ![vx, vy] a k := fun a => advect2 hn hS hδ hv a hk
  have hx : (fun k => (vecFromRot (p.kx k) (p.ky k) (Sw1l.rotOf p k (u k).ux (u k).uy)).1)
      = ux2 p.δ fun k => pd p.δ 0 uy k - pd p.δ 1 ux k := by rw [← hr]; rfl
  have hy : (fun k => (vecFromRot (p.kx k) (p.ky k) (Sw1l.rotOf p k (u k).ux (u k).uy)).2)
      = uy2 p.δ fun k => pd p.δ 0 uy k - pd p.δ 1 ux k := by rw [← hr]; rfl
  have g1 : fftCoef n (gridVal n S ux) k = ux k := fft_grid hn hS.distinct ux hk
  have g2 : fftCoef n (gridVal n S uy) k = uy k := fft_grid hn hS.distinct uy hk
  have e : T = ⟨p.f * uy k + -advect S p.δ ![vx, vy] ux k - Complex.I * p.kx k * (p.c2 * eta k),
      -p.f * ux k + -advect S p.δ ![vx, vy] uy k - Complex.I * p.ky k * (p.c2 * eta k),
      -advect S p.δ ![vx, vy] eta k - Sw1l.divOf p k (ux k) (uy k)⟩ := by
    simp only [T, Sw1l.modified, Sw1l.trunc, if_pos hk, hx, hy]
    rw [fft_add, fft_mul, fft_add, fft_mul]
    rw [hadv, hadv, hadv]
    change (⟨p.f * fftCoef n (gridVal n S uy) k + _ - _, -p.f * fftCoef n (gridVal n S ux) k + _ - _, _⟩ : Sw1l.UEta) = _
    rw [g1, g2]
  rw [e]
  simp only [pd, Sw1l.divOf, Sw1l.Par.kx, Sw1l.Par.ky]
  refine ⟨?_, ?_, ?_⟩ <;> ring

/-- The velocity computed from a vorticity is the one of the specification. -/
theorem velocity2_ux2 {δ : Fin 2 → ℝ} (hδ : ∀ d, δ d ≠ 0) (rot : Fld (Fin 2)) :
    Velocity2 S δ rot (ux2 δ rot) (uy2 δ rot) := by
  have hc : ∀ {x y K r : ℂ}, K ≠ 0 → x ^ 2 + y ^ 2 = K →
      Complex.I * x * (-Complex.I * x / K * r) - Complex.I * y * (Complex.I * y / K * r) = r := by
    intro x y K r h3 h4
    have : Complex.I * x * (-Complex.I * x / K * r) - Complex.I * y * (Complex.I * y / K * r)
        = -(Complex.I ^ 2) * ((x ^ 2 + y ^ 2) / K) * r := by ring
    rw [this, h4, div_self h3, Complex.I_sq]; ring
  refine ⟨fun k _ => ?_, fun k _ hk => ?_, ?_⟩
  · simp only [pd, ux2, uy2, vecFromRot]; ring
  · have h : Sw1l.Par.Ok ⟨δ, 0, 1⟩ := ⟨hδ, one_pos⟩
    have h2 := h.k2_pos hk
    have h1 := h.k2not0 hk
    simp only [Sw1l.Par.k2, Sw1l.Par.kx, Sw1l.Par.ky] at h1 h2
    have hK : (((δ 0 * k 0) ^ 2 + (δ 1 * k 1) ^ 2 : ℝ) : ℂ) ≠ 0 := by exact_mod_cast h2.ne'
    simp only [pd, ux2, uy2, vecFromRot, h1]
    refine hc hK ?_
    push_cast; rfl
  · simp [ux2, uy2, vecFromRot]

/-- The vorticity computed from the normal modes is the one of their velocity. -/
theorem rotModes_eq (h : p.Ok) (s : (Fin 2 → ℤ) → Sw1l.QA) (k : Fin 2 → ℤ) :
    Sw1l.rotModes p s k = Sw1l.rotOf p k (Sw1l.uEtaFrom p k (s k)).ux (Sw1l.uEtaFrom p k (s k)).uy := by
  by_cases hk : k = 0
  · subst hk
    simp [Sw1l.rotModes, Sw1l.rotOf, Sw1l.rotFromQ, Sw1l.rotFromA, Sw1l.etaFromA, Sw1l.invLap, Sw1l.Par.kx,
      Sw1l.Par.ky]
  · rw [Sw1l.rot_uEtaFrom h hk]
    simp only [Sw1l.rotModes, Sw1l.rotFromQ, Sw1l.rotFromA, Sw1l.etaFromA, Sw1l.invLap, if_neg hk, h.kappa2not0 hk]
    split_ifs with hf
    · rw [hf]; push_cast; ring
    · push_cast; ring

/-- C57: sw1l.exactlin.modified integrates the same equations as sw1l.modified when the tendency is evaluated on the
global state of the simulation: the right-hand side of the equation of the normal modes is the conversion to normal
modes of the tendency of sw1l.modified for the same flow. For every state without mean potential vorticity, every kept
wavenumber, and for the mean mode if `f` is not negative. Missing: the other states given by the time schemes, see the
next theorem. -/
theorem C57_sw1l_exactlin_modified_partial (h : p.Ok) (hn : ∀ d, 0 < n d) (hS : NoAlias n S)
    (s : (Fin 2 → ℤ) → Sw1l.QA) (hq : (s 0).q = 0) {k : Fin 2 → ℤ} (hk : k ∈ S) (hf : k ≠ 0 ∨ 0 ≤ p.f) :
    Sw1l.exactlinModRhs p n S s s k
      = Sw1l.qapam p k (Sw1l.modified p n S (fun k => Sw1l.uEtaFrom p k (s k)) k) := by
  set u : (Fin 2 → ℤ) → Sw1l.UEta := fun k => Sw1l.uEtaFrom p k (s k) with hu
  have hδ : ∀ d, p.δ d ≠ 0 := h.1
  set r : Fld (Fin 2) := fun k => pd p.δ 0 (fun k => (u k).uy) k - pd p.δ 1 (fun k => (u k).ux) k with hr
  have hrot : Sw1l.rotModes p s = r := by
    funext m
    rw [rotModes_eq h s m]
    exact (rotOf_pd (p := p) (fun k => (u k).ux) (fun k => (u k).uy) m)
  have hv : Velocity2 S p.δ r (ux2 p.δ r) (uy2 p.δ r) := velocity2_ux2 hδ r
  have hm := C57_sw1l_modified (p := p) hn hS hδ u hv hk
  simp only [] at hm
  have hflux : ∀ a : Fld (Fin 2),
      -Sw1l.divOf p k (fftCoef n (fun j => gridVal n S (ux2 p.δ r) j * gridVal n S a j) k)
        (fftCoef n (fun j => gridVal n S (uy2 p.δ r) j * gridVal n S a j) k)
      = -advect S p.δ ![ux2 p.δ r, uy2 p.δ r] a k := by
    intro a
    rw [fft_prod hn hS _ _ hk, fft_prod hn hS _ _ hk, ← flux_advect p.δ _ _ a hv.div k]
    simp only [Sw1l.divOf, Sw1l.Par.kx, Sw1l.Par.ky]
    ring
  have hN : Sw1l.exactlinModN p n S u (Sw1l.rotModes p s) k
      = ⟨-advect S p.δ ![ux2 p.δ r, uy2 p.δ r] (fun k => (u k).ux) k,
        -advect S p.δ ![ux2 p.δ r, uy2 p.δ r] (fun k => (u k).uy) k,
        -advect S p.δ ![ux2 p.δ r, uy2 p.δ r] (fun k => (u k).eta) k⟩ := by
    rw [hrot]
    ext
    · exact hflux _
    · exact hflux _
    · exact hflux _
  have hs : Sw1l.qapam p k (u k) = s k := by
    by_cases hm : k = 0
    · subst hm; exact (Sw1l.C39_mean ⟨0, 0, 0⟩ (s 0) hq).2.2
    · exact Sw1l.C39_roundtrip_qapam h hm (s k)
  have hT : Sw1l.modified p n S u k
      = ⟨(Sw1l.exactlinModN p n S u (Sw1l.rotModes p s) k).ux + (Sw1l.linSW p k (u k)).ux,
        (Sw1l.exactlinModN p n S u (Sw1l.rotModes p s) k).uy + (Sw1l.linSW p k (u k)).uy,
        (Sw1l.exactlinModN p n S u (Sw1l.rotModes p s) k).eta + (Sw1l.linSW p k (u k)).eta⟩ := by
    rw [hN]
    ext
    · rw [hm.1]; simp only [Sw1l.linSW, pd, Sw1l.Par.kx]; ring
    · rw [hm.2.1]; simp only [Sw1l.linSW, pd, Sw1l.Par.ky]; ring
    · rw [hm.2.2]; simp only [Sw1l.linSW, Sw1l.divOf, pd, Sw1l.Par.kx, Sw1l.Par.ky]; ring
  rw [hT, Sw1l.qapam_add, Sw1l.C39_eigenmodes h k _ hf, hs]
  simp only [Sw1l.exactlinModRhs, Sw1l.exactlinMod, if_pos hk]
  ext
  · simp only []; ring
  · simp only []; ring
  · simp only []; ring

/-- A standing wave: `eta = 2 cos x`, no velocity. -/
def standing : (Fin 2 → ℤ) → Sw1l.QA := fun k =>
  if k = ![1, 0] ∨ k = ![-1, 0] then ⟨0, 1 / 2, 1 / 2⟩ else ⟨0, 0, 0⟩

/-- A shear flow: `rot = 2 cos y`. -/
def shear : (Fin 2 → ℤ) → Sw1l.QA := fun k =>
  if k = ![0, 1] ∨ k = ![0, -1] then ⟨1, 0, 0⟩ else ⟨0, 0, 0⟩

/-- C57, finding: the tendency computed by sw1l.exactlin.modified for a given state depends on the global state of the
simulation (the Runge-Kutta schemes evaluate tendencies of intermediate states). For a standing wave, which has no
vorticity, the nonlinear tendency is zero; when the global state is a shear flow, the tendency computed for the same
standing wave is not. Here `f = 0`, for every truncation without aliasing keeping the modes (1, 0), (0, 1), (1, 1) and
their opposites. -/
theorem C57_sw1l_exactlin_modified_violated (hn : ∀ d, 0 < n d) (hS : NoAlias n S)
    (hm : ∀ k ∈ [(![1, 0] : Fin 2 → ℤ), ![-1, 0], ![0, 1], ![0, -1], ![1, 1], ![-1, -1]], k ∈ S) :
    let p : Sw1l.Par := ⟨fun _ => 1, 0, 1⟩
    (∀ k, Sw1l.exactlinMod p n S standing standing k = ⟨0, 0, 0⟩) ∧
      (Sw1l.exactlinMod p n S shear standing ![1, 1]).ap = 1 := by
  intro p
  have hp : p.Ok := ⟨fun _ => one_ne_zero, one_pos⟩
  have n10 : (![1, 0] : Fin 2 → ℤ) ≠ 0 := fun h => by simpa using congrFun h 0
  have m10 : (![-1, 0] : Fin 2 → ℤ) ≠ 0 := fun h => by simpa using congrFun h 0
  have n01 : (![0, 1] : Fin 2 → ℤ) ≠ 0 := fun h => by simpa using congrFun h 1
  have m01 : (![0, -1] : Fin 2 → ℤ) ≠ 0 := fun h => by simpa using congrFun h 1
  have n11 : (![1, 1] : Fin 2 → ℤ) ≠ 0 := fun h => by simpa using congrFun h 0
  have hk0 : (fun k => Sw1l.uEtaFrom p k (standing k))
      = fun k => ⟨0, 0, if k = ![1, 0] ∨ k = ![-1, 0] then 1 else 0⟩ := by
    funext k
    by_cases h0 : k = 0
    · subst h0
      have : standing 0 = ⟨0, 0, 0⟩ := by simp [standing, n10.symm, m10.symm]
      rw [this]
      simp [Sw1l.uEtaFrom, Sw1l.fromA, Sw1l.fromQ, Sw1l.etaFromA, Sw1l.invLap, n10.symm, m10.symm]
    · have e := Sw1l.uEtaFrom_ne hp h0 (standing k)
      simp only [] at e
      rw [e]
      by_cases h1 : k = ![1, 0] ∨ k = ![-1, 0]
      · have h2 : p.k2 k = 1 := by
          rcases h1 with rfl | rfl <;> simp [Sw1l.Par.k2, Sw1l.Par.kx, Sw1l.Par.ky, p]
        simp only [standing, if_pos h1, h2]
        ext
        · simp [p]
        · simp [p]
        · simp [p, Sw1l.Par.kd2]; norm_num
      · simp only [standing, if_neg h1]
        ext <;> simp
  have hr0 : Sw1l.rotModes p standing = fun _ => 0 := by
    funext k
    have : (standing k).q = 0 := by simp only [standing]; split_ifs <;> rfl
    simp [Sw1l.rotModes, Sw1l.rotFromQ, Sw1l.rotFromA, Sw1l.invLap, this, p]
  have hrs : Sw1l.rotModes p shear = fun k => if k = ![0, 1] ∨ k = ![0, -1] then 1 else 0 := by
    funext k
    by_cases h0 : k = 0
    · subst h0
      simp [Sw1l.rotModes, Sw1l.rotFromQ, Sw1l.rotFromA, Sw1l.invLap, n01.symm, m01.symm, p]
    · by_cases h1 : k = ![0, 1] ∨ k = ![0, -1]
      · have h2 : p.k2 k = 1 := by
          rcases h1 with rfl | rfl <;> simp [Sw1l.Par.k2, Sw1l.Par.kx, Sw1l.Par.ky, p]
        have h3 := hp.kappa2not0 h0
        have h4 : p.kappa2not0 k = 1 := by rw [h3, h2]; simp [Sw1l.Par.kd2, p]
        simp [Sw1l.rotModes, Sw1l.rotFromQ, Sw1l.rotFromA, Sw1l.invLap, shear, h1, h0, h2, h4]
        simp [p]
      · simp [Sw1l.rotModes, Sw1l.rotFromQ, Sw1l.rotFromA, Sw1l.invLap, shear, h1, p]
  constructor
  · intro k
    simp only [Sw1l.exactlinMod]
    split_ifs
    · have hz : Sw1l.exactlinModN p n S (fun k => Sw1l.uEtaFrom p k (standing k)) (Sw1l.rotModes p standing) k
          = ⟨0, 0, 0⟩ := by
        rw [hr0]
        ext <;> simp [Sw1l.exactlinModN, vecFromRot, gridVal, fftCoef, Sw1l.divOf]
      rw [hz, Sw1l.qapam]
      split_ifs <;> ext <;> simp
    · rfl
  · have h11 : (![1, 1] : Fin 2 → ℤ) ∈ S := hm _ (by simp)
    simp only [Sw1l.exactlinMod, if_pos h11, hk0, hrs]
    rw [Sw1l.qapam_ne n11]
    have g0 : ∀ j : Pt n, gridVal n S (fun _ => (0 : ℂ)) j = 0 := fun j => by simp [gridVal]
    have f0 : ∀ k, fftCoef n (fun _ => (0 : ℂ)) k = 0 := fun k => by simp [fftCoef]
    set vx : Fld (Fin 2) := fun k => (vecFromRot (p.kx k) (p.ky k) (if k = ![0, 1] ∨ k = ![0, -1] then 1 else 0)).1
    set vy : Fld (Fin 2) := fun k => (vecFromRot (p.kx k) (p.ky k) (if k = ![0, 1] ∨ k = ![0, -1] then 1 else 0)).2
    set et : Fld (Fin 2) := fun k => if k = ![1, 0] ∨ k = ![-1, 0] then 1 else 0
    have px : exactProduct S vx et ![1, 1] = Complex.I := by
      simp only [exactProduct]
      rw [sum_eq_single (![0, 1] : Fin 2 → ℤ), sum_eq_single (![1, 0] : Fin 2 → ℤ)]
      · have : (![0, 1] : Fin 2 → ℤ) + ![1, 0] = ![1, 1] := by decide
        rw [if_pos this]
        simp [vx, et, vecFromRot, k2not0, Sw1l.Par.kx, Sw1l.Par.ky, p]
      · intro q _ hq
        rw [if_neg]
        intro h
        apply hq
        have : q = ![1, 1] - ![0, 1] := by rw [← h]; abel
        rw [this]; decide
      · intro h; exact absurd (hm _ (by simp)) h
      · intro a _ ha
        refine sum_eq_zero fun q _ => ?_
        split_ifs with h
        · by_cases h2 : a = ![0, -1]
          · subst h2
            have : q = ![1, 2] := by
              have : q = ![1, 1] - ![0, -1] := by rw [← h]; abel
              rw [this]; decide
            have h5 : ¬((![1, 2] : Fin 2 → ℤ) = ![1, 0] ∨ (![1, 2] : Fin 2 → ℤ) = ![-1, 0]) := by decide
            simp only [et, this, if_neg h5, mul_zero]
          · simp [vx, ha, h2, vecFromRot]
        · rfl
      · intro h; exact absurd (hm _ (by simp)) h
    have py : exactProduct S vy et ![1, 1] = 0 := by
      simp only [exactProduct]
      refine sum_eq_zero fun a _ => sum_eq_zero fun q _ => ?_
      split_ifs
      · have : vy a = 0 := by
          by_cases h : a = ![0, 1] ∨ a = ![0, -1]
          · have : p.kx a = 0 := by rcases h with rfl | rfl <;> simp [Sw1l.Par.kx]
            simp [vy, vecFromRot, this]
          · simp [vy, vecFromRot, h]
        rw [this, zero_mul]
      · rfl
    have hN : Sw1l.exactlinModN p n S (fun k => ⟨0, 0, if k = ![1, 0] ∨ k = ![-1, 0] then 1 else 0⟩)
        (fun k => if k = ![0, 1] ∨ k = ![0, -1] then 1 else 0) ![1, 1] = ⟨0, 0, 1⟩ := by
      simp only [Sw1l.exactlinModN, g0, mul_zero, f0]
      ext
      · simp [Sw1l.divOf]
      · simp [Sw1l.divOf]
      · simp only []
        change -Sw1l.divOf p ![1, 1] (fftCoef n (fun j => gridVal n S vx j * gridVal n S et j) ![1, 1])
          (fftCoef n (fun j => gridVal n S vy j * gridVal n S et j) ![1, 1]) = 1
        rw [fft_prod hn hS _ _ h11, fft_prod hn hS _ _ h11, px, py]
        simp [Sw1l.divOf, Sw1l.Par.kx, p]
    rw [hN]
    simp [Sw1l.Par.k2, Sw1l.Par.kx, Sw1l.Par.ky, Sw1l.rotOf, Sw1l.divOf, p]

/-- A truncation without aliasing which keeps these modes. -/
example : ∃ (n : Fin 2 → ℕ) (S : Finset (Fin 2 → ℤ)), (∀ d, 0 < n d) ∧ NoAlias n S ∧
    ∀ k ∈ [(![1, 0] : Fin 2 → ℤ), ![-1, 0], ![0, 1], ![0, -1], ![1, 1], ![-1, -1]], k ∈ S :=
  ⟨fun _ => 4, {![1, 0], ![-1, 0], ![0, 1], ![0, -1], ![1, 1], ![-1, -1]}, fun _ => by norm_num,
    noAlias_of_small _ _ (by decide), by simp⟩

end

end Verif.Galerkin
