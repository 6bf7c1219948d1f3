import Verif.Sw1lBudget.Props

/-! # C74: the budget of sw1l.modified -/

set_option linter.unusedSectionVars false

namespace Verif.Sw1lBudget

open Verif.Fourier Verif.Energy Verif.Forcing Verif.Sw1l Verif.Spectra2d Verif.SpectBudget Verif.Galerkin
  Finset

noncomputable section

variable {p : Par} {n : Fin 2 → ℕ} {S : Finset Mode}

theorem fnl_congr (δ : Fin 2 → ℝ) (rot : Fld (Fin 2)) {a b : Fld (Fin 2)} (h : ∀ k, k ≠ 0 → a k = b k) :
    fnl n S δ rot a = fnl n S δ rot b := by
  have e : ∀ d, Energy.deriv δ d a = Energy.deriv δ d b := by
    intro d; funext k
    by_cases hk : k = 0
    · subst hk; simp [Energy.deriv]
    · simp only [Energy.deriv, h k hk]
  funext k
  simp only [fnl, e]

theorem fnl_add (δ : Fin 2 → ℝ) (rot a b : Fld (Fin 2)) (k : Mode) :
    fnl n S δ rot (fun k => a k + b k) k = fnl n S δ rot a k + fnl n S δ rot b k := by
  have e : ∀ d (j : Pt n), gridVal n S (Energy.deriv δ d fun k => a k + b k) j
      = gridVal n S (Energy.deriv δ d a) j + gridVal n S (Energy.deriv δ d b) j := by
    intro d j
    simp only [gridVal, Energy.deriv, mul_add, add_mul, sum_add_distrib]
  simp only [fnl]
  split
  · rw [← fft_add]
    refine fft_congr n (fun j => ?_) k
    rw [e, e]; ring
  · simp

/-- The rotational and divergent velocities of a mode. -/
theorem vel_split (h : p.Ok) (u : Mode → UEta) {k : Mode} (hk : k ≠ 0) :
    ux2 p.δ (fun k => rotOf p k (u k).ux (u k).uy) k
        + (vecFromDiv p k (divOf p k (u k).ux (u k).uy)).1 = (u k).ux ∧
      uy2 p.δ (fun k => rotOf p k (u k).ux (u k).uy) k
        + (vecFromDiv p k (divOf p k (u k).ux (u k).uy)).2 = (u k).uy := by
  obtain ⟨h1, h2⟩ := vel_of_rot_div h hk (u k).ux (u k).uy
  have e : Forcing.k2not0 (p.δ 0 * k 0) (p.δ 1 * k 1) = p.k2 k := h.k2not0 hk
  have e' : Forcing.k2not0 (p.kx k) (p.ky k) = p.k2 k := h.k2not0 hk
  simp only [ux2, uy2, vecFromRot, vecFromDiv, e, e']
  have a : ((p.δ 0 * k 0 : ℝ) : ℂ) = p.kx k := rfl
  have b : ((p.δ 1 * k 1 : ℝ) : ℂ) = p.ky k := rfl
  rw [a, b]
  constructor
  · conv_rhs => rw [← h1]
    ring
  · conv_rhs => rw [← h2]
    ring

theorem msw_EK (h : p.Ok) (u : Mode → UEta) {k : Mode} (hk : k ≠ 0) :
    (msw p n S u).EK k
      = innerProd (u k).ux (fnl n S p.δ (fun k => rotOf p k (u k).ux (u k).uy) (fun k => (u k).ux) k)
        + innerProd (u k).uy (fnl n S p.δ (fun k => rotOf p k (u k).ux (u k).uy) (fun k => (u k).uy) k) := by
  set rot : Fld (Fin 2) := fun k => rotOf p k (u k).ux (u k).uy with hrot
  set dx : Fld (Fin 2) := fun k => (vecFromDiv p k (divOf p k (u k).ux (u k).uy)).1 with hdx
  set dy : Fld (Fin 2) := fun k => (vecFromDiv p k (divOf p k (u k).ux (u k).uy)).2 with hdy
  have ex : fnl n S p.δ rot (fun k => (u k).ux) k
      = fnl n S p.δ rot (ux2 p.δ rot) k + fnl n S p.δ rot dx k := by
    rw [← fnl_add, fnl_congr p.δ rot (b := fun k => ux2 p.δ rot k + dx k)]
    intro q hq; exact (vel_split h u hq).1.symm
  have ey : fnl n S p.δ rot (fun k => (u k).uy) k
      = fnl n S p.δ rot (uy2 p.δ rot) k + fnl n S p.δ rot dy k := by
    rw [← fnl_add, fnl_congr p.δ rot (b := fun k => uy2 p.δ rot k + dy k)]
    intro q hq; exact (vel_split h u hq).2.symm
  have vx : (u k).ux = ux2 p.δ rot k + dx k := (vel_split h u hk).1.symm
  have vy : (u k).uy = uy2 p.δ rot k + dy k := (vel_split h u hk).2.symm
  have hm : (msw p n S u).EK k = innerProd (ux2 p.δ rot k) (fnl n S p.δ rot (ux2 p.δ rot) k)
      + innerProd (uy2 p.δ rot k) (fnl n S p.δ rot (uy2 p.δ rot) k)
      + (innerProd (dx k) (fnl n S p.δ rot dx k) + innerProd (dy k) (fnl n S p.δ rot dy k))
      + (innerProd (dx k) (fnl n S p.δ rot (ux2 p.δ rot) k)
        + innerProd (dy k) (fnl n S p.δ rot (uy2 p.δ rot) k)
        + innerProd (ux2 p.δ rot k) (fnl n S p.δ rot dx k)
        + innerProd (uy2 p.δ rot k) (fnl n S p.δ rot dy k)) := rfl
  rw [hm, ex, ey, vx, vy]
  simp only [innerProd, map_add, add_mul, mul_add, Complex.add_re]
  ring

/-- The tendencies of sw1l.modified. -/
theorem modified_eq (hn : ∀ d, 0 < n d) (hD : Distinct n S) (u : Mode → UEta) {k : Mode} (hk : k ∈ S) :
    let F := fnl n S p.δ (fun k => rotOf p k (u k).ux (u k).uy)
    modified p n S u k =
      ⟨p.f * (u k).uy + F (fun k => (u k).ux) k - Complex.I * p.kx k * (p.c2 * (u k).eta),
        -p.f * (u k).ux + F (fun k => (u k).uy) k - Complex.I * p.ky k * (p.c2 * (u k).eta),
        F (fun k => (u k).eta) k - divOf p k (u k).ux (u k).uy⟩ := by
  intro F
  have g1 := fft_grid hn hD (fun k => (u k).ux) hk
  have g2 := fft_grid hn hD (fun k => (u k).uy) hk
  simp only [modified, trunc, if_pos hk, fft_add, fft_mul, g1, g2, F, fnl]
  rfl

section budget

variable {u : ℝ → Mode → UEta} {σ : Mode → ℝ} {t : ℝ}

/-- C74: in sw1l.modified, with any dissipation, the kinetic energy of each mode but the mean changes with
`transfer2D_EK + convA2D` and the dissipation. -/
theorem C74_msw_kinetic (h : p.Ok) (hn : ∀ d, 0 < n d) (hD : Distinct n S)
    (hu : EvolvesU S u (modified p n S (u t)) σ t) {k : Mode} (hk : k ∈ S) (h0 : k ≠ 0) :
    HasDerivAt (fun s => half (u s k).ux + half (u s k).uy)
      ((msw p n S (u t)).EK k + (msw p n S (u t)).convA k
        - σ k * (‖(u t k).ux‖ ^ 2 + ‖(u t k).uy‖ ^ 2)) t := by
  refine ((half_deriv (hu.1 k hk)).fun_add (half_deriv (hu.2.1 k hk))).congr_deriv ?_
  dsimp only
  rw [msw_EK h (u t) h0, modified_eq hn hD (u t) hk]
  simp only [msw, innerProd, divOf, ← Complex.normSq_eq_norm_sq, Complex.normSq_apply]
  generalize fnl n S p.δ (fun k => rotOf p k (u t k).ux (u t k).uy) (fun k => (u t k).ux) k = a
  generalize fnl n S p.δ (fun k => rotOf p k (u t k).ux (u t k).uy) (fun k => (u t k).uy) k = b
  simp only [Complex.add_re, Complex.sub_re, Complex.mul_re, Complex.neg_re, Complex.add_im, Complex.sub_im,
    Complex.mul_im, Complex.neg_im, Complex.conj_re, Complex.conj_im, Complex.I_re, Complex.I_im,
    Complex.ofReal_re, Complex.ofReal_im]
  ring

/-- C74: and the potential energy `½ c² |η|²` of each mode changes with `transfer2D_EA - convA2D` and the
dissipation. -/
theorem C74_msw_potential (hn : ∀ d, 0 < n d) (hD : Distinct n S)
    (hu : EvolvesU S u (modified p n S (u t)) σ t) {k : Mode} (hk : k ∈ S) :
    HasDerivAt (fun s => p.c2 * half (u s k).eta)
      ((msw p n S (u t)).EA k - (msw p n S (u t)).convA k - σ k * (p.c2 * ‖(u t k).eta‖ ^ 2)) t := by
  refine ((half_deriv (hu.2.2 k hk)).const_mul p.c2).congr_deriv ?_
  dsimp only
  rw [modified_eq hn hD (u t) hk]
  simp only [msw, innerProd, divOf, ← Complex.normSq_eq_norm_sq, Complex.normSq_apply]
  generalize fnl n S p.δ (fun k => rotOf p k (u t k).ux (u t k).uy) (fun k => (u t k).eta) k = a
  simp only [Complex.add_re, Complex.sub_re, Complex.mul_re, Complex.neg_re, Complex.add_im, Complex.sub_im,
    Complex.mul_im, Complex.neg_im, Complex.conj_re, Complex.conj_im, Complex.I_re, Complex.I_im,
    Complex.ofReal_re, Complex.ofReal_im]
  ring

end budget

/-- C74: for every real flow, the transfers of kinetic energy (each of its three parts), of potential
energy and of Charney potential enstrophy sum to zero over the modes. -/
theorem C74_msw_conservative (hn : ∀ d, 0 < n d) (hS : TriadExact n S) (u : Mode → UEta)
    (hx : RealOn S fun k => (u k).ux) (hy : RealOn S fun k => (u k).uy) (he : RealOn S fun k => (u k).eta) :
    let m := msw p n S u
    ∑ k ∈ S, m.Errr k = 0 ∧ ∑ k ∈ S, m.Edrd k = 0 ∧ ∑ k ∈ S, m.Edrr_rrd k = 0 ∧ ∑ k ∈ S, m.EK k = 0 ∧
      ∑ k ∈ S, m.EA k = 0 ∧ ∑ k ∈ S, m.CPE k = 0 := by
  intro m
  have hk : ∀ k : Mode, p.kx (-k) = -p.kx k ∧ p.ky (-k) = -p.ky k := by
    intro k; simp [Par.kx, Par.ky]
  set rot : Fld (Fin 2) := fun k => rotOf p k (u k).ux (u k).uy with hrot
  have rr : RealOn S rot := by
    intro k hkS
    refine ⟨(hx k hkS).1, ?_⟩
    simp only [rot, rotOf, (hx k hkS).2, (hy k hkS).2, hk, map_mul, map_sub, Complex.conj_I,
      Complex.conj_ofReal]
    push_cast; ring
  set dx : Fld (Fin 2) := fun k => (vecFromDiv p k (divOf p k (u k).ux (u k).uy)).1 with hdx
  set dy : Fld (Fin 2) := fun k => (vecFromDiv p k (divOf p k (u k).ux (u k).uy)).2 with hdy
  have k2e : ∀ k : Mode, Forcing.k2not0 (p.kx (-k)) (p.ky (-k)) = Forcing.k2not0 (p.kx k) (p.ky k) := by
    intro k; simp only [Forcing.k2not0, hk, neg_sq]
  have rdx : RealOn S dx := by
    intro k hkS
    refine ⟨(hx k hkS).1, ?_⟩
    simp only [dx, vecFromDiv, k2e]
    simp only [divOf, (hx k hkS).2, (hy k hkS).2, hk, map_mul, map_add, map_neg,
      map_div₀, Complex.conj_I, Complex.conj_ofReal]
    push_cast; ring
  have rdy : RealOn S dy := by
    intro k hkS
    refine ⟨(hx k hkS).1, ?_⟩
    simp only [dy, vecFromDiv, k2e]
    simp only [divOf, (hx k hkS).2, (hy k hkS).2, hk, map_mul, map_add, map_neg,
      map_div₀, Complex.conj_I, Complex.conj_ofReal]
    push_cast; ring
  have rq : RealOn S (fun k => qOf p k (u k)) := by
    intro k hkS
    refine ⟨(hx k hkS).1, ?_⟩
    have := (rr k hkS).2
    simp only [rot] at this
    simp only [qOf, this, (he k hkS).2, map_mul, map_sub, Complex.conj_ofReal]
  have z := fun {a : Fld (Fin 2)} (ha : RealOn S a) => sum_fnl (δ := p.δ) hn hS rot ha
  have add : ∀ {a b : Fld (Fin 2)}, RealOn S a → RealOn S b → RealOn S fun k => a k + b k := by
    intro a b ha hb k hkS
    exact ⟨(ha k hkS).1, by simp only [(ha k hkS).2, (hb k hkS).2, map_add]⟩
  -- polarisation
  have pol : ∀ {a b : Fld (Fin 2)}, RealOn S a → RealOn S b →
      ∑ k ∈ S, innerProd (b k) (fnl n S p.δ rot a k) + ∑ k ∈ S, innerProd (a k) (fnl n S p.δ rot b k) = 0 := by
    intro a b ha hb
    have h1 := z (add ha hb)
    have h2 := z ha
    have h3 := z hb
    simp only [fnl_add, innerProd, map_add, add_mul, mul_add, Complex.add_re, sum_add_distrib] at h1
    simp only [innerProd] at h2 h3 ⊢
    linarith
  have rux := ux2_real (δ := p.δ) rr
  have ruy := uy2_real (δ := p.δ) rr
  have e1 : ∑ k ∈ S, m.Errr k = 0 := by
    have : m.Errr = fun k => innerProd (ux2 p.δ rot k) (fnl n S p.δ rot (ux2 p.δ rot) k)
      + innerProd (uy2 p.δ rot k) (fnl n S p.δ rot (uy2 p.δ rot) k) := rfl
    rw [this, sum_add_distrib, z rux, z ruy, add_zero]
  have e2 : ∑ k ∈ S, m.Edrd k = 0 := by
    have : m.Edrd = fun k => innerProd (dx k) (fnl n S p.δ rot dx k)
      + innerProd (dy k) (fnl n S p.δ rot dy k) := rfl
    rw [this, sum_add_distrib, z rdx, z rdy, add_zero]
  have e3 : ∑ k ∈ S, m.Edrr_rrd k = 0 := by
    have : m.Edrr_rrd = fun k => innerProd (dx k) (fnl n S p.δ rot (ux2 p.δ rot) k)
      + innerProd (dy k) (fnl n S p.δ rot (uy2 p.δ rot) k)
      + innerProd (ux2 p.δ rot k) (fnl n S p.δ rot dx k)
      + innerProd (uy2 p.δ rot k) (fnl n S p.δ rot dy k) := rfl
    rw [this]
    simp only [sum_add_distrib]
    have a := pol rux rdx
    have b := pol ruy rdy
    linarith
  refine ⟨e1, e2, e3, ?_, ?_, ?_⟩
  · have : m.EK = fun k => m.Errr k + m.Edrd k + m.Edrr_rrd k := rfl
    rw [this]
    simp only [sum_add_distrib, e1, e2, e3, add_zero]
  · have : m.EA = fun k => p.c2 * innerProd (u k).eta (fnl n S p.δ rot (fun k => (u k).eta) k) := rfl
    rw [this, ← mul_sum, z he, mul_zero]
  · exact z rq

/-- C74: the budget of sw1l.exactlin.modified by normal modes: the sum of its groups is the sum of the
transfers of kinetic and potential energy of the budget of sw1l.modified. -/
theorem C74_modified_groups (h : p.Ok) (u : Mode → UEta) {k : Mode} (hk : k ∈ S) (h0 : k ≠ 0) :
    ∃ d, tq p n S u (modifiedTerms p.c2) = .ok d ∧
      total d k = (msw p n S u).EK k + (msw p n S u).EA k := by
  obtain ⟨d, hd, -, htot⟩ := tq_total h n S u (modifiedTerms p.c2)
  refine ⟨d, hd, ?_⟩
  rw [htot, msw_EK h u h0]
  set rot : Fld (Fin 2) := fun k => rotOf p k (u k).ux (u k).uy with hrot
  have fr : fieldVar p u .urx = ux2 p.δ rot ∧ fieldVar p u .ury = uy2 p.δ rot := by
    constructor <;> funext q <;> by_cases hq : q = 0
    · subst hq; simp [fieldVar, ux2, vecFromRot]
    · simp only [fieldVar, if_neg hq, rotState]; rfl
    · subst hq; simp [fieldVar, uy2, vecFromRot]
    · simp only [fieldVar, if_neg hq, rotState]; rfl
  have hd : ∀ (v : Var) (a : Fld (Fin 2)), (∀ q, q ≠ 0 → fieldVar p u v q = a q) → ∀ d,
      pd p.δ d (fieldVar p u v) = Energy.deriv p.δ d a := by
    intro v a ha d
    funext q
    by_cases hq : q = 0
    · subst hq; simp [pd, Energy.deriv]
    · simp only [pd, Energy.deriv, ha q hq]
  have hX := hd .ux (fun k => (u k).ux) (fun q hq => by simp [fieldVar, hq])
  have hY := hd .uy (fun k => (u k).uy) (fun q hq => by simp [fieldVar, hq])
  have hE := hd .eta (fun k => (u k).eta) (fun q hq => by simp [fieldVar, hq])
  have hF : ∀ a : Fld (Fin 2), fnl n S p.δ rot a k = -(prod n S (ux2 p.δ rot) (Energy.deriv p.δ 0 a) k
      + prod n S (uy2 p.δ rot) (Energy.deriv p.δ 1 a) k) := by
    intro a
    simp only [fnl, prod, if_pos hk, ← fft_add, ← fft_neg]
    refine fft_congr n (fun j => ?_) k
    ring
  have hEA : (msw p n S u).EA k = p.c2 * innerProd (u k).eta (fnl n S p.δ rot (fun k => (u k).eta) k) := rfl
  rw [hEA, hF, hF, hF]
  simp only [modifiedTerms, List.map_cons, List.map_nil, List.sum_cons, List.sum_nil, field, fr.1, fr.2, hX,
    hY, hE, innerProd]
  simp only [fieldVar, if_neg h0, mul_neg, mul_add, Complex.neg_re, Complex.add_re]
  ring

/-- C74: for a flow without divergence, the Charney potential enstrophy of each mode changes with
`transfer2D_CPE` and the dissipation. Missing: flows with a divergence, for which the equation of the
potential vorticity of the model is not an advection. -/
theorem C74_msw_enstrophy_partial (h : p.Ok) (hn : ∀ d, 0 < n d) (hS : NoAlias n S)
    {u : ℝ → Mode → UEta} {σ : Mode → ℝ} {t : ℝ} (hu : EvolvesU S u (modified p n S (u t)) σ t)
    (hd : ∀ k ∈ S, divOf p k (u t k).ux (u t k).uy = 0) {k : Mode} (hk : k ∈ S) :
    HasDerivAt (fun s => half (qOf p k (u s k)))
      ((msw p n S (u t)).CPE k - σ k * ‖qOf p k (u t k)‖ ^ 2) t := by
  have hδ := h.1
  set rot : Fld (Fin 2) := fun k => rotOf p k (u t k).ux (u t k).uy with hrot
  have hv := velocity_exists S hδ rot
  have ux_eq : ∀ q ∈ S, q ≠ 0 → (u t q).ux = ux2 p.δ rot q ∧ (u t q).uy = uy2 p.δ rot q := by
    intro q hq hq0
    obtain ⟨a, b⟩ := vel_split h (u t) hq0
    rw [hd q hq] at a b
    simp only [vecFromDiv, mul_zero, add_zero] at a b
    exact ⟨a.symm, b.symm⟩
  have hq : HasDerivAt (fun s => qOf p k (u s k))
      (rotOf p k ((modified p n S (u t) k).ux - σ k * (u t k).ux) ((modified p n S (u t) k).uy - σ k * (u t k).uy)
        - p.f * ((modified p n S (u t) k).eta - σ k * (u t k).eta)) t := by
    simp only [qOf, rotOf]
    exact ((((hu.2.1 k hk).const_mul _).fun_sub ((hu.1 k hk).const_mul _)).const_mul _).fun_sub
      ((hu.2.2 k hk).const_mul _)
  refine (half_deriv hq).congr_deriv ?_
  rw [modified_eq hn hS.distinct (u t) hk]
  have hcpe : (msw p n S (u t)).CPE k = innerProd (qOf p k (u t k))
      (fnl n S p.δ rot (fun k => qOf p k (u t k)) k) := rfl
  rw [hcpe]
  -- the advection of the potential vorticity
  have hF := fun a => fnl_eq hn hS hδ hv a hk
  have e : ∀ {a b : Fld (Fin 2)}, (∀ q ∈ S, q ≠ 0 → a q = b q) →
      advect S p.δ ![ux2 p.δ rot, uy2 p.δ rot] a k = advect S p.δ ![ux2 p.δ rot, uy2 p.δ rot] b k := by
    intro a b hab
    simp only [advect]
    refine sum_congr rfl fun d _ => exact_congr (fun _ _ => rfl) (fun q hq => ?_) k
    by_cases hq0 : q = 0
    · subst hq0; simp [pd]
    · simp only [pd, hab q hq hq0]
  have hc := curl_advect hv k
  have hlin : advect S p.δ ![ux2 p.δ rot, uy2 p.δ rot] (fun k => qOf p k (u t k)) k
      = advect S p.δ ![ux2 p.δ rot, uy2 p.δ rot] rot k
        - p.f * advect S p.δ ![ux2 p.δ rot, uy2 p.δ rot] (fun k => (u t k).eta) k := by
    have : ∀ d, pd p.δ d (fun k => qOf p k (u t k))
        = fun q => pd p.δ d rot q - p.f * pd p.δ d (fun k => (u t k).eta) q := by
      intro d; funext q; simp only [pd, qOf, rot]; ring
    simp only [advect, Fin.sum_univ_two, this, exact_sub_right, exact_mul_right]
    ring
  have fx := hF fun k => (u t k).ux
  have fy := hF fun k => (u t k).uy
  rw [e (fun q hq hq0 => (ux_eq q hq hq0).1)] at fx
  rw [e (fun q hq hq0 => (ux_eq q hq hq0).2)] at fy
  rw [hF (fun k => qOf p k (u t k)), hlin]
  simp only [← hrot, fx, fy, hF fun k => (u t k).eta]
  set Ax := advect S p.δ ![ux2 p.δ rot, uy2 p.δ rot] (ux2 p.δ rot) k
  set Ay := advect S p.δ ![ux2 p.δ rot, uy2 p.δ rot] (uy2 p.δ rot) k
  set Ae := advect S p.δ ![ux2 p.δ rot, uy2 p.δ rot] (fun k => (u t k).eta) k
  rw [← hc, hd k hk]
  have hdiv := hd k hk
  have hns : ∀ z : ℂ, σ k * ‖z‖ ^ 2 = ((starRingEnd ℂ) z * (σ k * z)).re := by
    intro z
    rw [← Complex.normSq_eq_norm_sq, Complex.normSq_apply]
    simp only [Complex.mul_re, Complex.mul_im, Complex.conj_re, Complex.conj_im, Complex.ofReal_re,
      Complex.ofReal_im]; ring
  rw [hns, innerProd, ← Complex.sub_re, ← mul_sub]
  congr 2
  simp only [rotOf, qOf, divOf] at hdiv ⊢
  have a : ((p.δ 0 * k 0 : ℝ) : ℂ) = p.kx k := rfl
  have b : ((p.δ 1 * k 1 : ℝ) : ℂ) = p.ky k := rfl
  rw [a, b]
  linear_combination -(p.f : ℂ) * hdiv

end

end Verif.Sw1lBudget
