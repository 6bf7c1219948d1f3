import Verif.Spectra2d.Spec
import Verif.Spectra.PropsValues
import Verif.Sw1l.Lemmas
import Mathlib.Tactic.Ring
import Mathlib.Tactic.Linarith
import Mathlib.Tactic.Positivity
import Mathlib.Tactic.FieldSimp

/-!
# C65: the values of the spectra of the 2D solvers

The functions of fluidfft from an array to a spectrum are any functions with the contract
`Verif.Spectra.IsSpectrum`: each mode gives its energy to the bins with non-negative weights of sum one (times
the width of the bins).
-/

namespace Verif.Spectra2d

set_option linter.unusedSectionVars false

open Verif.Spectra (IsSpectrum)
open Verif.Fourier Verif.Energy Verif.SpatialMeans Verif.Sw1l Verif.Forcing Finset

noncomputable section

section spectrum

variable {M : Finset (Fin 2 → ℤ)} {B : Type*} [Fintype B] {dk : ℝ} {sp : (M → ℝ) → B → ℝ}

theorem sp_add (h : IsSpectrum dk (fun _ => 1) sp) (f g : M → ℝ) (b : B) :
    sp (fun k => f k + g k) b = sp f b + sp g b := by
  obtain ⟨w, -, -, hl⟩ := h.weights
  simp only [hl, mul_add, Finset.sum_add_distrib]

theorem sp_nonneg (h : IsSpectrum dk (fun _ => 1) sp) (f : M → ℝ) (hf : ∀ k, 0 ≤ f k) (b : B) :
    0 ≤ sp f b := by
  obtain ⟨w, hw, -, hl⟩ := h.weights
  rw [hl]; exact Finset.sum_nonneg fun k _ => mul_nonneg (hw k b) (hf k)

theorem sp_total (h : IsSpectrum dk (fun _ => 1) sp) (f : (Fin 2 → ℤ) → ℝ) :
    ∑ b, sp (fun k => f k) b * dk = ∑ k ∈ M, f k := by
  obtain ⟨w, -, hs, hl⟩ := h.weights
  simp only [hl, Finset.sum_mul]
  rw [Finset.sum_comm, ← Finset.sum_coe_sort M]
  refine Finset.sum_congr rfl fun m _ => ?_
  have := hs m
  calc ∑ b, w m b * f m * dk = (∑ b, w m b * dk) * f m := by
        rw [Finset.sum_mul]; exact Finset.sum_congr rfl fun b _ => by ring
    _ = f m := by rw [this, one_mul]

/-- C65: the spectrum of ns2d is non-negative, and its sum times the width of the bins is the energy of
the file of the spatial means. -/
theorem C65_ns2d (h : IsSpectrum dk (fun _ => 1) sp) (δ : Fin 2 → ℝ) (fd fdHypo : (Fin 2 → ℤ) → ℝ) (dt : ℝ)
    (rot F : Fld (Fin 2)) :
    (∀ b, 0 ≤ ns2dSpectrum sp δ rot b) ∧
    ∑ b, ns2dSpectrum sp δ rot b * dk = (ns2dMeans M δ fd fdHypo dt rot F).E := by
  refine ⟨fun b => sp_nonneg h _ (fun k => ?_) b, sp_total h (energy2 δ rot)⟩
  unfold energy2; positivity

/-- C65: the spectra of ns2d.strat are non-negative; at every instant and in every bin the energy is the
sum of the kinetic and the potential one, and the kinetic one the sum of those of the two components; their
sums times the width of the bins are the energies of the file of the spatial means. -/
theorem C65_ns2dstrat (h : IsSpectrum dk (fun _ => 1) sp) (δ : Fin 2 → ℝ) (N : ℝ)
    (fd fdHypo : (Fin 2 → ℤ) → ℝ) (dt : ℝ) (rot b Frot Fb : Fld (Fin 2)) :
    let s := stratSpectra sp δ N rot b
    let m := stratMeans M δ N fd fdHypo dt rot b Frot Fb
    (∀ i, s.E i = s.EK i + s.EA i) ∧ (∀ i, s.EK i = s.EKux i + s.EKuy i) ∧
    (∀ i, 0 ≤ s.EKux i ∧ 0 ≤ s.EKuy i ∧ 0 ≤ s.EA i) ∧
    ∑ i, s.E i * dk = m.E ∧ ∑ i, s.EK i * dk = m.EK ∧ ∑ i, s.EA i * dk = m.EA ∧
    ∑ i, s.EKux i * dk = ∑ k ∈ M, ‖ux2 δ rot k‖ ^ 2 / 2 := by
  refine ⟨fun i => sp_add h _ _ i, fun i => ?_, fun i => ⟨?_, ?_, ?_⟩, ?_, ?_, ?_, ?_⟩
  · show sp _ i = sp _ i + sp _ i
    rw [← sp_add h]
    congr 1; funext k; simp only [energy2]; ring
  · exact sp_nonneg h _ (fun k => by positivity) i
  · exact sp_nonneg h _ (fun k => by positivity) i
  · exact sp_nonneg h _ (fun k => by unfold energyA2; split_ifs <;> positivity) i
  · exact sp_total h fun k => energy2 δ rot k + energyA2 N b k
  · exact sp_total h fun k => energy2 δ rot k
  · exact sp_total h fun k => energyA2 N b k
  · exact sp_total h fun k => ‖ux2 δ rot k‖ ^ 2 / 2

/-- C65: the spectra of plate2d are non-negative, and their sums times the width of the bins are the
energies of the file of the spatial means. -/
theorem C65_plate2d (h : IsSpectrum dk (fun _ => 1) sp) (n : Fin 2 → ℕ) (δ : Fin 2 → ℝ)
    (S : Finset (Fin 2 → ℤ)) (hS : S ⊆ M) (fd fdHypo : (Fin 2 → ℤ) → ℝ) (dt : ℝ) (w z Fw : Fld (Fin 2))
    (hw : ∀ k ∉ S, w k = 0) (hz : ∀ k ∉ S, z k = 0) :
    let s := plateSpectra sp n δ S w z
    let m := plateMeans n δ S M fd fdHypo dt w z Fw
    (∀ i, 0 ≤ s.EK i ∧ 0 ≤ s.EL i ∧ 0 ≤ s.EE i) ∧
    ∑ i, s.EK i * dk = m.Ek ∧ ∑ i, s.EL i * dk = m.El ∧ ∑ i, s.EE i * dk = m.Ee ∧
    ∑ i, (s.EK i + s.EL i + s.EE i) * dk = m.E := by
  intro s m
  have h1 : ∑ i, s.EK i * dk = m.Ek := by
    refine (sp_total h fun k => 0.5 * ‖w k‖ ^ 2).trans ?_
    refine (Finset.sum_subset hS fun k _ hk => ?_).symm
    simp [hw k hk]
  have h2 : ∑ i, s.EL i * dk = m.El := by
    refine (sp_total h fun k => ‖(0.5 : ℂ) * (((((δ 0 * (k 0 : ℝ)) ^ 2 + (δ 1 * (k 1 : ℝ)) ^ 2) ^ 2 : ℝ) : ℂ)
      * ((‖z k‖ ^ 2 : ℝ) : ℂ))‖).trans ?_
    rw [← Finset.sum_subset hS fun k _ hk => by simp [hz k hk]]
    refine Finset.sum_congr rfl fun k _ => ?_
    rw [norm_mul, norm_mul, Complex.norm_real, Complex.norm_real]
    simp only [Real.norm_eq_abs, abs_mul]
    norm_num
    ring
  have h3 : ∑ i, s.EE i * dk = m.Ee :=
    sp_total h fun k => ‖(0.25 : ℂ) * (((((δ 0 * (k 0 : ℝ)) ^ 2 + (δ 1 * (k 1 : ℝ)) ^ 2) ^ 2 : ℝ) : ℂ)
      * ((‖chiFft n δ S z k‖ ^ 2 : ℝ) : ℂ))‖
  refine ⟨fun i => ⟨?_, ?_, ?_⟩, h1, h2, h3, ?_⟩
  · exact sp_nonneg h _ (fun k => by positivity) i
  · exact sp_nonneg h _ (fun k => norm_nonneg _) i
  · exact sp_nonneg h _ (fun k => norm_nonneg _) i
  · simp only [add_mul, Finset.sum_add_distrib, h1, h2, h3]
    rfl

end spectrum

/-! ### Shallow water: one mode -/

section mode

variable {p : Par}

theorem curl_eq (k : Mode) (u : UEta) : curl (p.kx k) (p.ky k) u = rotOf p k u.ux u.uy := by
  simp only [curl, rotOf]; ring

theorem divergence_eq (k : Mode) (u : UEta) : divergence (p.kx k) (p.ky k) u = divOf p k u.ux u.uy := by
  simp only [divergence, divOf]; ring

theorem energyU_eq (u : UEta) : energyU p u = linEnergy p.c2 u := by
  simp only [energyU, linEnergy]; ring

theorem aOf_eq (k : Mode) (u : UEta) :
    aOf p k u = u.eta * p.k2 k + (p.f / p.c2 : ℝ) * rotOf p k u.ux u.uy := by
  unfold aOf
  by_cases hf : p.f = 0 <;> simp [hf]

theorem Par.Ok.kappa_pos (h : p.Ok) {k : Mode} (hk : k ≠ 0) : 0 < p.k2 k + p.kd2 := by
  have := h.k2_pos hk; have := h.kd2_nonneg; positivity

theorem c2_kappa (h : p.Ok) (k : Mode) : p.c2 * (p.k2 k + p.kd2) = p.c2 * p.k2 k + p.f ^ 2 := by
  have := h.2.ne'
  unfold Par.kd2; field_simp

/-- A state is determined by its vorticity, its divergence and its displacement. -/
theorem ext_mode (h : p.Ok) {k : Mode} (hk : k ≠ 0) {u v : UEta}
    (h1 : rotOf p k u.ux u.uy = rotOf p k v.ux v.uy) (h2 : divOf p k u.ux u.uy = divOf p k v.ux v.uy)
    (h3 : u.eta = v.eta) : u = v := by
  have a := vel_of_rot_div h hk u.ux u.uy
  have b := vel_of_rot_div h hk v.ux v.uy
  rw [h1, h2] at a
  exact UEta.ext (a.1.symm.trans b.1) (a.2.symm.trans b.2) h3

theorem rot_vecFromRot (h : p.Ok) {k : Mode} (hk : k ≠ 0) (r : ℂ) :
    rotOf p k (vecFromRot (p.kx k) (p.ky k) r).1 (vecFromRot (p.kx k) (p.ky k) r).2 = r ∧
    divOf p k (vecFromRot (p.kx k) (p.ky k) r).1 (vecFromRot (p.kx k) (p.ky k) r).2 = 0 := by
  have hK : (p.kx k : ℂ) ^ 2 + (p.ky k : ℂ) ^ 2 ≠ 0 := by
    have := (h.k2_pos hk).ne'; unfold Par.k2 at this; exact_mod_cast this
  simp only [vecFromRot, rotOf, divOf, h.k2not0 hk, Par.k2]
  push_cast
  constructor <;> (field_simp; ring_nf; try simp only [Complex.I_sq]; try ring)

theorem rot_vecFromDiv (h : p.Ok) {k : Mode} (hk : k ≠ 0) (d : ℂ) :
    rotOf p k (vecFromDiv p k d).1 (vecFromDiv p k d).2 = 0 ∧
    divOf p k (vecFromDiv p k d).1 (vecFromDiv p k d).2 = d := by
  have hK : (p.kx k : ℂ) ^ 2 + (p.ky k : ℂ) ^ 2 ≠ 0 := by
    have := (h.k2_pos hk).ne'; unfold Par.k2 at this; exact_mod_cast this
  simp only [vecFromDiv, rotOf, divOf, h.k2not0 hk, Par.k2]
  push_cast
  constructor <;> (field_simp; ring_nf; try simp only [Complex.I_sq]; try ring)

theorem norm_vecFromRot (h : p.Ok) {k : Mode} (hk : k ≠ 0) (r : ℂ) :
    ‖(vecFromRot (p.kx k) (p.ky k) r).1‖ ^ 2 + ‖(vecFromRot (p.kx k) (p.ky k) r).2‖ ^ 2
      = ‖r‖ ^ 2 / p.k2 k := by
  have hK := (h.k2_pos hk).ne'
  simp only [vecFromRot, h.k2not0 hk, norm_mul, norm_div, norm_neg, Complex.norm_I, Complex.norm_real,
    Real.norm_eq_abs, mul_pow, div_pow, sq_abs, one_mul]
  field_simp
  simp only [Par.k2]; ring

theorem norm_vecFromDiv (h : p.Ok) {k : Mode} (hk : k ≠ 0) (r : ℂ) :
    ‖(vecFromDiv p k r).1‖ ^ 2 + ‖(vecFromDiv p k r).2‖ ^ 2 = ‖r‖ ^ 2 / p.k2 k := by
  have hK := (h.k2_pos hk).ne'
  simp only [vecFromDiv, h.k2not0 hk, norm_mul, norm_div, norm_neg, Complex.norm_I, Complex.norm_real,
    Real.norm_eq_abs, mul_pow, div_pow, sq_abs, one_mul]
  field_simp
  simp only [Par.k2]; ring

/-- The energies of one mode in terms of its potential vorticity, divergence and ageostrophic variable. -/
theorem linEnergies_ne (h : p.Ok) {k : Mode} (hk : k ≠ 0) (u : UEta) :
    (linEnergies p k u).g = ‖qOf p k u‖ ^ 2 / (2 * (p.k2 k + p.kd2)) ∧
    (linEnergies p k u).d = ‖divOf p k u.ux u.uy‖ ^ 2 / (2 * p.k2 k) ∧
    (linEnergies p k u).a = p.c2 * ‖aOf p k u‖ ^ 2 / (2 * p.k2 k * (p.k2 k + p.kd2)) := by
  have hK := h.k2_pos hk
  have hκ := Par.Ok.kappa_pos h hk
  have hc := h.2
  have hck := c2_kappa h k
  refine ⟨?_, ?_, ?_⟩
  · simp only [linEnergies, energyU, fromQ]
    rw [norm_vecFromRot h hk]
    simp only [invLap, if_neg hk, h.kappa2not0 hk]
    have e : ‖(if p.f = 0 then 0 else -(p.f : ℂ) * (qOf p k u / ((p.k2 k + p.kd2 : ℝ) : ℂ)) / p.c2)‖ ^ 2
        = p.f ^ 2 * ‖qOf p k u‖ ^ 2 / ((p.k2 k + p.kd2) ^ 2 * p.c2 ^ 2) := by
      split_ifs with hf
      · simp [hf]
      · simp only [norm_mul, norm_div, norm_neg, Complex.norm_real, Real.norm_eq_abs, mul_pow, div_pow,
          sq_abs]
        field_simp
    rw [e]
    simp only [norm_mul, norm_div, Complex.norm_real, Real.norm_eq_abs, mul_pow, div_pow, sq_abs]
    have : p.f ^ 2 = p.c2 * (p.k2 k + p.kd2) - p.c2 * p.k2 k := by linarith
    rw [this]
    field_simp
    ring
  · simp only [linEnergies]
    rw [norm_vecFromDiv h hk]
    field_simp
    ring
  · simp only [linEnergies, energyU, fromA]
    rw [norm_vecFromRot h hk]
    simp only [etaFromA, invLap, if_neg hk, h.kappa2not0 hk]
    have e : ‖(if p.f = 0 then 0 else (p.f : ℂ) * (aOf p k u / ((p.k2 k + p.kd2 : ℝ) : ℂ)))‖ ^ 2
        = p.f ^ 2 * ‖aOf p k u‖ ^ 2 / (p.k2 k + p.kd2) ^ 2 := by
      split_ifs with hf
      · simp [hf]
      · simp only [norm_mul, norm_div, Complex.norm_real, Real.norm_eq_abs, mul_pow, div_pow,
          sq_abs]
        field_simp
    rw [e]
    simp only [norm_div, Complex.norm_real, Real.norm_eq_abs, div_pow, sq_abs]
    have : p.f ^ 2 = p.c2 * (p.k2 k + p.kd2) - p.c2 * p.k2 k := by linarith
    rw [this]
    field_simp
    ring

/-- The three energies of the mean mode are zero. -/
theorem linEnergies_zero (u : UEta) :
    (linEnergies p 0 u).g = 0 ∧ (linEnergies p 0 u).d = 0 ∧ (linEnergies p 0 u).a = 0 := by
  have hx : p.kx 0 = 0 := by simp [Par.kx]
  have hy : p.ky 0 = 0 := by simp [Par.ky]
  refine ⟨?_, ?_, ?_⟩ <;>
    simp [linEnergies, energyU, fromQ, fromA, etaFromA, invLap, vecFromRot, vecFromDiv, hx, hy]

/-- C65: for every mode but the mean one, `Eglin`, `Edlin` and `Ealin` are the energies of the geostrophic,
divergent and ageostrophic parts of the mode, and their sum is the energy of the mode. -/
theorem C65_sw1l_linear (h : p.Ok) {k : Mode} (hk : k ≠ 0) (u : UEta) :
    (∀ ug ud ua, LinearParts p.f p.c2 (p.kx k) (p.ky k) u ug ud ua →
      (linEnergies p k u).g = linEnergy p.c2 ug ∧ (linEnergies p k u).d = linEnergy p.c2 ud ∧
      (linEnergies p k u).a = linEnergy p.c2 ua) ∧
    (∃ ug ud ua, LinearParts p.f p.c2 (p.kx k) (p.ky k) u ug ud ua) ∧
    (linEnergies p k u).g + (linEnergies p k u).d + (linEnergies p k u).a = linEnergy p.c2 u := by
  have hK := h.k2_pos hk
  have hκ := Par.Ok.kappa_pos h hk
  have hc := h.2
  have hck := c2_kappa h k
  have hKc : (p.k2 k : ℂ) ≠ 0 := by exact_mod_cast hK.ne'
  have hcc : (p.c2 : ℂ) ≠ 0 := by exact_mod_cast hc.ne'
  have hκc : ((p.k2 k : ℂ) + p.kd2) ≠ 0 := by exact_mod_cast hκ.ne'
  have hckc : (p.c2 : ℂ) * (p.k2 k + p.kd2) = p.c2 * p.k2 k + p.f ^ 2 := by exact_mod_cast hck
  have hdef : ((p.k2 k : ℝ) : ℂ) = (p.kx k : ℂ) ^ 2 + (p.ky k : ℂ) ^ 2 := by
    simp only [Par.k2]; push_cast; ring
  -- the states rebuilt by the program
  set G := fromQ p k (qOf p k u) with hG
  set D : UEta := ⟨(vecFromDiv p k (divOf p k u.ux u.uy)).1, (vecFromDiv p k (divOf p k u.ux u.uy)).2, 0⟩ with hD
  set A := fromA p k (aOf p k u) with hA
  have Grot : rotOf p k G.ux G.uy = qOf p k u / (p.k2 k + p.kd2) * p.k2 k := by
    have := (rot_vecFromRot h hk (invLap p k (qOf p k u) * p.k2 k)).1
    simp only [invLap, if_neg hk, h.kappa2not0 hk, hG, fromQ] at this ⊢
    rw [this]; push_cast; ring
  have Gdiv : divOf p k G.ux G.uy = 0 := (rot_vecFromRot h hk (invLap p k (qOf p k u) * p.k2 k)).2
  have Geta : G.eta = -p.f * (qOf p k u / (p.k2 k + p.kd2)) / p.c2 := by
    simp only [hG, fromQ, invLap, if_neg hk, h.kappa2not0 hk]
    by_cases hf : p.f = 0 <;> simp [hf]
  have Aeta : A.eta = aOf p k u / (p.k2 k + p.kd2) := by
    simp only [hA, fromA, etaFromA, invLap, if_neg hk, h.kappa2not0 hk]
    push_cast; ring
  have Arot : rotOf p k A.ux A.uy = p.f * (aOf p k u / (p.k2 k + p.kd2)) := by
    have := (rot_vecFromRot h hk (if p.f = 0 then 0 else p.f * etaFromA p k (aOf p k u))).1
    simp only [hA, fromA, etaFromA, invLap, if_neg hk, h.kappa2not0 hk] at this ⊢
    rw [this]
    by_cases hf : p.f = 0 <;> simp [hf]
  have Adiv : divOf p k A.ux A.uy = 0 :=
    (rot_vecFromRot h hk (if p.f = 0 then 0 else p.f * etaFromA p k (aOf p k u))).2
  have Drot : rotOf p k D.ux D.uy = 0 := (rot_vecFromDiv h hk (divOf p k u.ux u.uy)).1
  have Ddiv : divOf p k D.ux D.uy = divOf p k u.ux u.uy := (rot_vecFromDiv h hk (divOf p k u.ux u.uy)).2
  have rot_add : ∀ a b c d e f : ℂ, rotOf p k (a + b + c) (d + e + f)
      = rotOf p k a d + rotOf p k b e + rotOf p k c f := by intros; simp only [rotOf]; ring
  have div_add : ∀ a b c d e f : ℂ, divOf p k (a + b + c) (d + e + f)
      = divOf p k a d + divOf p k b e + divOf p k c f := by intros; simp only [divOf]; ring
  -- the sum of the rebuilt states
  have hsum : u = ⟨G.ux + D.ux + A.ux, G.uy + D.uy + A.uy, G.eta + D.eta + A.eta⟩ := by
    refine ext_mode h hk ?_ ?_ ?_
    · rw [rot_add, Grot, Drot, Arot, aOf_eq, qOf]
      push_cast
      field_simp
      linear_combination rotOf p k u.ux u.uy * hckc
    · rw [div_add, Gdiv, Ddiv, Adiv]; ring
    · show u.eta = G.eta + D.eta + A.eta
      rw [Geta, Aeta, aOf_eq, qOf, hD]
      push_cast
      field_simp
      linear_combination u.eta * hckc
  refine ⟨?_, ⟨G, D, A, ?_⟩, ?_⟩
  · intro ug ud ua hp
    have gd := hp.g_div; rw [divergence_eq] at gd
    have dc := hp.d_curl; rw [curl_eq] at dc
    have ad := hp.a_div; rw [divergence_eq] at ad
    have apv := hp.a_pv; rw [curl_eq] at apv
    have bal : p.f * rotOf p k ug.ux ug.uy = -(p.c2 * p.k2 k * ug.eta) := by
      simp only [rotOf]; rw [hdef]
      linear_combination Complex.I * p.kx k * hp.balance_x + Complex.I * p.ky k * hp.balance_y
        + (p.c2 * ug.eta * (p.kx k ^ 2 + p.ky k ^ 2) : ℂ) * Complex.I_sq
    have hrot : rotOf p k u.ux u.uy = rotOf p k ug.ux ug.uy + p.f * ua.eta := by
      rw [hp.ux, hp.uy, rot_add, dc, apv]; ring
    have hdiv : divOf p k u.ux u.uy = divOf p k ud.ux ud.uy := by
      rw [hp.ux, hp.uy, div_add, gd, ad]; ring
    have heta : u.eta = ug.eta + ua.eta := by rw [hp.eta, hp.d_eta]; ring
    have hq : qOf p k u = rotOf p k ug.ux ug.uy - p.f * ug.eta := by rw [qOf, hrot, heta]; ring
    have e1 : G = ug := by
      refine ext_mode h hk ?_ (Gdiv.trans gd.symm) ?_
      · rw [Grot, hq]; field_simp
        refine mul_left_cancel₀ hcc ?_
        linear_combination -p.f * bal - rotOf p k ug.ux ug.uy * hckc
      · rw [Geta, hq]; field_simp
        linear_combination -bal - ug.eta * hckc
    have e2 : D = ud := by
      refine ext_mode h hk (Drot.trans dc.symm) (Ddiv.trans hdiv) hp.d_eta.symm
    have hE : A.eta = ua.eta := by
      rw [Aeta, aOf_eq, hrot, heta]
      push_cast
      field_simp
      linear_combination bal - ua.eta * hckc
    have e3 : A = ua := by
      refine ext_mode h hk ?_ (Adiv.trans ad.symm) hE
      rw [Arot, apv, ← hE, Aeta]
    refine ⟨?_, ?_, ?_⟩
    · rw [← e1, ← energyU_eq]; rfl
    · rw [← e2]; simp only [linEnergies, linEnergy, hD]; simp; ring
    · rw [← e3, ← energyU_eq]; rfl
  · -- the rebuilt states are the parts
    have hv := vel_of_rot_div h hk G.ux G.uy
    rw [Grot, Gdiv] at hv
    refine ⟨congrArg UEta.ux hsum, congrArg UEta.uy hsum, congrArg UEta.eta hsum, ?_, ?_, ?_, ?_, rfl, ?_, ?_⟩
    · rw [← hv.2, Geta]; field_simp; ring
    · rw [← hv.1, Geta]; field_simp; ring
    · rw [divergence_eq, Gdiv]
    · rw [curl_eq, Drot]
    · rw [divergence_eq, Adiv]
    · rw [curl_eq, Arot, Aeta]
  · obtain ⟨e1, e2, e3⟩ := linEnergies_ne h hk u
    rw [e1, e2, e3, linEnergy]
    have hr : ‖u.ux‖ ^ 2 + ‖u.uy‖ ^ 2
        = (‖rotOf p k u.ux u.uy‖ ^ 2 + ‖divOf p k u.ux u.uy‖ ^ 2) / p.k2 k := by
      rw [eq_div_iff hK.ne']
      simp only [Verif.Spectra.norm_sq_re_im, rotOf, divOf, Par.k2]
      simp
      ring
    rw [hr, qOf, aOf_eq]
    generalize rotOf p k u.ux u.uy = ζ
    generalize divOf p k u.ux u.uy = d
    simp only [Verif.Spectra.norm_sq_re_im]
    simp
    have hf : p.f ^ 2 = p.c2 * (p.k2 k + p.kd2) - p.c2 * p.k2 k := by linarith
    generalize p.k2 k + p.kd2 = κ at hf hκ ⊢
    field_simp
    linear_combination (ζ.re ^ 2 + ζ.im ^ 2 + p.k2 k * p.c2 * (u.eta.re ^ 2 + u.eta.im ^ 2)) * hf

/-- The angular frequency of the waves of a mode. -/
theorem sigma_sq (h : p.Ok) {k : Mode} (hk : k ≠ 0) : sigma p k ^ 2 = p.c2 * (p.k2 k + p.kd2) := by
  have hK := h.k2_pos hk
  have hc := h.2
  have hs : (p.c2 ^ (0.5 : ℝ)) ^ 2 = p.c2 := by
    rw [show (0.5 : ℝ) = 1 / 2 by norm_num, ← Real.sqrt_eq_rpow, Real.sq_sqrt hc.le]
  rw [c2_kappa h k]
  simp only [sigma, h.k2not0 hk]
  split_ifs with hf
  · rw [mul_pow, hs, Real.sq_sqrt hK.le, hf]; ring
  · rw [Real.sq_sqrt (by positivity), mul_pow, hs, Real.sq_sqrt hK.le]; ring

theorem norm_kappaOverIc (h : p.Ok) (k : Mode) : p.c2 * ‖p.kappaOverIc k‖ ^ 2 = p.k2 k + p.kd2 := by
  have h1 : 0 ≤ p.k2 k := by unfold Par.k2; positivity
  have h2 := h.kd2_nonneg
  have h3 := h.2
  simp only [Par.kappaOverIc, norm_mul, norm_neg, norm_one, Complex.norm_I, Complex.norm_real, Real.norm_eq_abs,
    one_mul, sq_abs]
  rw [Real.sq_sqrt (by positivity)]
  field_simp

/-- The squares of the normal modes of the program. -/
theorem bvec_norm (h : p.Ok) {k : Mode} (hk : k ≠ 0) (s : QA) :
    ‖(bvec p k s).q‖ ^ 2 = ‖s.q‖ ^ 2 / (p.k2 k + p.kd2) ∧
    (∀ x y : ℝ, ‖x * (bvec p k s).ap + y * (bvec p k s).am‖ ^ 2
      = 2 * p.c2 * ‖x * s.ap + y * s.am‖ ^ 2 / (p.k2 k * (p.k2 k + p.kd2))) := by
  have hK := h.k2_pos hk
  have hκ := Par.Ok.kappa_pos h hk
  have hc := h.2
  have hσ := sigma_sq h hk
  have hs : (p.c2 ^ (0.5 : ℝ)) ^ 2 = p.c2 := by
    rw [show (0.5 : ℝ) = 1 / 2 by norm_num, ← Real.sqrt_eq_rpow, Real.sq_sqrt hc.le]
  have h2 : ((2 : ℝ) ^ (0.5 : ℝ)) ^ 2 = 2 := by
    rw [show (0.5 : ℝ) = 1 / 2 by norm_num, ← Real.sqrt_eq_rpow, Real.sq_sqrt (by norm_num)]
  constructor
  · simp only [bvec, if_neg hk, norm_mul, norm_div, norm_neg, Complex.norm_real, Real.norm_eq_abs, mul_pow, div_pow,
      sq_abs]
    rw [hs, hσ]
    field_simp
  · intro x y
    have e : (x : ℂ) * (bvec p k s).ap + y * (bvec p k s).am
        = (x * s.ap + y * s.am)
          * ((((2 : ℝ) ^ (0.5 : ℝ) : ℝ) : ℂ) * p.c2 / (sigma p k * √(p.k2 k) : ℝ)) := by
      simp only [bvec, if_neg hk, h.k2not0 hk]; ring
    rw [e]
    simp only [norm_mul, norm_div, Complex.norm_real, Real.norm_eq_abs, mul_pow, div_pow, sq_abs]
    rw [h2, hσ, Real.sq_sqrt hK.le]
    field_simp

/-- The relation between the energies of the normal modes and the three energies of one mode. -/
theorem qda_eq (h : p.Ok) {k : Mode} (hk : k ≠ 0) (u : UEta) :
    (qdaEnergies p k u).g = (linEnergies p k u).g ∧
    (qdaEnergies p k u).d = (linEnergies p k u).d / 2 ∧
    (qdaEnergies p k u).a = (linEnergies p k u).a / 2 ∧
    (qapamEnergies p k u).2.1 + (qapamEnergies p k u).2.2
      = 2 * ((qdaEnergies p k u).d + (qdaEnergies p k u).a) := by
  have hK := h.k2_pos hk
  have hκ := Par.Ok.kappa_pos h hk
  have hc := h.2
  obtain ⟨e1, e2, e3⟩ := linEnergies_ne h hk u
  obtain ⟨b1, b2⟩ := bvec_norm h hk (qapam p k u)
  have hn := norm_kappaOverIc h k
  have hq : (qapam p k u).q = qOf p k u := by rw [qapam_ne hk]; rfl
  have hd : (0.5 : ℝ) * (qapam p k u).ap + (-0.5 : ℝ) * (qapam p k u).am
      = p.kappaOverIc k * divOf p k u.ux u.uy / 2 := by rw [qapam_ne hk]; push_cast; ring
  have ha : (0.5 : ℝ) * (qapam p k u).ap + (0.5 : ℝ) * (qapam p k u).am = aOf p k u / 2 := by
    rw [qapam_ne hk, aOf_eq]; push_cast; ring
  have bd := b2 0.5 (-0.5)
  have ba := b2 0.5 0.5
  rw [hd] at bd
  rw [ha] at ba
  refine ⟨?_, ?_, ?_, ?_⟩
  · simp only [qdaEnergies]; rw [b1, e1, hq]; field_simp; ring
  · have : (0.5 : ℂ) * ((bvec p k (qapam p k u)).ap - (bvec p k (qapam p k u)).am)
        = (0.5 : ℝ) * (bvec p k (qapam p k u)).ap + (-0.5 : ℝ) * (bvec p k (qapam p k u)).am := by
      push_cast; ring
    simp only [qdaEnergies]
    rw [this, bd, e2, norm_div, norm_mul, div_pow, mul_pow]
    simp only [Complex.norm_ofNat]
    rw [← hn]
    have : ‖p.kappaOverIc k‖ ≠ 0 := norm_ne_zero_iff.mpr (h.kappaOverIc_ne hk)
    field_simp
    ring
  · have : (0.5 : ℂ) * ((bvec p k (qapam p k u)).ap + (bvec p k (qapam p k u)).am)
        = (0.5 : ℝ) * (bvec p k (qapam p k u)).ap + (0.5 : ℝ) * (bvec p k (qapam p k u)).am := by
      push_cast; ring
    simp only [qdaEnergies]
    rw [this, ba, e3, norm_div, div_pow]
    simp only [Complex.norm_ofNat]
    field_simp
    ring
  · simp only [qdaEnergies, qapamEnergies, Verif.Spectra.norm_sq_re_im]
    simp
    ring

/-- C65, partial: with the normal modes, the energies of `q` and of the two waves of a mode are the geostrophic
energy, and the sum of the energies of the divergent and ageostrophic parts.
Missing: the energies of the divergent and ageostrophic parts of `compute_qda_energies_fft` (see below). -/
theorem C65_normal_modes_partial (h : p.Ok) {k : Mode} (hk : k ≠ 0) (u ug ud ua : UEta)
    (hp : LinearParts p.f p.c2 (p.kx k) (p.ky k) u ug ud ua) :
    (qapamEnergies p k u).1 = linEnergy p.c2 ug ∧
    (qapamEnergies p k u).2.1 + (qapamEnergies p k u).2.2 = linEnergy p.c2 ud + linEnergy p.c2 ua ∧
    (qapamEnergies p k u).1 + (qapamEnergies p k u).2.1 + (qapamEnergies p k u).2.2 = linEnergy p.c2 u ∧
    (qdaEnergies p k u).g = linEnergy p.c2 ug := by
  obtain ⟨l1, -, l3⟩ := C65_sw1l_linear h hk u
  obtain ⟨g, d, a⟩ := l1 ug ud ua hp
  obtain ⟨q1, q2, q3, q4⟩ := qda_eq h hk u
  have q0 : (qapamEnergies p k u).1 = (qdaEnergies p k u).g := rfl
  refine ⟨by rw [q0, q1, g], ?_, ?_, by rw [q1, g]⟩
  · rw [q4, q2, q3, d, a]; ring
  · rw [add_assoc, q4, q0, q1, q2, q3, ← l3]; ring

/-- C65 is violated by sw1l: `compute_qda_energies_fft` gives half of the energies of the divergent and ageostrophic
parts, for every mode. -/
theorem C65_qda_energies_violated (h : p.Ok) {k : Mode} (hk : k ≠ 0) (u ug ud ua : UEta)
    (hp : LinearParts p.f p.c2 (p.kx k) (p.ky k) u ug ud ua) :
    (qdaEnergies p k u).d = linEnergy p.c2 ud / 2 ∧ (qdaEnergies p k u).a = linEnergy p.c2 ua / 2 ∧
    ((qdaEnergies p k u).g + (qdaEnergies p k u).d + (qdaEnergies p k u).a = linEnergy p.c2 u ↔
      linEnergy p.c2 ud + linEnergy p.c2 ua = 0) := by
  obtain ⟨l1, -, l3⟩ := C65_sw1l_linear h hk u
  obtain ⟨g, d, a⟩ := l1 ug ud ua hp
  obtain ⟨q1, q2, q3, q4⟩ := qda_eq h hk u
  refine ⟨by rw [q2, d], by rw [q3, a], ?_⟩
  rw [← l3, q1, q2, q3, g, d, a]
  constructor <;> intro h <;> linarith

/-- Shallow water with rotation, `f = c2 = 1`, mode `(1, 0)`: the displacement `2` is one half geostrophic and one
half ageostrophic, with a divergent velocity. -/
example : Par.Ok ⟨fun _ => 1, 1, 1⟩ ∧ (![1, 0] : Mode) ≠ 0 ∧
    LinearParts 1 1 (Par.kx ⟨fun _ => 1, 1, 1⟩ ![1, 0]) (Par.ky ⟨fun _ => 1, 1, 1⟩ ![1, 0])
      ⟨3, 0, 2⟩ ⟨0, Complex.I, 1⟩ ⟨3, 0, 0⟩ ⟨0, -Complex.I, 1⟩ ∧
    linEnergy 1 ⟨3, 0, 2⟩ = 13 / 2 ∧ linEnergy 1 ⟨0, Complex.I, 1⟩ = 1 ∧ linEnergy 1 ⟨3, 0, 0⟩ = 9 / 2 := by
  refine ⟨⟨fun _ => one_ne_zero, one_pos⟩, by decide, ⟨?_, ?_, ?_, ?_, ?_, ?_, ?_, ?_, ?_, ?_⟩, ?_, ?_, ?_⟩ <;>
    simp [curl, divergence, linEnergy, Par.kx, Par.ky] <;> norm_num

end mode

/-! ### Shallow water: the spectra -/

section sw

variable {M : Finset (Fin 2 → ℤ)} {B : Type*} [Fintype B] {dk : ℝ} {sp : (M → ℝ) → B → ℝ} {p : Par}

/-- C65: the spectra of sw1l.modified are non-negative and their sums times the width of the bins are the energies of
the spatial means and the linearised potential enstrophy. -/
theorem C65_msw (h : IsSpectrum dk (fun _ => 1) sp) (hp : p.Ok) (fd fdHypo : (Fin 2 → ℤ) → ℝ) (dt : ℝ) (s F : Sw) :
    let e := mswSpectra sp p s
    let m := mswMeans M p.δ p.c2 fd fdHypo dt s F
    (∀ i, 0 ≤ e.EK i ∧ 0 ≤ e.EA i ∧ 0 ≤ e.EKr i ∧ 0 ≤ e.CPE i ∧ 0 ≤ e.Eglin i ∧ 0 ≤ e.Edlin i ∧ 0 ≤ e.Ealin i) ∧
    ∑ i, e.EK i * dk = m.EK ∧ ∑ i, e.EA i * dk = m.EA ∧ ∑ i, (e.EK i + e.EA i) * dk = m.E ∧
    ∑ i, e.EKr i * dk = m.EKr ∧
    ∑ i, e.CPE i * dk = ∑ k ∈ M, ‖curl (p.kx k) (p.ky k) ⟨s.ux k, s.uy k, s.eta k⟩ - p.f * s.eta k‖ ^ 2 / 2 := by
  intro e m
  have hc := hp.2
  have h1 : ∑ i, e.EK i * dk = m.EK := sp_total h fun k => ‖s.ux k‖ ^ 2 / 2 + ‖s.uy k‖ ^ 2 / 2
  have h2 : ∑ i, e.EA i * dk = m.EA := sp_total h fun k => p.c2 * ‖s.eta k‖ ^ 2 / 2
  refine ⟨fun i => ⟨?_, ?_, ?_, ?_, ?_, ?_, ?_⟩, h1, h2, ?_, ?_, ?_⟩
  · exact sp_nonneg h _ (fun k => by positivity) i
  · exact sp_nonneg h _ (fun k => by positivity) i
  · exact sp_nonneg h _ (fun k => by positivity) i
  · exact sp_nonneg h _ (fun k => by positivity) i
  · exact sp_nonneg h _ (fun k => by simp only [linEnergies, energyU]; positivity) i
  · exact sp_nonneg h _ (fun k => by simp only [linEnergies]; positivity) i
  · exact sp_nonneg h _ (fun k => by simp only [linEnergies, energyU]; positivity) i
  · simp only [add_mul, Finset.sum_add_distrib, h1, h2]; rfl
  · exact sp_total h fun k => ‖(rotational p.δ s.ux s.uy k).1‖ ^ 2 / 2 + ‖(rotational p.δ s.ux s.uy k).2‖ ^ 2 / 2
  · refine (sp_total h fun k => ‖qOf p k ⟨s.ux k, s.uy k, s.eta k⟩‖ ^ 2 / 2).trans ?_
    refine Finset.sum_congr rfl fun k _ => ?_
    rw [curl_eq]; rfl

/-- C65: the sums of the spectra of the full solver sw1l times the width of the bins are the energies of the file of
the spatial means. -/
theorem C65_sw1l (h : IsSpectrum dk (fun _ => 1) sp) (n : Fin 2 → ℕ) (fd fdHypo : (Fin 2 → ℤ) → ℝ) (dt : ℝ)
    (s F : Sw) :
    let e := swSpectra sp n M p s
    let m := swMeans n M p.δ p.c2 fd fdHypo dt s F
    ∑ i, e.EK i * dk = m.EK ∧ ∑ i, e.EA i * dk = m.EA ∧ ∑ i, (e.EK i + e.EA i) * dk = m.E ∧
    ∑ i, e.EKr i * dk = m.EKr := by
  intro e m
  have h1 : ∑ i, e.EK i * dk = m.EK := sp_total h fun k =>
    ((starRingEnd ℂ) (fluxFft n M s.eta s.ux k) * s.ux k
      + (starRingEnd ℂ) (fluxFft n M s.eta s.uy k) * s.uy k).re / 2
  have h2 : ∑ i, e.EA i * dk = m.EA := sp_total h fun k => p.c2 * ‖s.eta k‖ ^ 2 / 2
  refine ⟨h1, h2, ?_, ?_⟩
  · simp only [add_mul, Finset.sum_add_distrib, h1, h2]; rfl
  · exact sp_total h fun k =>
      ((starRingEnd ℂ) (rotational p.δ (fluxFft n M s.eta s.ux) (fluxFft n M s.eta s.uy) k).1
          * (rotational p.δ s.ux s.uy k).1
        + (starRingEnd ℂ) (rotational p.δ (fluxFft n M s.eta s.ux) (fluxFft n M s.eta s.uy) k).2
          * (rotational p.δ s.ux s.uy k).2).re / 2

/-- C65, partial: without a mean flow nor a mean displacement, in every bin the sum of the spectra of the three linear
parts of sw1l.modified is the sum of the spectra of the kinetic and potential energies; so is the sum of the two
spectra of the normal modes.
Missing: the mean mode. -/
theorem C65_sw1l_linear_spectra_partial (h : IsSpectrum dk (fun _ => 1) sp) (hp : p.Ok) (s : Sw)
    (h0 : s.ux 0 = 0 ∧ s.uy 0 = 0 ∧ s.eta 0 = 0) (i : B) :
    let e := mswSpectra sp p s
    e.Eglin i + e.Edlin i + e.Ealin i = e.EK i + e.EA i ∧
    (normalModeSpectra sp p s).1 i = e.Eglin i ∧ (normalModeSpectra sp p s).2 i = e.Edlin i + e.Ealin i := by
  intro e
  have hq0 : ∀ u, qapamEnergies p 0 u = (0, 0, 0) := fun u => by simp [qapamEnergies, bvec]
  refine ⟨?_, ?_, ?_⟩
  · simp only [e, mswSpectra]
    rw [← sp_add h, ← sp_add h, ← sp_add h]
    congr 1; funext k
    by_cases hk : (k : Fin 2 → ℤ) = 0
    · rw [hk]
      obtain ⟨a, b, c⟩ := linEnergies_zero (p := p) ⟨s.ux 0, s.uy 0, s.eta 0⟩
      rw [a, b, c, h0.1, h0.2.1, h0.2.2]; simp
    · rw [(C65_sw1l_linear hp hk _).2.2, linEnergy]; ring
  · simp only [e, mswSpectra, normalModeSpectra]
    congr 1; funext k
    by_cases hk : (k : Fin 2 → ℤ) = 0
    · rw [hk, (linEnergies_zero _).1, hq0]
    · exact (qda_eq hp hk _).1
  · simp only [e, mswSpectra, normalModeSpectra]
    rw [← sp_add h]
    congr 1; funext k
    by_cases hk : (k : Fin 2 → ℤ) = 0
    · rw [hk, (linEnergies_zero _).2.1, (linEnergies_zero _).2.2, hq0]
    · obtain ⟨-, q2, q3, q4⟩ := qda_eq hp hk ⟨s.ux k, s.uy k, s.eta k⟩
      rw [q4, q2, q3]; ring

/-- C65 is violated by the shallow-water solvers: the energy of the mean flow and of the mean displacement is in the
spectra of the kinetic and potential energies and in none of the spectra of the linear parts. -/
theorem C65_sw1l_linear_spectra_violated (h : IsSpectrum dk (fun _ => 1) sp) (hp : p.Ok) (s : Sw) (h0 : 0 ∈ M) :
    let e := mswSpectra sp p s
    ∑ i, (e.EK i + e.EA i) * dk
      = ∑ i, (e.Eglin i + e.Edlin i + e.Ealin i) * dk + linEnergy p.c2 ⟨s.ux 0, s.uy 0, s.eta 0⟩ ∧
    ∑ i, (e.EK i + e.EA i) * dk
      = ∑ i, ((normalModeSpectra sp p s).1 i + (normalModeSpectra sp p s).2 i) * dk
        + linEnergy p.c2 ⟨s.ux 0, s.uy 0, s.eta 0⟩ := by
  intro e
  have hq0 : ∀ u, qapamEnergies p 0 u = (0, 0, 0) := fun u => by simp [qapamEnergies, bvec]
  have hE : ∑ i, (e.EK i + e.EA i) * dk = ∑ k ∈ M, linEnergy p.c2 ⟨s.ux k, s.uy k, s.eta k⟩ := by
    have : ∀ i, e.EK i + e.EA i = sp (fun k => linEnergy p.c2 ⟨s.ux k, s.uy k, s.eta k⟩) i := fun i => by
      simp only [e, mswSpectra]
      rw [← sp_add h]
      congr 1; funext k; simp only [linEnergy]; ring
    simp only [this]
    exact sp_total h fun k => linEnergy p.c2 ⟨s.ux k, s.uy k, s.eta k⟩
  have key : ∀ f : (Fin 2 → ℤ) → ℝ, f 0 = 0 → (∀ k ≠ 0, f k = linEnergy p.c2 ⟨s.ux k, s.uy k, s.eta k⟩) →
      ∑ k ∈ M, linEnergy p.c2 ⟨s.ux k, s.uy k, s.eta k⟩
        = ∑ k ∈ M, f k + linEnergy p.c2 ⟨s.ux 0, s.uy 0, s.eta 0⟩ := by
    intro f f0 hf
    rw [← Finset.add_sum_erase M _ h0, ← Finset.add_sum_erase M f h0, f0, zero_add, add_comm]
    congr 1
    exact Finset.sum_congr rfl fun k hk => (hf k (Finset.ne_of_mem_erase hk)).symm
  constructor
  · have : ∀ i, e.Eglin i + e.Edlin i + e.Ealin i = sp (fun k =>
        (linEnergies p k ⟨s.ux k, s.uy k, s.eta k⟩).g + (linEnergies p k ⟨s.ux k, s.uy k, s.eta k⟩).d
          + (linEnergies p k ⟨s.ux k, s.uy k, s.eta k⟩).a) i := fun i => by
      simp only [e, mswSpectra]
      rw [← sp_add h, ← sp_add h]
    rw [hE]
    simp only [this]
    rw [sp_total h fun k => (linEnergies p k ⟨s.ux k, s.uy k, s.eta k⟩).g
      + (linEnergies p k ⟨s.ux k, s.uy k, s.eta k⟩).d + (linEnergies p k ⟨s.ux k, s.uy k, s.eta k⟩).a]
    refine key _ ?_ fun k hk => (C65_sw1l_linear hp hk _).2.2
    rw [(linEnergies_zero _).1, (linEnergies_zero _).2.1, (linEnergies_zero _).2.2]; ring
  · have : ∀ i, (normalModeSpectra sp p s).1 i + (normalModeSpectra sp p s).2 i = sp (fun k =>
        (qapamEnergies p k ⟨s.ux k, s.uy k, s.eta k⟩).1 + ((qapamEnergies p k ⟨s.ux k, s.uy k, s.eta k⟩).2.1
          + (qapamEnergies p k ⟨s.ux k, s.uy k, s.eta k⟩).2.2)) i := fun i => by
      simp only [normalModeSpectra]
      rw [← sp_add h]
    rw [hE]
    simp only [this]
    rw [sp_total h fun k => (qapamEnergies p k ⟨s.ux k, s.uy k, s.eta k⟩).1
      + ((qapamEnergies p k ⟨s.ux k, s.uy k, s.eta k⟩).2.1 + (qapamEnergies p k ⟨s.ux k, s.uy k, s.eta k⟩).2.2)]
    refine key _ (by rw [hq0]; simp) fun k hk => ?_
    obtain ⟨l1, ⟨ug, ud, ua, hl⟩, -⟩ := C65_sw1l_linear hp hk ⟨s.ux k, s.uy k, s.eta k⟩
    rw [← (C65_normal_modes_partial hp hk _ ug ud ua hl).2.2.1]; ring

/-- A spectrum with one bin meets the contract; a flow with a mean velocity. -/
example : IsSpectrum (dk := 1) (fun _ => 1) (fun (f : ({0, ![1, 0], ![-1, 0]} : Finset (Fin 2 → ℤ)) → ℝ) (_ : Unit) =>
    ∑ k, f k) := by
  refine ⟨⟨fun _ _ => 1, fun _ _ => zero_le_one, fun _ => by simp, fun f b => by simp⟩⟩

end sw

end

end Verif.Spectra2d
