import Verif.Energy.Props2d

/-!
# C41: energy of the plate solver
-/

namespace Verif.Energy

open Verif.Fourier Verif.Vectors Finset

noncomputable section

/-- `k⁴`. -/
def k4 (δ : Fin 2 → ℝ) (k : Fin 2 → ℤ) : ℝ := ((δ 0 * k 0) ^ 2 + (δ 1 * k 1) ^ 2) ^ 2

/-- The rate of change of the energy computed by `test_tendencies_nonlin`
(fluidsim/solvers/plate2d/solver.py 214-284). `C41_rate_of_energy` shows that it is the rate of change
of the documented energy. -/
def plateRate (n : Fin 2 → ℕ) (δ : Fin 2 → ℝ) (S G : Finset (Fin 2 → ℤ)) (w z : Fld (Fin 2)) : ℝ :=
  let T := plate2d n δ S G w z
  ∑ k ∈ S, (T.1 k * (starRingEnd ℂ) (w k)).re
    + ∑ k ∈ S, k4 δ k * (T.2 k * (starRingEnd ℂ) (z k)).re
    + ∑ k ∈ G, -(fftCoef n (mongeAmpere n δ S S T.2 z) k
        * (starRingEnd ℂ) (chiFft n δ S z k)).re

/-- Vector product of two wavevectors. -/
def cr (δ : Fin 2 → ℝ) (p q : Fin 2 → ℤ) : ℝ := δ 0 * p 0 * (δ 1 * q 1) - δ 1 * p 1 * (δ 0 * q 0)

theorem gmean_ma (n : Fin 2 → ℕ) (hn : ∀ d, 0 < n d) (δ : Fin 2 → ℝ)
    (S1 S2 S3 : Finset (Fin 2 → ℤ)) (a b c : Fld (Fin 2)) :
    gmean n (fun j => mongeAmpere n δ S1 S2 a b j * gridVal n S3 c j)
      = ∑ p ∈ S1, ∑ q ∈ S2, ∑ m ∈ S3,
          if ∀ d, (n d : ℤ) ∣ p d + q d + m d then a p * b q * c m * (cr δ p q : ℂ) ^ 2 else 0 := by
  set pxx : Fld (Fin 2) → Fld (Fin 2) := fun c k => -c k * ((δ 0 * k 0 : ℝ) : ℂ) ^ 2 with hxx
  set pyy : Fld (Fin 2) → Fld (Fin 2) := fun c k => -c k * ((δ 1 * k 1 : ℝ) : ℂ) ^ 2 with hyy
  set pxy : Fld (Fin 2) → Fld (Fin 2) :=
    fun c k => -c k * (((δ 0 * k 0 : ℝ) : ℂ) * ((δ 1 * k 1 : ℝ) : ℂ)) with hxy
  have e : gmean n (fun j => mongeAmpere n δ S1 S2 a b j * gridVal n S3 c j)
      = gmean n (fun j => gridVal n S1 (pxx a) j * gridVal n S2 (pyy b) j * gridVal n S3 c j)
      + gmean n (fun j => gridVal n S1 (pyy a) j * gridVal n S2 (pxx b) j * gridVal n S3 c j)
      - 2 * gmean n (fun j => gridVal n S1 (pxy a) j * gridVal n S2 (pxy b) j * gridVal n S3 c j) := by
    rw [← gmean_mul, ← gmean_add, ← gmean_sub]
    refine gmean_congr n fun j => ?_
    simp only [mongeAmpere]
    ring
  rw [e, gmean_tri n hn, gmean_tri n hn, gmean_tri n hn, mul_sum, ← sum_add_distrib,
    ← sum_sub_distrib]
  refine sum_congr rfl fun p _ => ?_
  rw [mul_sum, ← sum_add_distrib, ← sum_sub_distrib]
  refine sum_congr rfl fun q _ => ?_
  rw [mul_sum, ← sum_add_distrib, ← sum_sub_distrib]
  refine sum_congr rfl fun m _ => ?_
  split
  · simp only [hxx, hyy, hxy, cr]; push_cast; ring
  · ring

theorem fft_ma (n : Fin 2 → ℕ) (hn : ∀ d, 0 < n d) (δ : Fin 2 → ℝ)
    (S1 S2 : Finset (Fin 2 → ℤ)) (a b : Fld (Fin 2)) (k : Fin 2 → ℤ) :
    fftCoef n (mongeAmpere n δ S1 S2 a b) k
      = ∑ p ∈ S1, ∑ q ∈ S2,
          if ∀ d, (n d : ℤ) ∣ p d + q d + -k d then a p * b q * (cr δ p q : ℂ) ^ 2 else 0 := by
  have e : fftCoef n (mongeAmpere n δ S1 S2 a b) k
      = gmean n (fun j => mongeAmpere n δ S1 S2 a b j * gridVal n {-k} (fun _ => 1) j) := by
    simp [fftCoef, gmean, gridVal]
  rw [e, gmean_ma n hn]
  simp

theorem ma_real {n : Fin 2 → ℕ} {δ : Fin 2 → ℝ} {S1 S2 : Finset (Fin 2 → ℤ)} {a b : Fld (Fin 2)}
    (ha : RealOn S1 a) (hb : RealOn S2 b) (j : Pt n) :
    (starRingEnd ℂ) (mongeAmpere n δ S1 S2 a b j) = mongeAmpere n δ S1 S2 a b j := by
  have key : ∀ {S : Finset (Fin 2 → ℤ)} {c : Fld (Fin 2)} (_ : RealOn S c) (s : (Fin 2 → ℤ) → ℂ)
      (_ : ∀ k, s (-k) = (starRingEnd ℂ) (s k)),
      (starRingEnd ℂ) (gridVal n S (fun k => -c k * s k) j) = gridVal n S (fun k => -c k * s k) j := by
    intro S c hc s hs
    refine real_grid (fun k hk => ⟨(hc k hk).1, ?_⟩) j
    rw [hs, (hc k hk).2]; simp
  have hx : ∀ k : Fin 2 → ℤ, ((δ 0 * ((-k) 0 : ℤ) : ℝ) : ℂ) ^ 2
      = (starRingEnd ℂ) (((δ 0 * (k 0 : ℤ) : ℝ) : ℂ) ^ 2) := by
    intro k; rw [map_pow, Complex.conj_ofReal]; simp
  have hy : ∀ k : Fin 2 → ℤ, ((δ 1 * ((-k) 1 : ℤ) : ℝ) : ℂ) ^ 2
      = (starRingEnd ℂ) (((δ 1 * (k 1 : ℤ) : ℝ) : ℂ) ^ 2) := by
    intro k; rw [map_pow, Complex.conj_ofReal]; simp
  have hxy : ∀ k : Fin 2 → ℤ,
      ((δ 0 * ((-k) 0 : ℤ) : ℝ) : ℂ) * ((δ 1 * ((-k) 1 : ℤ) : ℝ) : ℂ)
      = (starRingEnd ℂ) (((δ 0 * (k 0 : ℤ) : ℝ) : ℂ) * ((δ 1 * (k 1 : ℤ) : ℝ) : ℂ)) := by
    intro k; rw [map_mul, Complex.conj_ofReal, Complex.conj_ofReal]; simp
  simp only [mongeAmpere, map_sub, map_add, map_mul, Complex.conj_ofNat]
  have ax := key ha (fun k => ((δ 0 * (k 0 : ℤ) : ℝ) : ℂ) ^ 2) hx
  have ay := key ha (fun k => ((δ 1 * (k 1 : ℤ) : ℝ) : ℂ) ^ 2) hy
  have axy := key ha (fun k => ((δ 0 * (k 0 : ℤ) : ℝ) : ℂ) * ((δ 1 * (k 1 : ℤ) : ℝ) : ℂ)) hxy
  have bx := key hb (fun k => ((δ 0 * (k 0 : ℤ) : ℝ) : ℂ) ^ 2) hx
  have bY := key hb (fun k => ((δ 1 * (k 1 : ℤ) : ℝ) : ℂ) ^ 2) hy
  have bxy := key hb (fun k => ((δ 0 * (k 0 : ℤ) : ℝ) : ℂ) * ((δ 1 * (k 1 : ℤ) : ℝ) : ℂ)) hxy
  simp only [ax, ay, axy, bx, bY, bxy]

theorem fft_real {D : Type*} [Fintype D] [DecidableEq D] (n : D → ℕ) {x : Pt n → ℂ}
    (hx : ∀ j, (starRingEnd ℂ) (x j) = x j) (k : D → ℤ) :
    fftCoef n x (-k) = (starRingEnd ℂ) (fftCoef n x k) := by
  simp only [fftCoef, map_div₀, map_sum, map_mul, hx, conj_chi, map_prod, Complex.conj_natCast]

theorem chi_real {n : Fin 2 → ℕ} {δ : Fin 2 → ℝ} {S G : Finset (Fin 2 → ℤ)} {z : Fld (Fin 2)}
    (hz : RealOn S z) (hG : ∀ k ∈ G, -k ∈ G) : RealOn G (chiFft n δ S z) := by
  intro k hk
  refine ⟨hG k hk, ?_⟩
  simp only [chiFft, neg_eq_zero]
  split
  · simp
  · rw [fft_real n (ma_real hz hz), map_neg, map_div₀, Complex.conj_ofReal]
    simp

/-- The rate of change of the energy is a sum over the triads seen on the grid. -/
theorem plateRate_eq {n : Fin 2 → ℕ} (hn : ∀ d, 0 < n d) (δ : Fin 2 → ℝ) {S G : Finset (Fin 2 → ℤ)}
    (hG : ∀ k ∈ G, -k ∈ G) {w z : Fld (Fin 2)} (hw : RealOn S w) (hz : RealOn S z) :
    plateRate n δ S G w z
      = (∑ p ∈ S, ∑ q ∈ S, ∑ m ∈ G, if ∀ d, (n d : ℤ) ∣ p d + q d + m d then
          w p * z q * chiFft n δ S z m * ((cr δ q m : ℂ) ^ 2 - (cr δ p q : ℂ) ^ 2) else 0).re := by
  have hT1 : ∀ k ∈ S, (plate2d n δ S G w z).1 k
      = -(k4 δ k : ℂ) * z k + fftCoef n (mongeAmpere n δ S G z (chiFft n δ S z)) k := by
    intro k hk
    simp only [plate2d, if_pos hk, k4]
  have hT2 : ∀ k ∈ S, (plate2d n δ S G w z).2 k = w k := by
    intro k hk
    simp only [plate2d, if_pos hk]
  have hma : ∀ j, mongeAmpere n δ S S (plate2d n δ S G w z).2 z j = mongeAmpere n δ S S w z j := by
    intro j
    have : ∀ s : (Fin 2 → ℤ) → ℂ, gridVal n S (fun k => -(plate2d n δ S G w z).2 k * s k) j
        = gridVal n S (fun k => -w k * s k) j := by
      intro s
      refine sum_congr rfl fun k hk => ?_
      simp only [hT2 k hk]
    simp only [mongeAmpere, this]
  have e1 : ∑ k ∈ S, ((plate2d n δ S G w z).1 k * (starRingEnd ℂ) (w k)).re
      = ∑ k ∈ S, (-(k4 δ k * (z k * (starRingEnd ℂ) (w k)).re))
        + (gmean n (fun j => mongeAmpere n δ S G z (chiFft n δ S z) j * gridVal n S w j)).re := by
    rw [← parseval_real n _ hw, Complex.re_sum, ← sum_add_distrib]
    refine sum_congr rfl fun k hk => ?_
    rw [hT1 k hk, add_mul, Complex.add_re, neg_mul, neg_mul, mul_assoc, Complex.neg_re,
      Complex.re_ofReal_mul]
  have e2 : ∑ k ∈ S, k4 δ k * ((plate2d n δ S G w z).2 k * (starRingEnd ℂ) (z k)).re
      = ∑ k ∈ S, k4 δ k * (z k * (starRingEnd ℂ) (w k)).re := by
    refine sum_congr rfl fun k hk => ?_
    rw [hT2 k hk]
    congr 1
    simp only [Complex.mul_re, Complex.conj_re, Complex.conj_im]; ring
  have e3 : ∑ k ∈ G, -(fftCoef n (mongeAmpere n δ S S (plate2d n δ S G w z).2 z) k
        * (starRingEnd ℂ) (chiFft n δ S z k)).re
      = -(gmean n (fun j => mongeAmpere n δ S S w z j * gridVal n G (chiFft n δ S z) j)).re := by
    rw [← parseval_real n _ (chi_real hz hG), Complex.re_sum, sum_neg_distrib, funext hma]
  simp only [plateRate]
  rw [e1, e2, e3, sum_neg_distrib, gmean_ma n hn, gmean_ma n hn]
  have e4 : ∑ p ∈ S, ∑ q ∈ G, ∑ m ∈ S, (if ∀ d, (n d : ℤ) ∣ p d + q d + m d then
        z p * chiFft n δ S z q * w m * (cr δ p q : ℂ) ^ 2 else 0)
      = ∑ p ∈ S, ∑ q ∈ S, ∑ m ∈ G, (if ∀ d, (n d : ℤ) ∣ p d + q d + m d then
        w p * z q * chiFft n δ S z m * (cr δ q m : ℂ) ^ 2 else 0) := by
    have : ∀ p ∈ S, ∑ q ∈ G, ∑ m ∈ S, (if ∀ d, (n d : ℤ) ∣ p d + q d + m d then
        z p * chiFft n δ S z q * w m * (cr δ p q : ℂ) ^ 2 else 0)
        = ∑ m ∈ S, ∑ q ∈ G, (if ∀ d, (n d : ℤ) ∣ m d + p d + q d then
        w m * z p * chiFft n δ S z q * (cr δ p q : ℂ) ^ 2 else 0) := by
      intro p _
      rw [sum_comm]
      refine sum_congr rfl fun m _ => sum_congr rfl fun q _ => ?_
      have h : (∀ d, (n d : ℤ) ∣ p d + q d + m d) ↔ ∀ d, (n d : ℤ) ∣ m d + p d + q d := by
        refine forall_congr' fun d => ?_
        rw [show p d + q d + m d = m d + p d + q d by ring]
      simp only [h]
      split
      · ring
      · rfl
    rw [sum_congr rfl this, sum_comm]
  rw [e4]
  have e5 : ∑ p ∈ S, ∑ q ∈ S, ∑ m ∈ G, (if ∀ d, (n d : ℤ) ∣ p d + q d + m d then
          w p * z q * chiFft n δ S z m * ((cr δ q m : ℂ) ^ 2 - (cr δ p q : ℂ) ^ 2) else 0)
      = ∑ p ∈ S, ∑ q ∈ S, ∑ m ∈ G, (if ∀ d, (n d : ℤ) ∣ p d + q d + m d then
          w p * z q * chiFft n δ S z m * (cr δ q m : ℂ) ^ 2 else 0)
        - ∑ p ∈ S, ∑ q ∈ S, ∑ m ∈ G, (if ∀ d, (n d : ℤ) ∣ p d + q d + m d then
          w p * z q * chiFft n δ S z m * (cr δ p q : ℂ) ^ 2 else 0) := by
    rw [← sum_sub_distrib]
    refine sum_congr rfl fun p _ => ?_
    rw [← sum_sub_distrib]
    refine sum_congr rfl fun q _ => ?_
    rw [← sum_sub_distrib]
    refine sum_congr rfl fun m _ => ?_
    split
    · ring
    · ring
  rw [e5, Complex.sub_re]
  ring

/-- C41, for a truncation such that triads of two kept modes and any mode of the arrays are not
aliased. With the usual 2/3 truncation this is not the case, and the energy is not conserved
(`C41_two_thirds_violated`), because the modes of `chi` that are not kept are used. -/
theorem C41_energy_partial {n : Fin 2 → ℕ} (hn : ∀ d, 0 < n d) (δ : Fin 2 → ℝ)
    {S G : Finset (Fin 2 → ℤ)} (hG : ∀ k ∈ G, -k ∈ G)
    (hSG : ∀ p ∈ S, ∀ q ∈ S, ∀ m ∈ G, (∀ d, (n d : ℤ) ∣ p d + q d + m d) → ∀ d, p d + q d + m d = 0)
    {w z : Fld (Fin 2)} (hw : RealOn S w) (hz : RealOn S z) :
    plateRate n δ S G w z = 0 := by
  rw [plateRate_eq hn δ hG hw hz]
  rw [sum_eq_zero, Complex.zero_re]
  refine fun p hp => sum_eq_zero fun q hq => sum_eq_zero fun m hm => ?_
  split
  · rename_i h
    have h0 := hSG p hp q hq m hm h
    have h1 : (m 0 : ℂ) = -(p 0) - q 0 := by
      have := h0 0
      have : ((p 0 + q 0 + m 0 : ℤ) : ℂ) = 0 := by rw [this]; simp
      push_cast at this; linear_combination this
    have h2 : (m 1 : ℂ) = -(p 1) - q 1 := by
      have := h0 1
      have : ((p 1 + q 1 + m 1 : ℤ) : ℂ) = 0 := by rw [this]; simp
      push_cast at this; linear_combination this
    simp only [cr]
    push_cast
    rw [h1, h2]
    ring
  · rfl

/-- C41 with `coef_dealiasing <= 1/2`: the energy is conserved (`G`: modes without the Nyquist ones,
for which `chi` is zero here). -/
theorem C41_half_truncation {n : Fin 2 → ℕ} (hn : ∀ d, 0 < n d) {δ : Fin 2 → ℝ}
    {S G : Finset (Fin 2 → ℤ)} (hG : ∀ k ∈ G, -k ∈ G)
    (hS4 : ∀ k ∈ S, ∀ d, 4 * |k d| < n d) (hG2 : ∀ k ∈ G, ∀ d, 2 * |k d| ≤ n d)
    {w z : Fld (Fin 2)} (hw : RealOn S w) (hz : RealOn S z) : plateRate n δ S G w z = 0 := by
  refine C41_energy_partial hn δ hG ?_ hw hz
  intro p hp q hq m hm h d
  refine dvd_small (h d) ?_
  have h1 := hS4 p hp d; have h2 := hS4 q hq d; have h3 := hG2 m hm d
  have a1 := abs_add_le (p d + q d) (m d)
  have a2 := abs_add_le (p d) (q d)
  omega

/-! ### the rate is the rate of change of the documented energy -/

theorem grid_hasDeriv {n : Fin 2 → ℕ} {S : Finset (Fin 2 → ℤ)} {u : ℝ → Fld (Fin 2)}
    {u' : Fld (Fin 2)} {t : ℝ} (h : ∀ k ∈ S, HasDerivAt (fun t => u t k) (u' k) t)
    (s : (Fin 2 → ℤ) → ℂ) (j : Pt n) :
    HasDerivAt (fun t => gridVal n S (fun k => -u t k * s k) j)
      (gridVal n S (fun k => -u' k * s k) j) t := by
  simp only [gridVal]
  exact HasDerivAt.fun_sum fun k hk => (((h k hk).fun_neg).mul_const _).mul_const _

theorem ma_hasDeriv {n : Fin 2 → ℕ} {δ : Fin 2 → ℝ} {S : Finset (Fin 2 → ℤ)} {u : ℝ → Fld (Fin 2)}
    {u' : Fld (Fin 2)} {t : ℝ} (h : ∀ k ∈ S, HasDerivAt (fun t => u t k) (u' k) t) (j : Pt n) :
    HasDerivAt (fun t => mongeAmpere n δ S S (u t) (u t) j)
      (2 * mongeAmpere n δ S S u' (u t) j) t := by
  have g := fun s => grid_hasDeriv (n := n) h s j
  have h1 := ((g fun k => ((δ 0 * k 0 : ℝ) : ℂ) ^ 2).fun_mul (g fun k => ((δ 1 * k 1 : ℝ) : ℂ) ^ 2))
  have h2 := ((g fun k => ((δ 1 * k 1 : ℝ) : ℂ) ^ 2).fun_mul (g fun k => ((δ 0 * k 0 : ℝ) : ℂ) ^ 2))
  have h3 := (((g fun k => ((δ 0 * k 0 : ℝ) : ℂ) * ((δ 1 * k 1 : ℝ) : ℂ)).const_mul 2).fun_mul
    (g fun k => ((δ 0 * k 0 : ℝ) : ℂ) * ((δ 1 * k 1 : ℝ) : ℂ)))
  refine ((h1.fun_add h2).fun_sub h3).congr_deriv ?_
  simp only [mongeAmpere]
  ring

theorem sq_hasDeriv {g : ℝ → ℂ} {g' : ℂ} {s : ℝ} (hg : HasDerivAt g g' s) :
    HasDerivAt (fun s => ‖g s‖ ^ 2) (2 * (g' * (starRingEnd ℂ) (g s)).re) s := by
  have h1 : HasDerivAt (fun s => g s * (starRingEnd ℂ) (g s))
      (g' * (starRingEnd ℂ) (g s) + g s * (starRingEnd ℂ) g') s := hg.mul hg.star
  have h2 : HasDerivAt (fun s => (g s * (starRingEnd ℂ) (g s)).re)
      (g' * (starRingEnd ℂ) (g s) + g s * (starRingEnd ℂ) g').re s :=
    (Complex.reCLM.hasFDerivAt.comp_hasDerivAt s h1)
  have h3 : (fun s => ‖g s‖ ^ 2) = fun s => (g s * (starRingEnd ℂ) (g s)).re := by
    funext s
    rw [Complex.mul_conj, Complex.ofReal_re, Complex.normSq_eq_norm_sq]
  rw [h3]
  refine h2.congr_deriv ?_
  simp only [Complex.add_re, Complex.mul_re, Complex.conj_re, Complex.conj_im]
  ring

/-- C41: along solutions of the equations without dissipation the rate of change of the documented
energy is `plateRate`. -/
theorem C41_rate_of_energy (n : Fin 2 → ℕ) {δ : Fin 2 → ℝ} (hδ : ∀ d, δ d ≠ 0)
    (S G : Finset (Fin 2 → ℤ)) (w z : ℝ → Fld (Fin 2)) (t : ℝ)
    (hw : ∀ k ∈ S, HasDerivAt (fun t => w t k) ((plate2d n δ S G (w t) (z t)).1 k) t)
    (hz : ∀ k ∈ S, HasDerivAt (fun t => z t k) ((plate2d n δ S G (w t) (z t)).2 k) t) :
    HasDerivAt (fun t => plateEnergy δ S G (w t) (z t) (chiFft n δ S (z t)))
      (plateRate n δ S G (w t) (z t)) t := by
  have h1 : HasDerivAt (fun t => 1 / 2 * ∑ k ∈ S, ‖w t k‖ ^ 2)
      (∑ k ∈ S, ((plate2d n δ S G (w t) (z t)).1 k * (starRingEnd ℂ) (w t k)).re) t := by
    refine ((HasDerivAt.fun_sum fun k hk => sq_hasDeriv (hw k hk)).const_mul (1 / 2)).congr_deriv ?_
    rw [← mul_sum]; ring
  have h2 : HasDerivAt (fun t => 1 / 2 * ∑ k ∈ S, ((δ 0 * k 0) ^ 2 + (δ 1 * k 1) ^ 2) ^ 2 * ‖z t k‖ ^ 2)
      (∑ k ∈ S, k4 δ k * ((plate2d n δ S G (w t) (z t)).2 k * (starRingEnd ℂ) (z t k)).re) t := by
    refine ((HasDerivAt.fun_sum fun k hk => (sq_hasDeriv (hz k hk)).const_mul
      (((δ 0 * k 0) ^ 2 + (δ 1 * k 1) ^ 2) ^ 2)).const_mul (1 / 2)).congr_deriv ?_
    rw [mul_sum]
    refine sum_congr rfl fun k _ => ?_
    simp only [k4]; ring
  have hchi : ∀ k, k ≠ 0 → HasDerivAt (fun t => chiFft n δ S (z t) k)
      (-(2 * fftCoef n (mongeAmpere n δ S S (plate2d n δ S G (w t) (z t)).2 (z t)) k
        / (k4 δ k : ℂ))) t := by
    intro k hk
    simp only [chiFft, if_neg hk, fftCoef]
    have := (HasDerivAt.fun_sum (u := univ) fun j _ =>
      (ma_hasDeriv (n := n) (δ := δ) hz j).mul_const (chi n (-k) j)).div_const (∏ d, (n d : ℂ))
    refine (((this.div_const _).fun_neg)).congr_deriv ?_
    simp only [k4, mul_assoc, ← mul_sum]
    ring
  have h3 : HasDerivAt (fun t => 1 / 4 * ∑ k ∈ G, ((δ 0 * k 0) ^ 2 + (δ 1 * k 1) ^ 2) ^ 2
        * ‖chiFft n δ S (z t) k‖ ^ 2)
      (∑ k ∈ G, -(fftCoef n (mongeAmpere n δ S S (plate2d n δ S G (w t) (z t)).2 (z t)) k
        * (starRingEnd ℂ) (chiFft n δ S (z t) k)).re) t := by
    have : ∀ k ∈ G, HasDerivAt (fun t => ((δ 0 * k 0) ^ 2 + (δ 1 * k 1) ^ 2) ^ 2
        * ‖chiFft n δ S (z t) k‖ ^ 2)
        (4 * -(fftCoef n (mongeAmpere n δ S S (plate2d n δ S G (w t) (z t)).2 (z t)) k
        * (starRingEnd ℂ) (chiFft n δ S (z t) k)).re) t := by
      intro k _
      by_cases hk : k = 0
      · have : ∀ t, chiFft n δ S (z t) k = 0 := fun t => by simp [chiFft, hk]
        simp only [this]
        simpa using hasDerivAt_const t (0 : ℝ)
      · have hk4 : k4 δ k ≠ 0 := by
          intro h
          apply hk
          have h' : (δ 0 * (k 0 : ℝ)) ^ 2 + (δ 1 * (k 1 : ℝ)) ^ 2 = 0 := by
            simpa [k4] using h
          have h0 : δ 0 * k 0 = 0 := by
            nlinarith [sq_nonneg (δ 0 * (k 0 : ℝ)), sq_nonneg (δ 1 * (k 1 : ℝ))]
          have h1 : δ 1 * k 1 = 0 := by
            nlinarith [sq_nonneg (δ 0 * (k 0 : ℝ)), sq_nonneg (δ 1 * (k 1 : ℝ))]
          have h0' : k 0 = 0 := by exact_mod_cast (mul_eq_zero.1 h0).resolve_left (hδ 0)
          have h1' : k 1 = 0 := by exact_mod_cast (mul_eq_zero.1 h1).resolve_left (hδ 1)
          funext d
          fin_cases d
          · exact h0'
          · exact h1'
        refine ((sq_hasDeriv (hchi k hk)).const_mul _).congr_deriv ?_
        set F := fftCoef n (mongeAmpere n δ S S (plate2d n δ S G (w t) (z t)).2 (z t)) k
        set c := (starRingEnd ℂ) (chiFft n δ S (z t) k)
        have : -(2 * F / (k4 δ k : ℂ)) * c = ((-2 / k4 δ k : ℝ) : ℂ) * (F * c) := by
          push_cast; ring
        rw [this, Complex.re_ofReal_mul]
        change k4 δ k * _ = _
        field_simp
        ring
    refine ((HasDerivAt.fun_sum fun k hk => this k hk).const_mul (1 / 4)).congr_deriv ?_
    rw [← mul_sum]; ring
  exact (h1.fun_add h2).fun_add h3

/-! ### the 2/3 truncation -/

def box (b : ℤ) : Finset (Fin 2 → ℤ) :=
  (Finset.Icc (-b) b ×ˢ Finset.Icc (-b) b).image fun x => ![x.1, x.2]

/-- The modes kept by the 2/3 truncation on a 10 x 10 grid, with `L = 2π`. -/
def exS10 : Finset (Fin 2 → ℤ) := (box 3).filter fun k => 9 * (k 0 ^ 2 + k 1 ^ 2) < 100

/-- All the modes of the grid except the Nyquist ones. -/
def exG10 : Finset (Fin 2 → ℤ) := box 4

def exZsupp : Finset (Fin 2 → ℤ) := {![3, 1], ![-3, -1], ![-1, 1], ![1, -1]}

def exWsupp : Finset (Fin 2 → ℤ) := {![3, -1], ![-3, 1]}

def exZ10 : Fld (Fin 2) := fun k => if k ∈ exZsupp then 1 else 0

def exW10 : Fld (Fin 2) := fun k => if k ∈ exWsupp then 1 else 0

theorem exS10_kept (k : Fin 2 → ℤ) :
    k ∈ exS10 ↔ keptSpherical (fun _ => 1) (fun _ => 10) 0 (2 / 3) k := by
  have hkey : keptSpherical (fun _ => 1) (fun _ => 10) 0 (2 / 3) k
      ↔ 9 * (k 0 ^ 2 + k 1 ^ 2) < 100 := by
    simp only [keptSpherical, not_le, ge_iff_le, Fin.sum_univ_two]
    constructor
    · intro h
      have : (9 * ((k 0 : ℝ) ^ 2 + (k 1 : ℝ) ^ 2)) < 100 := by
        push_cast at h; norm_num at h; linarith
      exact_mod_cast this
    · intro h
      have : (9 * ((k 0 : ℝ) ^ 2 + (k 1 : ℝ) ^ 2)) < 100 := by exact_mod_cast h
      push_cast; norm_num; linarith
  rw [hkey]
  simp only [exS10, mem_filter, and_iff_right_iff_imp]
  intro h
  simp only [box, mem_image, mem_product, mem_Icc]
  refine ⟨(k 0, k 1), ?_, ?_⟩
  · simp only []
    refine ⟨⟨?_, ?_⟩, ?_, ?_⟩ <;> nlinarith [sq_nonneg (k 0), sq_nonneg (k 1)]
  · funext d; fin_cases d <;> rfl

def icr (p q : Fin 2 → ℤ) : ℤ := p 0 * q 1 - p 1 * q 0

theorem cr_one (p q : Fin 2 → ℤ) : (cr (fun _ => 1) p q : ℂ) = (icr p q : ℂ) := by
  simp only [cr, icr]; push_cast; ring

/-- Integer coefficients of `{z, z}`. -/
def exMA (k : Fin 2 → ℤ) : ℤ :=
  ∑ p ∈ exZsupp, ∑ q ∈ exZsupp, if ∀ d, (10 : ℤ) ∣ p d + q d + -k d then icr p q ^ 2 else 0

theorem ex_fft (k : Fin 2 → ℤ) :
    fftCoef (fun _ => 10) (mongeAmpere (fun _ => 10) (fun _ => 1) exS10 exS10 exZ10 exZ10) k
      = (exMA k : ℂ) := by
  rw [fft_ma _ (fun _ => by norm_num)]
  have hsub : exZsupp ⊆ exS10 := by decide +kernel
  have hz : ∀ p, p ∉ exZsupp → exZ10 p = 0 := fun p hp => if_neg hp
  rw [← sum_subset hsub]
  · rw [exMA]; push_cast
    refine sum_congr rfl fun p hp => ?_
    rw [← sum_subset hsub]
    · refine sum_congr rfl fun q hq => ?_
      have h1 : exZ10 p = 1 := if_pos hp
      have h2 : exZ10 q = 1 := if_pos hq
      rw [h1, h2, cr_one]
      simp
    · intro q _ hq
      simp [hz q hq]
  · intro p _ hp
    exact sum_eq_zero fun q _ => by simp [hz p hp]

/-- C41 (finding): with the 2/3 truncation the tendencies do not conserve the energy, because
`chi_fft` is used without having been truncated: for this state (10 x 10 grid, `L = 2π`,
`coef_dealiasing = 2/3`) the rate of change is 5. -/
theorem C41_two_thirds_violated :
    RealOn exS10 exW10 ∧ RealOn exS10 exZ10 ∧ (∀ k ∈ exG10, -k ∈ exG10) ∧
      plateRate (fun _ => 10) (fun _ => 1) exS10 exG10 exW10 exZ10 = 5 := by
  have hneg : ∀ k ∈ exS10, -k ∈ exS10 := by decide +kernel
  have hG : ∀ k ∈ exG10, -k ∈ exG10 := by decide +kernel
  have hzs : ∀ k ∈ exS10, (-k ∈ exZsupp ↔ k ∈ exZsupp) := by decide +kernel
  have hws : ∀ k ∈ exS10, (-k ∈ exWsupp ↔ k ∈ exWsupp) := by decide +kernel
  have hw : RealOn exS10 exW10 := fun k hk => ⟨hneg k hk, by
    simp only [exW10, hws k hk]; split <;> simp⟩
  have hz : RealOn exS10 exZ10 := fun k hk => ⟨hneg k hk, by
    simp only [exZ10, hzs k hk]; split <;> simp⟩
  refine ⟨hw, hz, hG, ?_⟩
  rw [plateRate_eq (fun _ => by norm_num) _ hG hw hz]
  have hZsub : exZsupp ⊆ exS10 := by decide +kernel
  have hWsub : exWsupp ⊆ exS10 := by decide +kernel
  have hz0 : ∀ p, p ∉ exZsupp → exZ10 p = 0 := fun p hp => if_neg hp
  have hw0 : ∀ p, p ∉ exWsupp → exW10 p = 0 := fun p hp => if_neg hp
  -- the coefficients of chi as rational numbers
  let c : (Fin 2 → ℤ) → ℚ := fun k =>
    if k = 0 then 0 else -((exMA k : ℚ) / ((k 0 : ℚ) ^ 2 + (k 1 : ℚ) ^ 2) ^ 2)
  have hc : ∀ k, chiFft (fun _ => 10) (fun _ => 1) exS10 exZ10 k = ((c k : ℚ) : ℂ) := by
    intro k
    simp only [chiFft, c]
    split
    · simp
    · rw [ex_fft]; push_cast; ring
  have hsum : ∑ p ∈ exWsupp, ∑ q ∈ exZsupp, ∑ m ∈ exG10,
      (if ∀ d : Fin 2, (10 : ℤ) ∣ p d + q d + m d then
        c m * ((icr q m : ℚ) ^ 2 - (icr p q : ℚ) ^ 2) else 0) = 5 := by
    decide +kernel
  have htotal : ∑ p ∈ exS10, ∑ q ∈ exS10, ∑ m ∈ exG10,
      (if ∀ d : Fin 2, (((fun _ => 10 : Fin 2 → ℕ) d : ℕ) : ℤ) ∣ p d + q d + m d then
        exW10 p * exZ10 q * chiFft (fun _ => 10) (fun _ => 1) exS10 exZ10 m
          * ((cr (fun _ => 1) q m : ℂ) ^ 2 - (cr (fun _ => 1) p q : ℂ) ^ 2) else 0) = 5 := by
    rw [← sum_subset hWsub]
    · have : ((5 : ℚ) : ℂ) = 5 := by norm_num
      rw [← this, ← hsum]
      push_cast
      refine sum_congr rfl fun p hp => ?_
      rw [← sum_subset hZsub]
      · refine sum_congr rfl fun q hq => sum_congr rfl fun m _ => ?_
        have h1 : exW10 p = 1 := if_pos hp
        have h2 : exZ10 q = 1 := if_pos hq
        rw [h1, h2, hc, cr_one, cr_one]
        by_cases h : ∀ d : Fin 2, (10 : ℤ) ∣ p d + q d + m d
        · rw [if_pos h, if_pos (fun d => h d)]; push_cast; ring
        · rw [if_neg h, if_neg (fun h' => h fun d => h' d)]; simp
      · intro q _ hq
        exact sum_eq_zero fun m _ => by simp [hz0 q hq]
    · intro p _ hp
      exact sum_eq_zero fun q _ => sum_eq_zero fun m _ => by simp [hw0 p hp]
  rw [htotal]
  norm_num

theorem mem_box {b : ℤ} {k : Fin 2 → ℤ} : k ∈ box b ↔ ∀ d, |k d| ≤ b := by
  simp only [box, mem_image, mem_product, mem_Icc, Fin.forall_fin_two, abs_le]
  constructor
  · rintro ⟨x, hx, rfl⟩; simpa using hx
  · intro h
    refine ⟨(k 0, k 1), h, ?_⟩
    funext d; fin_cases d <;> rfl

/-- The hypotheses of `C41_half_truncation` are met by the same field on a 14 x 14 grid. -/
example : (∀ k ∈ box 7, -k ∈ box 7) ∧ (∀ k ∈ box 3, ∀ d, 4 * |k d| < ((14 : ℕ) : ℤ)) ∧
    (∀ k ∈ box 7, ∀ d, 2 * |k d| ≤ ((14 : ℕ) : ℤ)) ∧ RealOn (box 3) exZ10 := by
  have hneg : ∀ b, ∀ k ∈ box b, -k ∈ box b := fun b k hk => by
    rw [mem_box] at hk ⊢; simpa using hk
  refine ⟨hneg 7, fun k hk d => ?_, fun k hk d => ?_, fun k hk => ⟨hneg 3 k hk, ?_⟩⟩
  · have := mem_box.1 hk d; push_cast; omega
  · have := mem_box.1 hk d; push_cast; omega
  · have h : ∀ k ∈ box 3, (-k ∈ exZsupp ↔ k ∈ exZsupp) := by decide +kernel
    simp only [exZ10, h k hk]; split <;> simp

end

end Verif.Energy
