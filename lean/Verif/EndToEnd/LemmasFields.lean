import Verif.EndToEnd.Lemmas
import Verif.Galerkin.PropsSw1lMod
import Verif.Energy.PropsPlate
import Verif.SpectBudget.Lemmas
import Verif.Energy.Props

/-!
# Lemmas for C87: smoothness and symmetries of the tendencies
-/

set_option linter.unusedSectionVars false

namespace Verif.EndToEnd

open Verif.Fourier Verif.Vectors Verif.Energy Verif.Galerkin Verif.Schemes Verif.Convergence Finset

noncomputable section

/-! ### Smoothness -/

section

variable {D V : Type*} [Fintype D] [DecidableEq D] [DecidableEq (D → ℤ)] [Fintype V]
  {E : Type*} [NormedAddCommGroup E] [NormedSpace ℝ E]

theorem cd_fields (G : Finset (D → ℤ)) (m : ℕ) (v : V) (k : D → ℤ) :
    ContDiff ℝ m fun a : Arr (V × G) => fields G a v k := by
  by_cases hk : k ∈ G
  · simp only [fields, hk, dif_pos]
    exact contDiff_apply ℝ ℂ (v, (⟨k, hk⟩ : G))
  · simp only [fields, hk, dif_neg, not_false_eq_true]
    exact contDiff_const

theorem cd_grid {m : ℕ} {u : E → Fld D} (h : ∀ k, ContDiff ℝ m fun a => u a k) (n : D → ℕ) (S : Finset (D → ℤ)) (j : Pt n) :
    ContDiff ℝ m fun a => gridVal n S (u a) j :=
  ContDiff.sum fun k _ => (h k).mul contDiff_const

theorem cd_fft {m : ℕ} {n : D → ℕ} {x : E → Pt n → ℂ} (h : ∀ j, ContDiff ℝ m fun a => x a j) (k : D → ℤ) :
    ContDiff ℝ m fun a => fftCoef n (x a) k :=
  (ContDiff.sum fun j _ => (h j).mul contDiff_const).div_const _

theorem cd_deriv {m : ℕ} {u : E → Fld D} (h : ∀ k, ContDiff ℝ m fun a => u a k) (δ : D → ℝ) (d : D) (k : D → ℤ) :
    ContDiff ℝ m fun a => deriv δ d (u a) k :=
  contDiff_const.mul (h k)

theorem cd_ux2 {m : ℕ} {u : E → Fld (Fin 2)} (h : ∀ k, ContDiff ℝ m fun a => u a k) (δ : Fin 2 → ℝ) (k : Fin 2 → ℤ) :
    ContDiff ℝ m fun a => ux2 δ (u a) k :=
  contDiff_const.mul (h k)

theorem cd_uy2 {m : ℕ} {u : E → Fld (Fin 2)} (h : ∀ k, ContDiff ℝ m fun a => u a k) (δ : Fin 2 → ℝ) (k : Fin 2 → ℤ) :
    ContDiff ℝ m fun a => uy2 δ (u a) k :=
  contDiff_const.mul (h k)

end

theorem smooth_tend2d (n : Fin 2 → ℕ) (S : Finset (Fin 2 → ℤ)) (δ : Fin 2 → ℝ) (beta : ℝ) (G : Finset (Fin 2 → ℤ)) (m : ℕ)
    (v : Unit) (k : Fin 2 → ℤ) : ContDiff ℝ m fun a : Arr (Unit × G) => tend2d n S δ beta (fields G a) v k := by
  have hf := cd_fields (V := Unit) G m ()
  have h1 := cd_grid (cd_ux2 hf δ) n S
  have h2 := cd_grid (cd_uy2 hf δ) n S
  have h3 := cd_grid (cd_deriv hf δ 0) n S
  have h4 := cd_grid (cd_deriv hf δ 1) n S
  by_cases hk : k ∈ S
  · simp only [tend2d, ns2d, hk, if_true]
    refine cd_fft (fun j => ?_) k
    by_cases hb : beta = 0
    · simp only [computeFrot, hb, if_true]
      exact ((h1 j).neg.mul (h3 j)).sub ((h2 j).mul (h4 j))
    · simp only [computeFrot, hb, if_false]
      exact ((h1 j).neg.mul (h3 j)).sub ((h2 j).mul ((h4 j).add contDiff_const))
  · simp only [tend2d, ns2d, hk, if_false]
    exact contDiff_const

theorem smooth_tendStrat (n : Fin 2 → ℕ) (S : Finset (Fin 2 → ℤ)) (δ : Fin 2 → ℝ) (N : ℝ) (G : Finset (Fin 2 → ℤ)) (m : ℕ)
    (v : Fin 2) (k : Fin 2 → ℤ) : ContDiff ℝ m fun a : Arr (Fin 2 × G) => tendStrat n S δ N (fields G a) v k := by
  have hf := cd_fields (V := Fin 2) G m 0
  have hb := cd_fields (V := Fin 2) G m 1
  have h1 := cd_grid (cd_ux2 hf δ) n S
  have h2 := cd_grid (cd_uy2 hf δ) n S
  have h3 := fun d => cd_grid (cd_deriv hf δ d) n S
  have h4 := fun d => cd_grid (cd_deriv hb δ d) n S
  by_cases hv : v = 0 <;> by_cases hk : k ∈ S
  · simp only [tendStrat, hv, ns2dStrat, hk, if_true]
    exact (cd_fft (fun j => ((h1 j).neg.mul (h3 0 j)).sub ((h2 j).mul (h3 1 j))) k).add (cd_deriv hb δ 0 k)
  · simp only [tendStrat, hv, ns2dStrat, hk, if_true, if_false]
    exact contDiff_const
  · simp only [tendStrat, hv, ns2dStrat, hk, if_true, if_false]
    exact cd_fft (fun j => (((h1 j).neg.mul (h4 0 j)).sub ((h2 j).mul (h4 1 j))).sub (contDiff_const.mul (h2 j))) k
  · simp only [tendStrat, hv, ns2dStrat, hk, if_false]
    exact contDiff_const

/-! ### Real fields -/

section

variable {D V : Type*} [Fintype D] [DecidableEq D] [DecidableEq (D → ℤ)] [Fintype V]

/-- Projection on the real fields with modes in `S`. -/
def realPart (S : Finset (D → ℤ)) : (V → Fld D) →ₗ[ℝ] (V → Fld D) where
  toFun u v k := if k ∈ S then (u v k + (starRingEnd ℂ) (u v (-k))) / 2 else 0
  map_add' a b := by
    funext v k
    by_cases hk : k ∈ S
    · simp only [hk, if_true, Pi.add_apply, map_add]; ring
    · simp [hk]
  map_smul' c a := by
    funext v k
    by_cases hk : k ∈ S
    · simp only [hk, if_true, Pi.smul_apply, RingHom.id_apply, Complex.real_smul, map_mul, Complex.conj_ofReal]; ring
    · simp [hk]

theorem realPart_out (S : Finset (D → ℤ)) (u : V → Fld D) (v : V) (k : D → ℤ) (hk : k ∉ S) : realPart S u v k = 0 := by
  simp [realPart, hk]

/-- The modes kept with each mode its opposite. -/
def Sym (S : Finset (D → ℤ)) : Prop := ∀ k ∈ S, -k ∈ S

theorem realPart_real {S : Finset (D → ℤ)} (hS : Sym S) (u : V → Fld D) (v : V) : RealOn S (realPart S u v) := by
  intro k hk
  refine ⟨hS k hk, ?_⟩
  simp only [realPart, LinearMap.coe_mk, AddHom.coe_mk, hk, hS k hk, if_true, neg_neg, map_div₀, map_add, Complex.conj_conj,
    map_ofNat]
  ring

theorem realPart_iff {S : Finset (D → ℤ)} (hS : Sym S) (u : V → Fld D) :
    realPart S u = u ↔ (∀ v, RealOn S (u v)) ∧ ∀ v k, k ∉ S → u v k = 0 := by
  constructor
  · intro h
    exact ⟨fun v => h ▸ realPart_real hS u v, fun v k hk => by rw [← h]; exact realPart_out S u v k hk⟩
  · rintro ⟨h1, h2⟩
    funext v k
    by_cases hk : k ∈ S
    · simp only [realPart, LinearMap.coe_mk, AddHom.coe_mk, hk, if_true, (h1 v k hk).2, Complex.conj_conj]
      ring
    · simp [realPart, hk, h2 v k hk]

theorem realPart_idem {S : Finset (D → ℤ)} (hS : Sym S) (u : V → Fld D) : realPart S (realPart S u) = realPart S u :=
  (realPart_iff hS _).2 ⟨realPart_real hS u, realPart_out S u⟩

theorem waveSq_neg (δ : D → ℝ) (k : D → ℤ) : waveSq δ (-k) = waveSq δ k := by simp [waveSq]

theorem real_fd {S : Finset (D → ℤ)} {a : Fld D} (h : RealOn S a) (δ : D → ℝ) (nu : Dissip.Nu) :
    RealOn S fun k => (Dissip.fd nu (waveSq δ k) : ℂ) * a k :=
  h.mul (fun k => Dissip.fd nu (waveSq δ k)) fun k => by rw [waveSq_neg]

theorem realPart_fd {S : Finset (D → ℤ)} (hS : Sym S) (δ : D → ℝ) (nu : Dissip.Nu) {u : V → Fld D} (hu : realPart S u = u) :
    realPart S (fun v k => (Dissip.fd nu (waveSq δ k) : ℂ) * u v k) = fun v k => (Dissip.fd nu (waveSq δ k) : ℂ) * u v k := by
  rw [realPart_iff hS] at hu ⊢
  exact ⟨fun v => real_fd (hu.1 v) δ nu, fun v k hk => by rw [hu.2 v k hk, mul_zero]⟩

theorem real_of_fft {S : Finset (D → ℤ)} (hS : Sym S) {n : D → ℕ} {x : Pt n → ℂ} (hx : ∀ j, (starRingEnd ℂ) (x j) = x j) :
    RealOn S fun k => fftCoef n x k := fun k hk => ⟨hS k hk, fft_real n hx k⟩

theorem real_congr {S : Finset (D → ℤ)} {a b : Fld D} (h : RealOn S a) (e : ∀ k ∈ S, b k = a k) : RealOn S b := fun k hk =>
  ⟨(h k hk).1, by rw [e k hk, e _ (h k hk).1, (h k hk).2]⟩

theorem real_add {S : Finset (D → ℤ)} {a b : Fld D} (h : RealOn S a) (h' : RealOn S b) : RealOn S fun k => a k + b k := fun k hk =>
  ⟨(h k hk).1, by simp only [(h k hk).2, (h' k hk).2, map_add]⟩

end

theorem tend2d_real {S : Finset (Fin 2 → ℤ)} (hS : Sym S) (n : Fin 2 → ℕ) (δ : Fin 2 → ℝ) (beta : ℝ) {u : Unit → Fld (Fin 2)}
    (hu : realPart S u = u) : realPart S (tend2d n S δ beta u) = tend2d n S δ beta u := by
  rw [realPart_iff hS] at hu ⊢
  have h := hu.1 ()
  refine ⟨fun _ => ?_, fun _ k hk => by simp [tend2d, ns2d, hk]⟩
  refine real_congr (real_of_fft hS (n := n) (x := fun j => computeFrot (gridVal n S (ux2 δ (u ())) j) (gridVal n S (uy2 δ (u ())) j)
      (gridVal n S (deriv δ 0 (u ())) j) (gridVal n S (deriv δ 1 (u ())) j) beta) fun j => ?_)
    fun k hk => by simp [tend2d, ns2d, hk]
  have h1 := real_grid (n := n) (SpectBudget.ux2_real (δ := δ) h) j
  have h2 := real_grid (n := n) (SpectBudget.uy2_real (δ := δ) h) j
  have h3 := real_grid (n := n) (h.deriv δ 0) j
  have h4 := real_grid (n := n) (h.deriv δ 1) j
  unfold computeFrot
  split_ifs <;> simp only [map_sub, map_mul, map_neg, map_add, h1, h2, h3, h4, Complex.conj_ofReal]

theorem tendStrat_real {S : Finset (Fin 2 → ℤ)} (hS : Sym S) (n : Fin 2 → ℕ) (δ : Fin 2 → ℝ) (N : ℝ) {u : Fin 2 → Fld (Fin 2)}
    (hu : realPart S u = u) : realPart S (tendStrat n S δ N u) = tendStrat n S δ N u := by
  rw [realPart_iff hS] at hu ⊢
  have h := hu.1 0
  have hb := hu.1 1
  have h1 := fun j => real_grid (n := n) (SpectBudget.ux2_real (δ := δ) h) j
  have h2 := fun j => real_grid (n := n) (SpectBudget.uy2_real (δ := δ) h) j
  have h3 := fun d j => real_grid (n := n) (h.deriv δ d) j
  have h4 := fun d j => real_grid (n := n) (hb.deriv δ d) j
  refine ⟨fun v => ?_, fun v k hk => by by_cases hv : v = 0 <;> simp [tendStrat, ns2dStrat, hk, hv]⟩
  by_cases hv : v = 0
  · refine real_congr (real_add (real_of_fft hS (n := n) (x := fun j => -gridVal n S (ux2 δ (u 0)) j * gridVal n S (deriv δ 0 (u 0)) j
      - gridVal n S (uy2 δ (u 0)) j * gridVal n S (deriv δ 1 (u 0)) j) fun j => ?_) (hb.deriv δ 0))
      fun k hk => by simp [tendStrat, ns2dStrat, hk, hv]
    simp only [map_sub, map_mul, map_neg, h1, h2, h3]
  · refine real_congr (real_of_fft hS (n := n) (x := fun j => -gridVal n S (ux2 δ (u 0)) j * gridVal n S (deriv δ 0 (u 1)) j
      - gridVal n S (uy2 δ (u 0)) j * gridVal n S (deriv δ 1 (u 1)) j - N ^ 2 * gridVal n S (uy2 δ (u 0)) j) fun j => ?_)
      fun k hk => by simp [tendStrat, ns2dStrat, hk, hv]
    simp only [map_sub, map_mul, map_neg, map_pow, h1, h2, h4, Complex.conj_ofReal]

/-! ### With a force -/

theorem end_to_end_forced {D V : Type*} [Fintype D] [DecidableEq (D → ℤ)] [Fintype V] (S : Finset (D → ℤ)) (δ : D → ℝ)
    {nu : Dissip.Nu} (hnu : Nu.Ok nu) {tend : (V → Fld D) → V → Fld D}
    (hsmooth : ∀ (G : Finset (D → ℤ)) (m : ℕ) v k, ContDiff ℝ m fun a : Arr (V × G) => tend (fields G a) v k)
    (Q : (V → Fld D) →ₗ[ℝ] (V → Fld D)) (hQS : ∀ u v k, k ∉ S → Q u v k = 0) (hQQ : ∀ u, Q (Q u) = Q u)
    (hQt : ∀ u, Q u = u → Q (tend u) = tend u)
    (hQf : ∀ u, Q u = u → Q (fun v k => (Dissip.fd nu (waveSq δ k) : ℂ) * u v k) = fun v k => (Dissip.fd nu (waveSq δ k) : ℂ) * u v k)
    {w : V → (D → ℤ) → ℝ} (hw : ∀ v k, 0 < w v k) {c : ℝ} (hc : 0 ≤ c)
    (hE : ∀ u, Q u = u → ∑ v, ∑ k ∈ S, w v k * (tend u v k * (starRingEnd ℂ) (u v k)).re
      ≤ c * (1 + ∑ v, ∑ k ∈ S, w v k * ‖u v k‖ ^ 2))
    {F : V → Fld D} (hF : Q F = F) {u0 : V → Fld D} (hu0 : Q u0 = u0) {T : ℝ} (hT : 0 ≤ T) :
    ∃ u : ℝ → V → Fld D, u 0 = u0 ∧ (∀ t ∈ Set.Icc 0 T, Q (u t) = u t) ∧
      (∀ t ∈ Set.Icc 0 T, ∀ v k, HasDerivAt (fun t => u t v k) (forced F tend (u t) v k - dissipation δ nu (u t v) k) t) ∧
      SimulationsConverge S δ nu (forced F tend) T u := by
  have hA : 0 ≤ ∑ v, ∑ k ∈ S, w v k * ‖F v k‖ ^ 2 := sum_nonneg fun v _ => sum_nonneg fun k _ => by
    have := hw v k
    positivity
  refine end_to_end S δ hnu (tend := forced F tend) (fun G m v k => (hsmooth G m v k).add contDiff_const) Q hQS hQQ ?_ hQf hw
    (c := c + ∑ v, ∑ k ∈ S, w v k * ‖F v k‖ ^ 2 + 1) (by positivity) ?_ hu0 hT
  · intro u hu
    have : forced F tend u = tend u + F := rfl
    rw [this, map_add, hQt u hu, hF]
  · intro u hu
    have hB : 0 ≤ ∑ v, ∑ k ∈ S, w v k * ‖u v k‖ ^ 2 := sum_nonneg fun v _ => sum_nonneg fun k _ => by
      have := hw v k
      positivity
    have h1 := hE u hu
    have h2 : ∑ v, ∑ k ∈ S, w v k * (forced F tend u v k * (starRingEnd ℂ) (u v k)).re
        ≤ ∑ v, ∑ k ∈ S, w v k * (tend u v k * (starRingEnd ℂ) (u v k)).re
          + (∑ v, ∑ k ∈ S, w v k * ‖F v k‖ ^ 2 + ∑ v, ∑ k ∈ S, w v k * ‖u v k‖ ^ 2) := by
      simp only [← sum_add_distrib]
      refine sum_le_sum fun v _ => sum_le_sum fun k _ => ?_
      rw [forced, add_mul, Complex.add_re]
      have h3 : (F v k * (starRingEnd ℂ) (u v k)).re ≤ ‖F v k‖ ^ 2 + ‖u v k‖ ^ 2 := by
        have h4 := Complex.re_le_norm (F v k * (starRingEnd ℂ) (u v k))
        rw [norm_mul, Complex.norm_conj] at h4
        nlinarith [sq_nonneg (‖F v k‖ - ‖u v k‖), sq_nonneg ‖F v k‖, sq_nonneg ‖u v k‖]
      have := hw v k
      nlinarith
    nlinarith [mul_nonneg hA hB]

theorem smooth_forced {D V : Type*} [Fintype D] [DecidableEq (D → ℤ)] [Fintype V] {tend : (V → Fld D) → V → Fld D}
    (hsmooth : ∀ (G : Finset (D → ℤ)) (m : ℕ) v k, ContDiff ℝ m fun a : Arr (V × G) => tend (fields G a) v k) (F : V → Fld D)
    (G : Finset (D → ℤ)) (m : ℕ) (v : V) (k : D → ℤ) : ContDiff ℝ m fun a : Arr (V × G) => forced F tend (fields G a) v k :=
  (hsmooth G m v k).add contDiff_const

/-! ### Energy of ns2d.strat -/

theorem strat_rate {n : Fin 2 → ℕ} (hn : ∀ d, 0 < n d) {S : Finset (Fin 2 → ℤ)} (hS : TriadExact n S) (hD : Distinct n S)
    (δ : Fin 2 → ℝ) (N : ℝ) (rot b : Fld (Fin 2)) (hreal : RealOn S rot) (hb : RealOn S b) :
    rate S rot (ns2dStrat n S δ N rot b).1 = ∑ k ∈ S, (deriv δ 0 b k * (starRingEnd ℂ) (rot k)).re ∧
    rate S b (ns2dStrat n S δ N rot b).2 = ∑ k ∈ S, (-(N : ℂ) ^ 2 * uy2 δ rot k * (starRingEnd ℂ) (b k)).re := by
  constructor
  · have hrot : ∀ k ∈ S, (ns2dStrat n S δ N rot b).1 k = ns2d n S δ 0 rot k + deriv δ 0 b k := by
      intro k hk
      simp only [ns2dStrat, ns2d, if_pos hk, computeFrot, if_true]
    have h := C38_enstrophy hn hS hD δ 0 rot hreal
    unfold rate at h ⊢
    rw [sum_congr rfl fun k hk => by rw [hrot k hk, add_mul, Complex.add_re], sum_add_distrib, h, zero_add]
  · have hbt : ∀ k ∈ S, (ns2dStrat n S δ N rot b).2 k = fftCoef n (jac n S δ (psi δ rot) b) k + -(N : ℂ) ^ 2 * uy2 δ rot k := by
      intro k hk
      have e : ∀ j, -gridVal n S (ux2 δ rot) j * gridVal n S (deriv δ 0 b) j - gridVal n S (uy2 δ rot) j * gridVal n S (deriv δ 1 b) j
          - N ^ 2 * gridVal n S (uy2 δ rot) j
          = jac n S δ (psi δ rot) b j + -(N : ℂ) ^ 2 * gridVal n S (uy2 δ rot) j := by
        intro j
        rw [jac, uy2_grid, ux2_psi]
        ring
      simp only [ns2dStrat, if_pos hk]
      rw [funext e, fft_add, fft_mul]
      congr 2
      exact fft_grid hn hD (uy2 δ rot) hk
    unfold rate
    rw [sum_congr rfl fun k hk => by rw [hbt k hk, add_mul, Complex.add_re], sum_add_distrib, ← Complex.re_sum, parseval_real n _ hb,
      jac_self hn hS, Complex.zero_re, zero_add]

/-- A bound of the exchanges in ns2d.strat. -/
def stratBound (S : Finset (Fin 2 → ℤ)) (δ : Fin 2 → ℝ) (N : ℝ) : ℝ :=
  ∑ k ∈ S, (‖(Complex.I * (δ 0 * k 0 : ℝ) : ℂ)‖
    + ‖(-(N : ℂ) ^ 2 * (-Complex.I * (δ 0 * k 0 : ℝ) / Forcing.k2not0 (δ 0 * k 0) (δ 1 * k 1)) : ℂ)‖)

theorem mul_bound (c x y : ℂ) : (c * x * (starRingEnd ℂ) y).re ≤ ‖c‖ * (‖x‖ ^ 2 + ‖y‖ ^ 2) := by
  have h := Complex.re_le_norm (c * x * (starRingEnd ℂ) y)
  rw [norm_mul, norm_mul, Complex.norm_conj] at h
  refine h.trans ?_
  rw [mul_assoc]
  refine mul_le_mul_of_nonneg_left ?_ (norm_nonneg c)
  nlinarith [sq_nonneg (‖x‖ - ‖y‖), sq_nonneg ‖x‖, sq_nonneg ‖y‖]

theorem strat_energy {n : Fin 2 → ℕ} (hn : ∀ d, 0 < n d) {S : Finset (Fin 2 → ℤ)} (hS : TriadExact n S) (hD : Distinct n S)
    (δ : Fin 2 → ℝ) (N : ℝ) (rot b : Fld (Fin 2)) (hreal : RealOn S rot) (hb : RealOn S b) :
    rate S rot (ns2dStrat n S δ N rot b).1 + rate S b (ns2dStrat n S δ N rot b).2
      ≤ stratBound S δ N * ∑ k ∈ S, (‖rot k‖ ^ 2 + ‖b k‖ ^ 2) := by
  obtain ⟨h1, h2⟩ := strat_rate hn hS hD δ N rot b hreal hb
  rw [h1, h2, ← sum_add_distrib, mul_sum]
  refine sum_le_sum fun k hk => ?_
  have e1 := mul_bound (Complex.I * (δ 0 * k 0 : ℝ)) (b k) (rot k)
  have e2 := mul_bound (-(N : ℂ) ^ 2 * (-Complex.I * (δ 0 * k 0 : ℝ) / Forcing.k2not0 (δ 0 * k 0) (δ 1 * k 1))) (rot k) (b k)
  have e3 : -(N : ℂ) ^ 2 * uy2 δ rot k
      = (-(N : ℂ) ^ 2 * (-Complex.I * (δ 0 * k 0 : ℝ) / Forcing.k2not0 (δ 0 * k 0) (δ 1 * k 1))) * rot k := by
    simp only [uy2, Forcing.vecFromRot]
    push_cast
    ring
  have e4 : ‖(Complex.I * (δ 0 * k 0 : ℝ) : ℂ)‖
      + ‖(-(N : ℂ) ^ 2 * (-Complex.I * (δ 0 * k 0 : ℝ) / Forcing.k2not0 (δ 0 * k 0) (δ 1 * k 1)) : ℂ)‖ ≤ stratBound S δ N :=
    single_le_sum (f := fun k : Fin 2 → ℤ => ‖(Complex.I * (δ 0 * k 0 : ℝ) : ℂ)‖
      + ‖(-(N : ℂ) ^ 2 * (-Complex.I * (δ 0 * k 0 : ℝ) / Forcing.k2not0 (δ 0 * k 0) (δ 1 * k 1)) : ℂ)‖)
      (fun _ _ => by positivity) hk
  have e5 : 0 ≤ ‖rot k‖ ^ 2 + ‖b k‖ ^ 2 := by positivity
  rw [e3]
  have e6 := mul_le_mul_of_nonneg_right e4 e5
  have e7 : deriv δ 0 b k = Complex.I * (δ 0 * k 0 : ℝ) * b k := rfl
  rw [e7]
  linarith

end

end Verif.EndToEnd
