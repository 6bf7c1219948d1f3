import Verif.EndToEnd.LemmasPlate
import Verif.EndToEnd.PropsMore

/-! # C87: plate2d -/

set_option linter.unusedSectionVars false

namespace Verif.EndToEnd

open Verif.Fourier Verif.Vectors Verif.Energy Verif.Galerkin Verif.Schemes Verif.Convergence Finset

noncomputable section

variable {n : Fin 2 → ℕ} {δ : Fin 2 → ℝ} {S H : Finset (Fin 2 → ℤ)}

/-- The energy of the plate and the square of its mean position. -/
def plateEn (n : Fin 2 → ℕ) (δ : Fin 2 → ℝ) (S H : Finset (Fin 2 → ℤ)) (u : Fin 2 → Fld (Fin 2)) : ℝ :=
  plateEnergy δ S H (u 0) (u 1) (chiFft n δ S (u 1)) + 1 / 2 * ‖u 1 0‖ ^ 2

theorem plateEn_nonneg (u : Fin 2 → Fld (Fin 2)) : 0 ≤ plateEn n δ S H u := by
  unfold plateEn plateEnergy
  have h1 : 0 ≤ ∑ k ∈ S, ‖u 0 k‖ ^ 2 := sum_nonneg fun k _ => sq_nonneg _
  have h2 : 0 ≤ ∑ k ∈ S, ((δ 0 * k 0) ^ 2 + (δ 1 * k 1) ^ 2) ^ 2 * ‖u 1 k‖ ^ 2 := sum_nonneg fun k _ => by positivity
  have h3 : 0 ≤ ∑ k ∈ H, ((δ 0 * k 0) ^ 2 + (δ 1 * k 1) ^ 2) ^ 2 * ‖chiFft n δ S (u 1) k‖ ^ 2 := sum_nonneg fun k _ => by positivity
  positivity

theorem plateEn_diff : Differentiable ℝ fun a : Arr (Fin 2 × S) => plateEn n δ S H (fields S a) := by
  have hf := fun v => cd_fields (V := Fin 2) S 1 v
  have hsq : ∀ {f : Arr (Fin 2 × S) → ℂ}, ContDiff ℝ ((1 : ℕ) : WithTop ℕ∞) f → ContDiff ℝ ((1 : ℕ) : WithTop ℕ∞) fun a => ‖f a‖ ^ 2 :=
    fun hf => hf.norm_sq ℝ
  have : ContDiff ℝ ((1 : ℕ) : WithTop ℕ∞) fun a : Arr (Fin 2 × S) => plateEn n δ S H (fields S a) := by
    unfold plateEn plateEnergy
    exact (((contDiff_const.mul (ContDiff.sum fun k _ => hsq (hf 0 k))).add
      (contDiff_const.mul (ContDiff.sum fun k _ => contDiff_const.mul (hsq (hf 1 k))))).add
      (contDiff_const.mul (ContDiff.sum fun k _ => contDiff_const.mul (hsq (cd_chi (hf 1) n δ S k))))).add
      (contDiff_const.mul (hsq (hf 1 0)))
  exact this.differentiable (by norm_num)

theorem k4_pos (hδ : ∀ d, δ d ≠ 0) {q : Fin 2 → ℤ} (hq : q ≠ 0) : 0 < ((δ 0 * q 0) ^ 2 + (δ 1 * q 1) ^ 2) ^ 2 := by
  refine sq_pos_of_pos ?_
  have hne : q 0 ≠ 0 ∨ q 1 ≠ 0 := by
    by_contra hc
    push Not at hc
    exact hq (funext fun d => by fin_cases d; exacts [hc.1, hc.2])
  rcases hne with h | h
  · have : δ 0 * (q 0 : ℝ) ≠ 0 := mul_ne_zero (hδ 0) (by exact_mod_cast h)
    positivity
  · have : δ 1 * (q 1 : ℝ) ≠ 0 := mul_ne_zero (hδ 1) (by exact_mod_cast h)
    positivity

theorem plateEn_bounded (hδ : ∀ d, δ d ≠ 0) (B : ℝ) :
    ∃ R, ∀ a : Arr (Fin 2 × S), plateEn n δ S H (fields S a) ≤ B → ‖a‖ ≤ R := by
  let w : Fin 2 × S → ℝ := fun i => if i.1 = 0 then 1 else if i.2.1 = 0 then 1 else ((δ 0 * i.2.1 0) ^ 2 + (δ 1 * i.2.1 1) ^ 2) ^ 2
  have hw : ∀ i, 0 < w i := by
    intro i
    simp only [w]
    split_ifs with h1 h2
    · exact one_pos
    · exact one_pos
    · exact k4_pos hδ h2
  obtain ⟨R, hR⟩ := quad_bounded hw (2 * B)
  refine ⟨R, fun a ha => hR a (le_trans ?_ (by linarith : 2 * plateEn n δ S H (fields S a) ≤ 2 * B))⟩
  have h3 : 0 ≤ ∑ k ∈ H, ((δ 0 * k 0) ^ 2 + (δ 1 * k 1) ^ 2) ^ 2 * ‖chiFft n δ S (fields S a 1) k‖ ^ 2 := sum_nonneg fun k _ => by positivity
  have e : quad w a = ∑ k ∈ S, ‖fields S a 0 k‖ ^ 2
      + ∑ k ∈ S, (if k = 0 then 1 else ((δ 0 * k 0) ^ 2 + (δ 1 * k 1) ^ 2) ^ 2) * ‖fields S a 1 k‖ ^ 2 := by
    rw [quad, Fintype.sum_prod_type, Fin.sum_univ_two, ← sum_coe_sort S, ← sum_coe_sort S]
    simp [w, fields]
  have e2 : ∑ k ∈ S, (if k = 0 then 1 else ((δ 0 * k 0) ^ 2 + (δ 1 * k 1) ^ 2) ^ 2) * ‖fields S a 1 k‖ ^ 2
      ≤ ∑ k ∈ S, ((δ 0 * k 0) ^ 2 + (δ 1 * k 1) ^ 2) ^ 2 * ‖fields S a 1 k‖ ^ 2 + ‖fields S a 1 0‖ ^ 2 := by
    have : ∑ k ∈ S, (if k = 0 then ‖fields S a 1 0‖ ^ 2 else 0) ≤ ‖fields S a 1 0‖ ^ 2 := by
      rw [sum_ite_eq']
      split
      · exact le_rfl
      · positivity
    refine le_trans (le_of_eq ?_) (add_le_add_right this _)
    rw [← sum_add_distrib]
    refine sum_congr rfl fun k _ => ?_
    split_ifs with h
    · subst h; simp
    · ring
  rw [e]
  unfold plateEn plateEnergy
  linarith

/-- The rate of change of the energy: only the force and the dissipation of `w` change it. -/
theorem plateEn_rate (hn : ∀ d, 0 < n d) (hδ : ∀ d, δ d ≠ 0) (hH : Sym H) (hS4 : ∀ k ∈ S, ∀ d, 4 * |k d| < n d)
    (hH2 : ∀ k ∈ H, ∀ d, 2 * |k d| ≤ n d) {nu : Dissip.Nu} (hnu : Nu.Ok nu) (F : Fld (Fin 2)) {u : Fin 2 → Fld (Fin 2)}
    (hw : RealOn S (u 0)) (hz : RealOn S (u 1)) :
    ∃ r, HasDerivAt (fun t : ℝ => plateEn n δ S H fun v k =>
        u v k + t * (forced ![F, 0] (tendPlate n S H δ) u v k - freqPlate δ nu v k * u v k)) r 0 ∧
      r ≤ (2 + ∑ k ∈ S, ‖F k‖ ^ 2) * (1 + plateEn n δ S H u) := by
  set P := plate2d n δ S H (u 0) (u 1) with hP
  have line : ∀ a b : ℂ, HasDerivAt (fun t : ℝ => a + t * b) b 0 := by
    intro a b
    have := ((Complex.ofRealCLM.hasDerivAt (x := (0 : ℝ))).mul_const b).const_add a
    simpa using this
  have h0 : ∀ a b : Fld (Fin 2), (fun k => a k + ((0 : ℝ) : ℂ) * b k) = a := fun a b => by funext k; simp
  have key := C41_rate_of_energy n hδ S H (fun t k => u 0 k + t * P.1 k) (fun t k => u 1 k + t * P.2 k) 0
    (fun k _ => by simp only [h0]; exact line _ _) (fun k _ => by simp only [h0]; exact line _ _)
  simp only [h0] at key
  rw [C41_half_truncation hn hH hS4 hH2 hw hz] at key
  set X : Fld (Fin 2) := fun k => forced ![F, 0] (tendPlate n S H δ) u 0 k - freqPlate δ nu 0 k * u 0 k with hX
  have hXk : ∀ k, X k = P.1 k + F k - (Dissip.fd nu (waveSq δ k) : ℂ) * u 0 k := fun k => by
    simp [hX, forced, tendPlate, freqPlate, hP]
  have hY : ∀ k, forced ![F, 0] (tendPlate n S H δ) u 1 k - freqPlate δ nu 1 k * u 1 k = P.2 k := fun k => by
    simp [forced, tendPlate, freqPlate, hP]
  have d1 : ∀ k, HasDerivAt (fun t : ℝ => ‖u 0 k + t * X k‖ ^ 2 - ‖u 0 k + t * P.1 k‖ ^ 2)
      (2 * ((F k - (Dissip.fd nu (waveSq δ k) : ℂ) * u 0 k) * (starRingEnd ℂ) (u 0 k)).re) 0 := by
    intro k
    refine ((sq_hasDeriv (line (u 0 k) (X k))).sub (sq_hasDeriv (line (u 0 k) (P.1 k)))).congr_deriv ?_
    simp only [Complex.ofReal_zero, zero_mul, add_zero, hXk]
    rw [← mul_sub, ← Complex.sub_re]
    congr 2
    ring
  have d2 := (sq_hasDeriv (line (u 1 0) (P.2 0))).const_mul (1 / 2 : ℝ)
  have d3 := (HasDerivAt.fun_sum fun k (_ : k ∈ S) => d1 k).const_mul (1 / 2 : ℝ)
  have d4 := (key.fun_add d3).fun_add d2
  refine ⟨_, d4.congr_of_eventuallyEq (Filter.Eventually.of_forall fun t => ?_), ?_⟩
  · show plateEn n δ S H _ = _
    simp only [plateEn, plateEnergy, hY, sum_sub_distrib]
    simp only [hX]
    ring
  · simp only [Complex.ofReal_zero, zero_mul, add_zero, zero_add]
    have b1 : ∑ k ∈ S, 2 * ((F k - (Dissip.fd nu (waveSq δ k) : ℂ) * u 0 k) * (starRingEnd ℂ) (u 0 k)).re
        ≤ ∑ k ∈ S, ‖F k‖ ^ 2 + ∑ k ∈ S, ‖u 0 k‖ ^ 2 := by
      rw [← sum_add_distrib]
      refine sum_le_sum fun k _ => ?_
      rw [sub_mul, Complex.sub_re, mul_assoc, Complex.mul_conj, Complex.re_ofReal_mul, Complex.ofReal_re]
      have f1 := mul_nonneg (fd_nonneg hnu (waveSq_nonneg δ k)) (Complex.normSq_nonneg (u 0 k))
      have f2 := (Complex.re_le_norm (F k * (starRingEnd ℂ) (u 0 k)))
      rw [norm_mul, RCLike.norm_conj] at f2
      nlinarith [sq_nonneg (‖F k‖ - ‖u 0 k‖)]
    have b2 : ‖P.2 0‖ ^ 2 ≤ ∑ k ∈ S, ‖u 0 k‖ ^ 2 := by
      simp only [hP, plate2d]
      split_ifs with h
      · exact single_le_sum (f := fun k => ‖u 0 k‖ ^ 2) (fun k _ => sq_nonneg _) h
      · simp only [norm_zero]
        have : 0 ≤ ∑ k ∈ S, ‖u 0 k‖ ^ 2 := sum_nonneg fun k _ => sq_nonneg _
        simpa using this
    have b3 : (P.2 0 * (starRingEnd ℂ) (u 1 0)).re ≤ 1 / 2 * (‖P.2 0‖ ^ 2 + ‖u 1 0‖ ^ 2) := by
      have f2 := (Complex.re_le_norm (P.2 0 * (starRingEnd ℂ) (u 1 0)))
      rw [norm_mul, RCLike.norm_conj] at f2
      nlinarith [sq_nonneg (‖P.2 0‖ - ‖u 1 0‖)]
    have b4 : 1 / 2 * ∑ k ∈ S, ‖u 0 k‖ ^ 2 + 1 / 2 * ‖u 1 0‖ ^ 2 ≤ plateEn n δ S H u := by
      unfold plateEn plateEnergy
      have h2 : 0 ≤ ∑ k ∈ S, ((δ 0 * k 0) ^ 2 + (δ 1 * k 1) ^ 2) ^ 2 * ‖u 1 k‖ ^ 2 := sum_nonneg fun k _ => by positivity
      have h3 : 0 ≤ ∑ k ∈ H, ((δ 0 * k 0) ^ 2 + (δ 1 * k 1) ^ 2) ^ 2 * ‖chiFft n δ S (u 1) k‖ ^ 2 := sum_nonneg fun k _ => by positivity
      linarith
    have hF0 : 0 ≤ ∑ k ∈ S, ‖F k‖ ^ 2 := sum_nonneg fun k _ => sq_nonneg _
    have hE := plateEn_nonneg (n := n) (δ := δ) (S := S) (H := H) u
    have hz0 : 0 ≤ ‖u 1 0‖ ^ 2 := sq_nonneg _
    nlinarith [mul_nonneg hF0 hE]

/-! ### The equations -/

theorem sums_sym (hS : Sym S) : Sym (sums S) := by
  intro k hk
  obtain ⟨⟨p, q⟩, hpq, rfl⟩ := mem_image.1 hk
  obtain ⟨hp, hq⟩ := mem_product.1 hpq
  exact mem_image.2 ⟨(-p, -q), mem_product.2 ⟨hS p hp, hS q hq⟩, by simp only [neg_add]⟩

theorem sums_small (hS4 : ∀ k ∈ S, ∀ d, 4 * |k d| < n d) : ∀ k ∈ sums S, ∀ d, 2 * |k d| ≤ n d := by
  intro k hk d
  obtain ⟨⟨p, q⟩, hpq, rfl⟩ := mem_image.1 hk
  obtain ⟨hp, hq⟩ := mem_product.1 hpq
  have h1 := hS4 p hp d
  have h2 := hS4 q hq d
  have h3 := abs_add_le (p d) (q d)
  simp only [Pi.add_apply]
  omega

/-- There is a stress function. -/
theorem airy_exists (hδ : ∀ d, δ d ≠ 0) (S : Finset (Fin 2 → ℤ)) (z : Fld (Fin 2)) : ∃ chi, Airy S δ z chi := by
  refine ⟨fun k => if k = 0 then 0 else -(bracket S S δ z z k / (k4 δ k : ℂ)), ⟨by simp, fun k _ => ?_⟩⟩
  rw [bilap_k4]
  by_cases h : k = 0
  · subst h
    rw [bracket_cr, sum_eq_zero]
    · simp
    · intro p _
      refine sum_eq_zero fun q _ => ?_
      split
      · rename_i h
        have : q = -p := (neg_eq_of_add_eq_zero_right h).symm
        subst this
        have hcr : cr δ p (-p) = 0 := by
          simp only [cr, Pi.neg_apply, Int.cast_neg]
          ring
        rw [hcr]
        simp
      · rfl
  · have hne : (k4 δ k : ℂ) ≠ 0 := by
      exact_mod_cast (k4_pos hδ h).ne'
    rw [if_neg h]
    field_simp

/-- The modes of `chi_fft` which are not sums of two modes kept do not matter. -/
theorem tendPlate_sums (hn : ∀ d, 0 < n d) (hS4 : ∀ k ∈ S, ∀ d, 4 * |k d| < n d) (hH2 : ∀ k ∈ H, ∀ d, 2 * |k d| ≤ n d)
    (hSH : ∀ p ∈ S, ∀ q ∈ S, p + q ∈ H) (hδ : ∀ d, δ d ≠ 0) : tendPlate n S H δ = tendPlate n S (sums S) δ := by
  funext u v k
  by_cases hk : k ∈ S
  · obtain ⟨chi, hchi⟩ := airy_exists hδ S (u 1)
    have h1 := C57_plate2d_partial hn hS4 hH2 hSH hδ (w := u 0) hchi hk
    have h2 := C57_plate2d_partial hn hS4 (sums_small hS4) (fun p hp q hq => mem_image.2 ⟨(p, q), mem_product.2 ⟨hp, hq⟩, rfl⟩) hδ
      (w := u 0) hchi hk
    simp only [tendPlate]
    split
    · rw [h1.1, h2.1]
    · rw [h1.2, h2.2]
  · rw [plate_out _ _ _ hk, plate_out _ _ _ hk]

/-- C87, plate2d with `coef_dealiasing <= 1/2` (the nonlinear term is cubic, see `C57_plate2d_violated` for the default truncation): for
every real initial state, every duration and all forces on `w` and viscosities, the truncated Föppl-von Kármán equations have one and
only one solution and the simulations converge to it. -/
theorem C87_plate2d (hn : ∀ d, 0 < n d) (hS4 : ∀ k ∈ S, ∀ d, 4 * |k d| < n d) (hH2 : ∀ k ∈ H, ∀ d, 2 * |k d| ≤ n d)
    (hSH : ∀ p ∈ S, ∀ q ∈ S, p + q ∈ H) (hδ : ∀ d, δ d ≠ 0) {nu : Dissip.Nu} (hnu : Nu.Ok nu) {F : Fld (Fin 2)} (hF : RealField S F)
    {w0 z0 : Fld (Fin 2)} (hw0 : RealField S w0) (hz0 : RealField S z0) {T : ℝ} (hT : 0 ≤ T) :
    ∃ w z : ℝ → Fld (Fin 2), w 0 = w0 ∧ z 0 = z0 ∧ FlowPlate S δ nu F T w z ∧
      (∀ w' z', w' 0 = w0 → z' 0 = z0 → FlowPlate S δ nu F T w' z' → ∀ t ∈ Set.Icc 0 T, w' t = w t ∧ z' t = z t) ∧
      SimulationsConvergeFreq S (freqPlate δ nu) (forced ![F, 0] (tendPlate n S H δ)) T fun t => ![w t, z t] := by
  have hsym := sym_of_real hw0
  have hiff := fun u : Fin 2 → Fld (Fin 2) => realPart_iff hsym u
  have hF2 : realPart S (![F, 0] : Fin 2 → Fld (Fin 2)) = ![F, 0] := (hiff _).2 ⟨fun v => by
    fin_cases v
    · exact hF.1
    · exact fun k hk => ⟨hsym k hk, by simp⟩, fun v k hk => by
    fin_cases v
    · exact hF.2 k hk
    · rfl⟩
  have hu0 : realPart S (![w0, z0] : Fin 2 → Fld (Fin 2)) = ![w0, z0] := (hiff _).2 ⟨fun v => by
    fin_cases v
    · exact hw0.1
    · exact hz0.1, fun v k hk => by
    fin_cases v
    · exact hw0.2 k hk
    · exact hz0.2 k hk⟩
  have hfr : ∀ u : Fin 2 → Fld (Fin 2), realPart S u = u → realPart S (fun v k => freqPlate δ nu v k * u v k) = fun v k => freqPlate δ nu v k * u v k := by
    intro u hu
    have hu' := (hiff u).1 hu
    refine (hiff _).2 ⟨fun v => ?_, fun v k hk => by rw [hu'.2 v k hk, mul_zero]⟩
    fin_cases v
    · refine real_congr (real_fd (hu'.1 0) δ nu) fun k _ => by simp [freqPlate]
    · exact fun k hk => ⟨hsym k hk, by simp [freqPlate]⟩
  rw [tendPlate_sums hn hS4 hH2 hSH hδ]
  have hsm := smooth_forced (smooth_plate n S (sums S) δ) ![F, 0]
  obtain ⟨u, h0, hQ, hder⟩ := global_flow S (freq := freqPlate δ nu) hsm (realPart S) (realPart_out S) (realPart_idem hsym)
    (fun u hu => by
      have e : forced ![F, 0] (tendPlate n S (sums S) δ) u = tendPlate n S (sums S) δ u + ![F, 0] := rfl
      rw [e, map_add, plate_real hsym (sums_sym hsym) hu, hF2]) hfr
    (En := plateEn n δ S (sums S)) plateEn_diff plateEn_nonneg (plateEn_bounded hδ) (c := 2 + ∑ k ∈ S, ‖F k‖ ^ 2)
    (by positivity)
    (fun u hu => plateEn_rate hn hδ (sums_sym hsym) hS4 (sums_small hS4) hnu F (((hiff u).1 hu).1 0) (((hiff u).1 hu).1 1))
    hu0 hT
  have hreal : ∀ t ∈ Set.Icc 0 T, ∀ v, RealField S (u t v) := fun t ht v =>
    ⟨((hiff _).1 (hQ t ht)).1 v, ((hiff _).1 (hQ t ht)).2 v⟩
  have heqs : ∀ (u : Fin 2 → Fld (Fin 2)) (chi : Fld (Fin 2)), Airy S δ (u 1) chi → ∀ k ∈ S,
      forced ![F, 0] (tendPlate n S (sums S) δ) u 0 k - freqPlate δ nu 0 k * u 0 k
        = -bilap δ (u 1) k + bracket S (sums S) δ (u 1) chi k - dissipation δ nu (u 0) k + F k ∧
      forced ![F, 0] (tendPlate n S (sums S) δ) u 1 k - freqPlate δ nu 1 k * u 1 k = u 0 k := by
    intro u chi hchi k hk
    obtain ⟨e1, e2⟩ := C57_plate2d_partial hn hS4 (sums_small hS4) (fun p hp q hq => mem_image.2 ⟨(p, q), mem_product.2 ⟨hp, hq⟩, rfl⟩) hδ
      (w := u 0) hchi hk
    constructor
    · simp only [forced, tendPlate, if_true, e1, freqPlate, dissipation, fd_eq hnu, waveSq, Matrix.cons_val_zero]
      ring
    · simp [forced, tendPlate, e2, freqPlate]
  have heta : (fun t => ![u t 0, u t 1]) = u := by
    funext t v
    fin_cases v <;> rfl
  refine ⟨fun t => u t 0, fun t => u t 1, by simp [h0], by simp [h0], ⟨fun t ht => ⟨hreal t ht 0, hreal t ht 1⟩,
    fun t ht chi hchi k hk => (hder t ht 0 k hk).congr_deriv (heqs (u t) chi hchi k hk).1, fun t ht k hk => ?_⟩, ?_, ?_⟩
  · obtain ⟨chi, hchi⟩ := airy_exists hδ S (u t 1)
    exact (hder t ht 1 k hk).congr_deriv (heqs (u t) chi hchi k hk).2
  · intro w' z' hw' hz' hflow t ht
    have key := unique_freq S (freq := freqPlate δ nu) hsm (T := T) (u := fun t => ![w' t, z' t]) (u' := u)
      (fun t ht v k hk => by
        fin_cases v
        · exact (hflow.real t ht).1.2 k hk
        · exact (hflow.real t ht).2.2 k hk)
      (fun t ht v k hk => (hreal t ht v).2 k hk)
      (fun t ht v k hk => by
        obtain ⟨chi, hchi⟩ := airy_exists hδ S (z' t)
        obtain ⟨e1, e2⟩ := heqs ![w' t, z' t] chi hchi k hk
        fin_cases v
        · exact (hflow.eqw t ht chi hchi k hk).congr_deriv e1.symm
        · exact (hflow.eqz t ht k hk).congr_deriv e2.symm)
      hder (by simp only [hw', hz', h0]) t ht
    exact ⟨congrFun key 0, congrFun key 1⟩
  · rw [heta]
    exact converge_of_solution S (fun v k => by
        simp only [freqPlate]
        split
        · rw [Complex.ofReal_re]
          exact fd_nonneg hnu (waveSq_nonneg δ k)
        · simp) hsm
      (forced_out (fun u v k hk => plate_out u v k hk) fun v k hk => by
        fin_cases v
        · exact hF.2 k hk
        · rfl) hT (fun t ht v k hk => (hreal t ht v).2 k hk) hder

/-- A forced plate without dissipation. -/
example : ∃ w z : ℝ → Fld (Fin 2), w 0 = (fun k => if k ∈ box then 1 else 0) ∧ z 0 = (fun k => if k ∈ box then 1 else 0) ∧
    FlowPlate box (fun _ => 1) ⟨0, 0, 0, 0⟩ (fun k => if k ∈ box then 1 else 0) 10 w z := by
  obtain ⟨w, z, h0, hz0, h, -⟩ := C87_plate2d (n := fun _ => 5) (S := box) (H := Fintype.piFinset fun _ => {-2, -1, 0, 1, 2})
    (fun _ => by norm_num) (fun k hk d => by
      simp only [box, Fintype.mem_piFinset, mem_insert, mem_singleton] at hk
      rcases hk d with h | h | h <;> rw [h] <;> norm_num)
    (fun k hk d => by
      simp only [Fintype.mem_piFinset, mem_insert, mem_singleton] at hk
      rcases hk d with h | h | h | h | h <;> rw [h] <;> norm_num)
    (fun p hp q hq => by
      simp only [box, Fintype.mem_piFinset, mem_insert, mem_singleton, Pi.add_apply] at hp hq ⊢
      intro d
      have h1 := hp d
      have h2 := hq d
      omega) (δ := fun _ => 1) (fun _ => one_ne_zero) (nu := ⟨0, 0, 0, 0⟩) ⟨le_rfl, le_rfl, le_rfl, rfl⟩ box_real box_real box_real
    (T := 10) (by norm_num)
  exact ⟨w, z, h0, hz0, h⟩

end

end Verif.EndToEnd
