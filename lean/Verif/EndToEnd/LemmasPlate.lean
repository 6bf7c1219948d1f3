import Verif.EndToEnd.SpecPlate
import Verif.EndToEnd.LemmasLocal
import Verif.EndToEnd.LemmasTime
import Verif.Galerkin.PropsPlate

/-! # Lemmas for C87, plate2d -/

set_option linter.unusedSectionVars false

namespace Verif.EndToEnd

open Verif.Fourier Verif.Vectors Verif.Energy Verif.Galerkin Verif.Schemes Verif.Convergence Finset

noncomputable section

section

variable {D V : Type*} [Fintype D] [DecidableEq (D → ℤ)] [Fintype V]

/-- A solution for all times from any energy `En` which grows at most exponentially and controls the modes. -/
theorem global_flow (S : Finset (D → ℤ)) {freq : V → Fld D} {tend : (V → Fld D) → V → Fld D}
    (hsmooth : ∀ (G : Finset (D → ℤ)) (m : ℕ) v k, ContDiff ℝ m fun a : Arr (V × G) => tend (fields G a) v k)
    (Q : (V → Fld D) →ₗ[ℝ] (V → Fld D)) (hQS : ∀ u v k, k ∉ S → Q u v k = 0) (hQQ : ∀ u, Q (Q u) = Q u)
    (hQt : ∀ u, Q u = u → Q (tend u) = tend u)
    (hQf : ∀ u, Q u = u → Q (fun v k => freq v k * u v k) = fun v k => freq v k * u v k)
    {En : (V → Fld D) → ℝ} (hEn : Differentiable ℝ fun a : Arr (V × S) => En (fields S a)) (hE0 : ∀ u, 0 ≤ En u)
    (hEb : ∀ B, ∃ R, ∀ a : Arr (V × S), En (fields S a) ≤ B → ‖a‖ ≤ R) {c : ℝ} (hc : 0 ≤ c)
    (hrate : ∀ u, Q u = u → ∃ r, HasDerivAt (fun t : ℝ => En fun v k => u v k + t * (tend u v k - freq v k * u v k)) r 0 ∧
      r ≤ c * (1 + En u))
    {u0 : V → Fld D} (hu0 : Q u0 = u0) {T : ℝ} (hT : 0 ≤ T) :
    ∃ u : ℝ → V → Fld D, u 0 = u0 ∧ (∀ t ∈ Set.Icc 0 T, Q (u t) = u t) ∧
      ∀ t ∈ Set.Icc 0 T, ∀ v, ∀ k ∈ S, HasDerivAt (fun t => u t v k) (tend (u t) v k - freq v k * u t v k) t := by
  have hmS : ∀ u, Q u = u → ∀ v k, k ∉ S → u v k = 0 := fun u hu v k hk => by rw [← hu]; exact hQS u v k hk
  have harr : ∀ a : Arr (V × S), array S (Q (fields S a)) = a → Q (fields S a) = fields S a := by
    intro a ha
    conv_rhs => rw [← ha]
    rw [fields_array (Subset.refl S) (hQS _)]
  obtain ⟨s, hs0, δ, hδ, hs⟩ := exists_solution (F := fun a : Arr (V × S) => onArrays S tend a - array S freq * a)
    ((contDiff_pi.2 fun i => hsmooth S 1 i.1 i.2.1 : ContDiff ℝ 1 (onArrays (V := V) S tend)).sub (contDiff_const.mul contDiff_id))
    (LinearMap.toContinuousLinearMap (arrayL S ∘ₗ Q ∘ₗ fieldsL S))
    (fun a => by
      show array S (Q (fields S (array S (Q (fields S a))))) = array S (Q (fields S a))
      rw [fields_array (Subset.refl S) (hQS _), hQQ])
    (fun a ha => by
      have ha' := harr a ha
      rw [map_sub]
      congr 1
      · show array S (Q (fields S (array S (tend (fields S a))))) = array S (tend (fields S a))
        rw [fields_array (Subset.refl S) (fun v k hk => by rw [← hQt _ ha']; exact hQS _ v k hk), hQt _ ha']
      · have e : fields S (array S freq * a) = fun v k => freq v k * fields S a v k := by
          funext v k
          by_cases hk : k ∈ S <;> simp [fields, hk, array]
        show array S (Q (fields S (array S freq * a))) = array S freq * a
        rw [e, hQf _ ha', ← e, array_fields])
    (V := fun a => En (fields S a)) hEn (fun a => hE0 _) (fun B => by
      obtain ⟨R, hR⟩ := hEb B
      exact ⟨R, fun a _ => hR a⟩) hc (fun a ha => by
      have ha' := harr a ha
      obtain ⟨r, hr, hle⟩ := hrate _ ha'
      have h1 : HasDerivAt (fun t : ℝ => a + t • (onArrays S tend a - array S freq * a)) (onArrays S tend a - array S freq * a) 0 := by
        simpa using ((hasDerivAt_id (0 : ℝ)).smul_const (onArrays S tend a - array S freq * a)).const_add a
      have h2 := (hEn (a + (0 : ℝ) • (onArrays S tend a - array S freq * a))).hasFDerivAt.comp_hasDerivAt (0 : ℝ) h1
      have e : ((fun a : Arr (V × S) => En (fields S a)) ∘ fun t : ℝ => a + t • (onArrays S tend a - array S freq * a))
          = fun t : ℝ => En fun v k => fields S a v k + t * (tend (fields S a) v k - freq v k * fields S a v k) := by
        funext t
        simp only [Function.comp]
        congr 1
        funext v k
        by_cases hk : k ∈ S
        · simp [fields, hk, onArrays, array]
        · have h3 : tend (fields S a) v k = 0 := by
            rw [← hQt _ ha']
            exact hQS _ v k hk
          rw [h3]
          simp [fields, hk]
      rw [e] at h2
      have := h2.unique hr
      rw [zero_smul, add_zero] at this
      rw [this]
      exact hle)
    (array S u0) (by
      show array S (Q (fields S (array S u0))) = array S u0
      rw [fields_array (Subset.refl S) (hmS _ hu0), hu0]) hT
  have hin : ∀ t ∈ Set.Icc 0 T, t ∈ Set.Ioo (-δ) (T + δ) := fun t ht => ⟨by linarith [ht.1], by linarith [ht.2]⟩
  refine ⟨fun t => fields S (s t), ?_, fun t ht => harr _ (hs t (hin t ht)).2, fun t ht v k hk => ?_⟩
  · show fields S (s 0) = u0
    rw [hs0, fields_array (Subset.refl S) (hmS _ hu0)]
  · have h1 := (hasDerivAt_pi.1 (hs t (hin t ht)).1) (v, ⟨k, hk⟩)
    have e1 : (fun t => fields S (s t) v k) = fun t => s t (v, ⟨k, hk⟩) := by
      funext t; simp [fields, hk]
    rw [e1]
    refine h1.congr_deriv ?_
    simp only [Pi.sub_apply, Pi.mul_apply, onArrays, array]
    simp [fields, hk]

/-- Two solutions with the same initial state are equal, for any frequencies. -/
theorem unique_freq (S : Finset (D → ℤ)) {freq : V → Fld D} {tend : (V → Fld D) → V → Fld D}
    (hsmooth : ∀ (G : Finset (D → ℤ)) (m : ℕ) v k, ContDiff ℝ m fun a : Arr (V × G) => tend (fields G a) v k)
    {T : ℝ} {u u' : ℝ → V → Fld D} (hm : ∀ t ∈ Set.Icc 0 T, ∀ v k, k ∉ S → u t v k = 0)
    (hm' : ∀ t ∈ Set.Icc 0 T, ∀ v k, k ∉ S → u' t v k = 0)
    (hu : ∀ t ∈ Set.Icc 0 T, ∀ v, ∀ k ∈ S, HasDerivAt (fun t => u t v k) (tend (u t) v k - freq v k * u t v k) t)
    (hu' : ∀ t ∈ Set.Icc 0 T, ∀ v, ∀ k ∈ S, HasDerivAt (fun t => u' t v k) (tend (u' t) v k - freq v k * u' t v k) t)
    (h0 : u 0 = u' 0) : ∀ t ∈ Set.Icc 0 T, u t = u' t := by
  have hF : ContDiff ℝ 1 fun a : Arr (V × S) => onArrays S tend a - array S freq * a :=
    (contDiff_pi.2 fun i => hsmooth S 1 i.1 i.2.1 : ContDiff ℝ 1 (onArrays (V := V) S tend)).sub (contDiff_const.mul contDiff_id)
  have key := unique_solution hF (T := T) (s := fun t => array S (u t)) (s' := fun t => array S (u' t)) ?_ ?_ (by simp only [h0])
  · intro t ht
    have := congrArg (fields S) (key t ht)
    rwa [fields_array (Subset.refl S) (hm t ht), fields_array (Subset.refl S) (hm' t ht)] at this
  · intro t ht
    refine hasDerivAt_pi.2 fun i => (hu t ht i.1 i.2.1 i.2.2).congr_deriv ?_
    simp only [Pi.sub_apply, Pi.mul_apply, onArrays, array]
    rw [show fields S (array S (u t)) = u t from fields_array (Subset.refl S) (hm t ht)]
  · intro t ht
    refine hasDerivAt_pi.2 fun i => (hu' t ht i.1 i.2.1 i.2.2).congr_deriv ?_
    simp only [Pi.sub_apply, Pi.mul_apply, onArrays, array]
    rw [show fields S (array S (u' t)) = u' t from fields_array (Subset.refl S) (hm' t ht)]

end

/-! ### Smoothness and symmetry -/

section

variable {n : Fin 2 → ℕ} {δ : Fin 2 → ℝ} {S H : Finset (Fin 2 → ℤ)}

theorem cd_ma {E : Type*} [NormedAddCommGroup E] [NormedSpace ℝ E] {m : ℕ} {a b : E → Fld (Fin 2)}
    (ha : ∀ k, ContDiff ℝ m fun x => a x k) (hb : ∀ k, ContDiff ℝ m fun x => b x k) (n : Fin 2 → ℕ) (δ : Fin 2 → ℝ)
    (S S' : Finset (Fin 2 → ℤ)) (j : Pt n) : ContDiff ℝ m fun x => mongeAmpere n δ S S' (a x) (b x) j := by
  have g : ∀ {c : E → Fld (Fin 2)} (_ : ∀ k, ContDiff ℝ m fun x => c x k) (s : (Fin 2 → ℤ) → ℂ) (S : Finset (Fin 2 → ℤ)),
      ContDiff ℝ m fun x => gridVal n S (fun k => -c x k * s k) j := fun hc s S =>
    cd_grid (fun k => (hc k).neg.mul contDiff_const) n S j
  exact (((g ha _ S).mul (g hb _ S')).add ((g ha _ S).mul (g hb _ S'))).sub ((contDiff_const.mul (g ha _ S)).mul (g hb _ S'))

theorem cd_chi {E : Type*} [NormedAddCommGroup E] [NormedSpace ℝ E] {m : ℕ} {z : E → Fld (Fin 2)}
    (hz : ∀ k, ContDiff ℝ m fun x => z x k) (n : Fin 2 → ℕ) (δ : Fin 2 → ℝ) (S : Finset (Fin 2 → ℤ)) (k : Fin 2 → ℤ) :
    ContDiff ℝ m fun x => chiFft n δ S (z x) k := by
  simp only [chiFft]
  split
  · exact contDiff_const
  · exact ((cd_fft (fun j => cd_ma hz hz n δ S S j) k).div_const _).neg

theorem plate_out (u : Fin 2 → Fld (Fin 2)) (v : Fin 2) (k : Fin 2 → ℤ) (hk : k ∉ S) : tendPlate n S H δ u v k = 0 := by
  fin_cases v <;> simp [tendPlate, plate2d, hk]

theorem plate_w {k : Fin 2 → ℤ} (hk : k ∈ S) (u : Fin 2 → Fld (Fin 2)) : tendPlate n S H δ u 0 k
    = -((((δ 0 * k 0) ^ 2 + (δ 1 * k 1) ^ 2) ^ 2 : ℝ) : ℂ) * u 1 k + fftCoef n (mongeAmpere n δ S H (u 1) (chiFft n δ S (u 1))) k := by
  simp only [tendPlate, if_true, plate2d, hk]

theorem plate_z {k : Fin 2 → ℤ} (hk : k ∈ S) (u : Fin 2 → Fld (Fin 2)) : tendPlate n S H δ u 1 k = u 0 k := by
  simp [tendPlate, plate2d, hk]

theorem smooth_plate (n : Fin 2 → ℕ) (S H : Finset (Fin 2 → ℤ)) (δ : Fin 2 → ℝ) (G : Finset (Fin 2 → ℤ)) (m : ℕ) (v : Fin 2)
    (k : Fin 2 → ℤ) : ContDiff ℝ m fun a : Arr (Fin 2 × G) => tendPlate n S H δ (fields G a) v k := by
  by_cases hk : k ∈ S
  swap
  · simp only [plate_out _ v k hk]
    exact contDiff_const
  have hf := fun v => cd_fields (V := Fin 2) G m v
  fin_cases v
  · simp only [Fin.zero_eta, plate_w hk]
    exact (contDiff_const.mul (hf 1 k)).add (cd_fft (fun j => cd_ma (hf 1) (cd_chi (hf 1) n δ S) n δ S H j) k)
  · simp only [Fin.mk_one, plate_z hk]
    exact hf 0 k

theorem ma_real {S S' : Finset (Fin 2 → ℤ)} {a b : Fld (Fin 2)} (ha : RealOn S a) (hb : RealOn S' b) (j : Pt n) :
    (starRingEnd ℂ) (mongeAmpere n δ S S' a b j) = mongeAmpere n δ S S' a b j := by
  have g : ∀ {S : Finset (Fin 2 → ℤ)} {c : Fld (Fin 2)} (_ : RealOn S c) (s : (Fin 2 → ℤ) → ℝ) (_ : ∀ k, s (-k) = s k) (s' : (Fin 2 → ℤ) → ℂ)
      (_ : ∀ k, s' k = (s k : ℂ)), (starRingEnd ℂ) (gridVal n S (fun k => -c k * s' k) j) = gridVal n S (fun k => -c k * s' k) j := by
    intro S c hc s hs s' hs'
    refine real_grid (n := n) (fun k hk => ⟨(hc k hk).1, ?_⟩) j
    simp only [hs', (hc k hk).2, hs, map_mul, map_neg, Complex.conj_ofReal]
  have gxx := fun {S : Finset (Fin 2 → ℤ)} {c : Fld (Fin 2)} (hc : RealOn S c) =>
    g hc (fun k => (δ 0 * k 0) ^ 2) (fun k => by simp) (fun k => ((δ 0 * k 0 : ℝ) : ℂ) ^ 2) (fun k => by push_cast; ring)
  have gyy := fun {S : Finset (Fin 2 → ℤ)} {c : Fld (Fin 2)} (hc : RealOn S c) =>
    g hc (fun k => (δ 1 * k 1) ^ 2) (fun k => by simp) (fun k => ((δ 1 * k 1 : ℝ) : ℂ) ^ 2) (fun k => by push_cast; ring)
  have gxy := fun {S : Finset (Fin 2 → ℤ)} {c : Fld (Fin 2)} (hc : RealOn S c) =>
    g hc (fun k => (δ 0 * k 0) * (δ 1 * k 1)) (fun k => by simp) (fun k => ((δ 0 * k 0 : ℝ) : ℂ) * ((δ 1 * k 1 : ℝ) : ℂ))
      (fun k => by push_cast; ring)
  simp only [mongeAmpere, map_sub, map_add, map_mul, gxx ha, gxx hb, gyy ha, gyy hb, gxy ha, gxy hb, map_ofNat]

theorem chi_real (hH : Sym H) {z : Fld (Fin 2)} (hz : RealOn S z) : RealOn H (chiFft n δ S z) := by
  intro k hk
  refine ⟨hH k hk, ?_⟩
  have h := fft_real n (fun j => ma_real (n := n) (δ := δ) hz hz j) k
  simp only [chiFft, neg_eq_zero]
  split
  · simp
  · rw [h]
    simp only [map_neg, map_div₀, Complex.conj_ofReal, Pi.neg_apply, Int.cast_neg, mul_neg, even_two, Even.neg_pow]

theorem plate_real (hS : Sym S) (hH : Sym H) {u : Fin 2 → Fld (Fin 2)} (hu : realPart S u = u) :
    realPart S (tendPlate n S H δ u) = tendPlate n S H δ u := by
  rw [realPart_iff hS] at hu ⊢
  refine ⟨fun v => ?_, fun v k hk => plate_out u v k hk⟩
  fin_cases v
  · refine real_congr (real_add ((hu.1 1).mul (fun k => -((δ 0 * k 0) ^ 2 + (δ 1 * k 1) ^ 2) ^ 2) fun k => by simp)
      (real_of_fft hS (n := n) fun j => ma_real (δ := δ) (hu.1 1) (chi_real (n := n) (δ := δ) hH (hu.1 1)) j)) fun k hk => ?_
    simp only [Fin.zero_eta, plate_w hk]
    push_cast
    rfl
  · refine real_congr (hu.1 0) fun k hk => ?_
    simp [tendPlate, plate2d, hk]

end

end

end Verif.EndToEnd
