import Verif.EndToEnd.LemmasProj
import Verif.Symmetry.Plane
import Verif.Symmetry.SpecReductions

/-! # C96: ns2d in ns3d -/

set_option linter.unusedSectionVars false

namespace Verif.Symmetry

open Verif.Fourier Verif.Vectors Verif.Energy Verif.Galerkin Verif.EndToEnd Verif.Uxuy Finset

noncomputable section

theorem pd_plane {e : (Fin 2 → ℤ) →+ (Fin 3 → ℤ)} (δ : Fin 3 → ℝ) (d : Fin 3) {a : Fld (Fin 3)} (ha : ∀ q, (∀ k, e k ≠ q) → a q = 0) :
    ∀ q, (∀ k, e k ≠ q) → pd δ d a q = 0 := fun q hq => by rw [pd, ha q hq, mul_zero]

theorem exact_zero_left {D : Type*} [Fintype D] [DecidableEq D] (S : Finset (D → ℤ)) {a : Fld D} (ha : ∀ q, a q = 0) (b : Fld D) (k : D → ℤ) :
    exactProduct S a b k = 0 := by
  simp [exactProduct, ha]

theorem advect_plane {e : (Fin 2 → ℤ) →+ (Fin 3 → ℤ)} (he : Function.Injective e) {i j m : Fin 3} (hi : ∀ k, e k i = k 0)
    (hj : ∀ k, e k j = k 1) (hsum : ∀ g : Fin 3 → ℂ, g m = 0 → ∑ d, g d = g i + g j)
    {S : Finset (Fin 3 → ℤ)} {S2 : Finset (Fin 2 → ℤ)} (hS : ∀ k, k ∈ S2 ↔ e k ∈ S) (δ : Fin 3 → ℝ) {U : Fin 3 → Fld (Fin 3)}
    (hU : ∀ d q, (∀ k, e k ≠ q) → U d q = 0) (hm : ∀ q, U m q = 0) {a : Fld (Fin 3)} (ha : ∀ q, (∀ k, e k ≠ q) → a q = 0) :
    (∀ k, advect S δ U a (e k) = exactProduct S2 (U i ∘ e) (pd ![δ i, δ j] 0 (a ∘ e)) k
      + exactProduct S2 (U j ∘ e) (pd ![δ i, δ j] 1 (a ∘ e)) k) ∧ ∀ q, (∀ k, e k ≠ q) → advect S δ U a q = 0 := by
  constructor
  · intro k
    rw [advect, hsum _ (exact_zero_left S hm _ _), (exact_plane he hS (hU i) (pd_plane δ i ha)).1, (exact_plane he hS (hU j) (pd_plane δ j ha)).1]
    congr 2
    · funext p; simp [pd, hi]
    · funext p; simp [pd, hj]
  · intro q hq
    rw [advect, hsum _ (exact_zero_left S hm _ _), (exact_plane he hS (hU i) (pd_plane δ i ha)).2 q hq,
      (exact_plane he hS (hU j) (pd_plane δ j ha)).2 q hq, add_zero]

theorem hor_off {q : Fin 3 → ℤ} : (∀ k, hor k ≠ q) ↔ q 2 ≠ 0 := by
  constructor
  · intro h h2; exact h _ (hor_of h2)
  · rintro h k rfl; exact h rfl

theorem ver_off {q : Fin 3 → ℤ} : (∀ k, ver k ≠ q) ↔ q 1 ≠ 0 := by
  constructor
  · intro h h2; exact h _ (ver_of h2)
  · rintro h k rfl; exact h rfl

/-- The velocity of a vorticity. -/
def horMap (δ : Fin 3 → ℝ) : Map Unit (Fin 2) (Fin 3) (Fin 3) where
  src w q := if w ≠ 2 ∧ q 2 = 0 then some ((), ![q 0, q 1]) else none
  c w q := if w = 0 then (Forcing.vecFromRot (δ 0 * q 0) (δ 1 * q 1) 1).1 else (Forcing.vecFromRot (δ 0 * q 0) (δ 1 * q 1) 1).2

theorem hor_app0 (δ : Fin 3 → ℝ) (u : Unit → Fld (Fin 2)) (k : Fin 2 → ℤ) : (horMap δ).app u 0 (hor k) = ux2 ![δ 0, δ 1] (u ()) k := by
  have : (![hor k 0, hor k 1] : Fin 2 → ℤ) = k := by funext d; fin_cases d <;> rfl
  have h2 : hor k 2 = 0 := rfl
  simp only [Map.app, horMap, h2, this]
  simp [ux2, Forcing.vecFromRot, hor]

theorem hor_app1 (δ : Fin 3 → ℝ) (u : Unit → Fld (Fin 2)) (k : Fin 2 → ℤ) : (horMap δ).app u 1 (hor k) = uy2 ![δ 0, δ 1] (u ()) k := by
  have : (![hor k 0, hor k 1] : Fin 2 → ℤ) = k := by funext d; fin_cases d <;> rfl
  have h2 : hor k 2 = 0 := rfl
  simp only [Map.app, horMap, h2, this]
  simp [uy2, Forcing.vecFromRot, hor]

theorem hor_app2 (δ : Fin 3 → ℝ) (u : Unit → Fld (Fin 2)) (q : Fin 3 → ℤ) : (horMap δ).app u 2 q = 0 := by simp [Map.app, horMap]

theorem hor_app_off (δ : Fin 3 → ℝ) (u : Unit → Fld (Fin 2)) (w : Fin 3) {q : Fin 3 → ℤ} (h : q 2 ≠ 0) : (horMap δ).app u w q = 0 := by
  simp [Map.app, horMap, h]

theorem vecFromRot_zero (r : ℂ) : Forcing.vecFromRot 0 0 r = (0, 0) := by simp [Forcing.vecFromRot]

theorem proj_hor' {p : Projection} (hp : p = .none ∨ p = .toroidal) (noVz : Bool) {a b : ℝ} (X Y R : ℂ)
    (hR : Complex.I * a * Y - Complex.I * b * X = R) (h0 : a = 0 → b = 0 → X = 0 ∧ Y = 0) :
    projV p noVz ⟨a, b, 0⟩ ⟨X, Y, 0⟩ = ⟨(Forcing.vecFromRot a b R).1, (Forcing.vecFromRot a b R).2, 0⟩ := by
  by_cases h : a ^ 2 + b ^ 2 = 0
  · have ha : a = 0 := by nlinarith [sq_nonneg a, sq_nonneg b]
    have hb : b = 0 := by nlinarith [sq_nonneg a, sq_nonneg b]
    obtain ⟨rfl, rfl⟩ := h0 ha hb
    rw [projV_zero, ha, hb, vecFromRot_zero]
  · rw [proj_hor hp noVz h, hR]

theorem vec_hor (δ : Fin 3 → ℝ) (u : Unit → Fld (Fin 2)) (k : Fin 2 → ℤ) :
    vec ((horMap δ).app u) (hor k) = ⟨ux2 ![δ 0, δ 1] (u ()) k, uy2 ![δ 0, δ 1] (u ()) k, 0⟩ := by
  simp only [vec, hor_app0, hor_app1, hor_app2]

theorem vec_hor_off (δ : Fin 3 → ℝ) (u : Unit → Fld (Fin 2)) {q : Fin 3 → ℤ} (h : q 2 ≠ 0) : vec ((horMap δ).app u) q = ⟨0, 0, 0⟩ := by
  simp only [vec, hor_app_off _ _ _ h]

theorem wave_hor (δ : Fin 3 → ℝ) (k : Fin 2 → ℤ) : wave3 δ (hor k) = ⟨![δ 0, δ 1] 0 * k 0, ![δ 0, δ 1] 1 * k 1, 0⟩ := by
  simp [wave3, hor]

/-- From vectors of planes to fields. -/
theorem components_hor (δ : Fin 3 → ℝ) (T : (Fin 3 → ℤ) → V3) (R : Unit → Fld (Fin 2))
    (h : ∀ k, T (hor k) = ⟨(Forcing.vecFromRot (![δ 0, δ 1] 0 * k 0) (![δ 0, δ 1] 1 * k 1) (R () k)).1,
      (Forcing.vecFromRot (![δ 0, δ 1] 0 * k 0) (![δ 0, δ 1] 1 * k 1) (R () k)).2, 0⟩) (hoff : ∀ q, q 2 ≠ 0 → T q = ⟨0, 0, 0⟩) :
    components T = (horMap δ).app R := by
  funext w q
  by_cases hq : q 2 = 0
  · rw [← hor_of hq]
    generalize (![q 0, q 1] : Fin 2 → ℤ) = k
    fin_cases w
    · exact (congrArg V3.x (h k)).trans (hor_app0 δ R k).symm
    · exact (congrArg V3.y (h k)).trans (hor_app1 δ R k).symm
    · exact (congrArg V3.z (h k)).trans (hor_app2 δ R _).symm
  · rw [hor_app_off _ _ _ hq]
    fin_cases w
    · exact congrArg V3.x (hoff q hq)
    · exact congrArg V3.y (hoff q hq)
    · exact congrArg V3.z (hoff q hq)

theorem proj_app_hor {δ : Fin 3 → ℝ} {p : Projection} (hp : p = .none ∨ p = .toroidal) (noVz : Bool) (u : Unit → Fld (Fin 2)) :
    (components fun k => (projectState p noVz (wave3 δ k) ⟨vec ((horMap δ).app u) k, none⟩).v) = (horMap δ).app u := by
  simp only [projectState_v]
  refine components_hor δ _ u (fun k => ?_) fun q hq => ?_
  · rw [wave_hor, vec_hor]
    by_cases h : (![δ 0, δ 1] 0 * (k 0 : ℝ)) ^ 2 + (![δ 0, δ 1] 1 * (k 1 : ℝ)) ^ 2 = 0
    · have ha : ![δ 0, δ 1] 0 * (k 0 : ℝ) = 0 := by nlinarith [sq_nonneg (![δ 0, δ 1] 0 * (k 0 : ℝ)), sq_nonneg (![δ 0, δ 1] 1 * (k 1 : ℝ))]
      have hb : ![δ 0, δ 1] 1 * (k 1 : ℝ) = 0 := by nlinarith [sq_nonneg (![δ 0, δ 1] 0 * (k 0 : ℝ)), sq_nonneg (![δ 0, δ 1] 1 * (k 1 : ℝ))]
      simp only [ux2, uy2, ha, hb, vecFromRot_zero, projV_zero]
    · refine proj_hor' hp noVz _ _ _ ?_ fun ha hb => absurd (by rw [ha, hb]; ring) h
      have hc : ((![δ 0, δ 1] 0 * (k 0 : ℝ) : ℝ) : ℂ) ^ 2 + ((![δ 0, δ 1] 1 * (k 1 : ℝ) : ℝ) : ℂ) ^ 2 ≠ 0 := by exact_mod_cast h
      simp only [ux2, uy2, Forcing.vecFromRot, k2not0_eq h]
      generalize ![δ 0, δ 1] 0 * (k 0 : ℝ) = a at *
      generalize ![δ 0, δ 1] 1 * (k 1 : ℝ) = b at *
      push_cast
      field_simp
      linear_combination -(a ^ 2 + b ^ 2) * u () k * Complex.I_sq
  · rw [vec_hor_off _ _ hq, projV_zero]

theorem tend_hor {n : Fin 3 → ℕ} (hn : ∀ d, 0 < n d) {S : Finset (Fin 3 → ℤ)} (hA : NoAlias n S) {S2 : Finset (Fin 2 → ℤ)}
    (hS : ∀ k, k ∈ S2 ↔ hor k ∈ S) {δ : Fin 3 → ℝ} (hδ : ∀ d, δ d ≠ 0) (f : Option ℝ) {p : Projection} (hp : p = .none ∨ p = .toroidal)
    (noVz : Bool) (u : Unit → Fld (Fin 2)) :
    tend3d n S δ f p noVz ((horMap δ).app u) = (horMap δ).app (tend2d ![n 0, n 1] S2 ![δ 0, δ 1] 0 u) := by
  have hA2 : NoAlias ![n 0, n 1] S2 := by
    refine noAlias_plane hor_inj (fun k hk d => ?_) hS hA
    fin_cases d
    · exact hk 0
    · exact hk 1
    · exact dvd_zero _
  have hn2 : ∀ d, 0 < (![n 0, n 1] : Fin 2 → ℕ) d := fun d => by fin_cases d <;> exact hn _
  set v := vec ((horMap δ).app u) with hv
  have hoff : ∀ d q, (∀ k, hor k ≠ q) → comp v d q = 0 := by
    intro d q hq
    have := vec_hor_off δ u (hor_off.1 hq)
    fin_cases d
    · exact congrArg V3.x this
    · exact congrArg V3.y this
    · exact congrArg V3.z this
  have hadv : ∀ d, _ := fun d => advect_plane hor_inj (i := 0) (j := 1) (m := 2) (fun _ => rfl) (fun _ => rfl)
    (fun g h => by rw [Fin.sum_univ_three, h, add_zero]) hS δ (U := comp v) hoff (fun q => hor_app2 δ u q) (hoff d)
  have c0 : comp v 0 ∘ hor = ux2 ![δ 0, δ 1] (u ()) := funext fun k => hor_app0 δ u k
  have c1 : comp v 1 ∘ hor = uy2 ![δ 0, δ 1] (u ()) := funext fun k => hor_app1 δ u k
  have c2 : comp v 2 ∘ hor = fun _ => 0 := funext fun k => hor_app2 δ u (hor k)
  refine components_hor δ _ _ (fun k => ?_) fun q hq => ?_
  · by_cases hk : k ∈ S2
    · rw [ns3d_exact hn hA _ _ _ _ _ ((hS k).1 hk), wave_hor]
      have hz : advect S δ (comp v) (comp v 2) (hor k) = 0 := by
        rw [(hadv 2).1 k, c2]
        have : ∀ d, pd ![δ 0, δ 1] d (fun _ : Fin 2 → ℤ => (0 : ℂ)) = fun _ => 0 := fun d => by funext p; simp [pd]
        simp [this, exactProduct]
      have hN : navierStokes S δ (f.getD 0) v (hor k)
          = ⟨-(exactProduct S2 (ux2 ![δ 0, δ 1] (u ())) (pd ![δ 0, δ 1] 0 (ux2 ![δ 0, δ 1] (u ()))) k
              + exactProduct S2 (uy2 ![δ 0, δ 1] (u ())) (pd ![δ 0, δ 1] 1 (ux2 ![δ 0, δ 1] (u ()))) k)
              + f.getD 0 * uy2 ![δ 0, δ 1] (u ()) k,
            -(exactProduct S2 (ux2 ![δ 0, δ 1] (u ())) (pd ![δ 0, δ 1] 0 (uy2 ![δ 0, δ 1] (u ()))) k
              + exactProduct S2 (uy2 ![δ 0, δ 1] (u ())) (pd ![δ 0, δ 1] 1 (uy2 ![δ 0, δ 1] (u ()))) k)
              - f.getD 0 * ux2 ![δ 0, δ 1] (u ()) k, 0⟩ := by
        have hvk : v (hor k) = _ := vec_hor δ u k
        simp only [navierStokes, (hadv 0).1 k, (hadv 1).1 k, hz, c0, c1, neg_zero, hvk]
      rw [hN]
      refine proj_hor' hp noVz _ _ _ ?_ fun ha hb => ?_
      · have hcurl := curl_advect S2 ![δ 0, δ 1] (u ()) k
        simp only [tend2d]
        rw [ns2d_exact hn2 hA2 _ _ _ hk]
        have hdiv : Complex.I * ((![δ 0, δ 1] 0 * k 0 : ℝ) : ℂ) * ux2 ![δ 0, δ 1] (u ()) k
            + Complex.I * ((![δ 0, δ 1] 1 * k 1 : ℝ) : ℂ) * uy2 ![δ 0, δ 1] (u ()) k = 0 := by
          simp only [ux2, uy2, Forcing.vecFromRot]; ring
        simp only at hcurl
        push_cast at hcurl hdiv ⊢
        linear_combination -hcurl - f.getD 0 * hdiv
      · have k0 : k = 0 := by
          funext d
          fin_cases d
          · have := (mul_eq_zero.1 ha).resolve_left (hδ 0)
            exact_mod_cast this
          · have := (mul_eq_zero.1 hb).resolve_left (hδ 1)
            exact_mod_cast this
        subst k0
        rw [advect_mean, advect_mean]
        simp [ux2, uy2, vecFromRot_zero]
    · have h1 : tend2d ![n 0, n 1] S2 ![δ 0, δ 1] 0 u () k = 0 := by simp only [tend2d, ns2d, if_neg hk]
      have h2 : ns3d n S δ f p noVz v (hor k) = ⟨0, 0, 0⟩ := by
        rw [ns3d, if_neg fun h => hk ((hS k).2 h)]
      rw [h1, h2]
      simp [Forcing.vecFromRot]
  · by_cases hk : q ∈ S
    · rw [ns3d_exact hn hA _ _ _ _ _ hk]
      have hq' := hor_off.2 hq
      have : navierStokes S δ (f.getD 0) v q = ⟨0, 0, 0⟩ := by
        have hvk : v q = _ := vec_hor_off δ u hq
        simp only [navierStokes, (hadv 0).2 q hq', (hadv 1).2 q hq', (hadv 2).2 q hq', hvk]
        simp
      rw [this, projV_zero]
    · rw [ns3d, if_neg hk]

end

end Verif.Symmetry
