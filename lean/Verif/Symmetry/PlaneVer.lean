import Verif.Symmetry.PlaneHor

/-! # C96: ns2d.strat in ns3d.strat -/

set_option linter.unusedSectionVars false

namespace Verif.Symmetry

open Verif.Fourier Verif.Vectors Verif.Energy Verif.Galerkin Verif.EndToEnd Verif.Uxuy Finset

noncomputable section

/-- The velocity of a vorticity of the planes `(x, z)` and the buoyancy. -/
def verMap (δ : Fin 3 → ℝ) : Map (Fin 2) (Fin 2) (Fin 4) (Fin 3) where
  src w q := if w ≠ 1 ∧ q 1 = 0 ∧ ¬ (w = 3 ∧ q = 0) then some (if w = 3 then 1 else 0, ![q 0, q 2]) else none
  c w q := if w = 0 then (Forcing.vecFromRot (δ 0 * q 0) (δ 2 * q 2) 1).1
    else if w = 2 then (Forcing.vecFromRot (δ 0 * q 0) (δ 2 * q 2) 1).2 else 1

theorem ver_pair (k : Fin 2 → ℤ) : (![ver k 0, ver k 2] : Fin 2 → ℤ) = k := by funext d; fin_cases d <;> rfl

theorem ver_eq_zero (k : Fin 2 → ℤ) : ver k = 0 ↔ k = 0 := by
  constructor
  · intro h; exact ver_inj (h.trans (map_zero ver).symm)
  · rintro rfl; exact map_zero ver

theorem ver_app0 (δ : Fin 3 → ℝ) (u : Fin 2 → Fld (Fin 2)) (k : Fin 2 → ℤ) : (verMap δ).app u 0 (ver k) = ux2 ![δ 0, δ 2] (u 0) k := by
  have h2 : ver k 1 = 0 := rfl
  simp only [Map.app, verMap, h2, ver_pair]
  simp [ux2, Forcing.vecFromRot, ver]

theorem ver_app2 (δ : Fin 3 → ℝ) (u : Fin 2 → Fld (Fin 2)) (k : Fin 2 → ℤ) : (verMap δ).app u 2 (ver k) = uy2 ![δ 0, δ 2] (u 0) k := by
  have h2 : ver k 1 = 0 := rfl
  simp only [Map.app, verMap, h2, ver_pair]
  simp [uy2, Forcing.vecFromRot, ver]

theorem ver_app1 (δ : Fin 3 → ℝ) (u : Fin 2 → Fld (Fin 2)) (q : Fin 3 → ℤ) : (verMap δ).app u 1 q = 0 := by simp [Map.app, verMap]

theorem ver_app3 (δ : Fin 3 → ℝ) (u : Fin 2 → Fld (Fin 2)) (k : Fin 2 → ℤ) : (verMap δ).app u 3 (ver k) = if k = 0 then 0 else u 1 k := by
  have h2 : ver k 1 = 0 := rfl
  simp only [Map.app, verMap, h2, ver_pair, ver_eq_zero]
  by_cases hk : k = 0 <;> simp [hk]

theorem ver_app_off (δ : Fin 3 → ℝ) (u : Fin 2 → Fld (Fin 2)) (w : Fin 4) {q : Fin 3 → ℤ} (h : q 1 ≠ 0) : (verMap δ).app u w q = 0 := by
  simp [Map.app, verMap, h]

theorem proj_ver' {a b : ℝ} (X Z R : ℂ) (hR : Complex.I * a * Z - Complex.I * b * X = R) (h0 : a = 0 → b = 0 → X = 0 ∧ Z = 0) :
    projV .none false ⟨a, 0, b⟩ ⟨X, 0, Z⟩ = ⟨(Forcing.vecFromRot a b R).1, 0, (Forcing.vecFromRot a b R).2⟩ := by
  by_cases h : a ^ 2 + b ^ 2 = 0
  · have ha : a = 0 := by nlinarith [sq_nonneg a, sq_nonneg b]
    have hb : b = 0 := by nlinarith [sq_nonneg a, sq_nonneg b]
    obtain ⟨rfl, rfl⟩ := h0 ha hb
    rw [projV_zero, ha, hb, vecFromRot_zero]
  · rw [proj_ver h, hR]

theorem wave_ver (δ : Fin 3 → ℝ) (k : Fin 2 → ℤ) : wave3 δ (ver k) = ⟨![δ 0, δ 2] 0 * k 0, 0, ![δ 0, δ 2] 1 * k 1⟩ := by
  simp [wave3, ver]

theorem modeState_ver (δ : Fin 3 → ℝ) (u : Fin 2 → Fld (Fin 2)) (k : Fin 2 → ℤ) :
    (modeState ((verMap δ).app u) (ver k)).v = ⟨ux2 ![δ 0, δ 2] (u 0) k, 0, uy2 ![δ 0, δ 2] (u 0) k⟩ := by
  simp only [modeState, ver_app0, ver_app1, ver_app2]

theorem modeState_ver_off (δ : Fin 3 → ℝ) (u : Fin 2 → Fld (Fin 2)) {q : Fin 3 → ℤ} (h : q 1 ≠ 0) :
    (modeState ((verMap δ).app u) q).v = ⟨0, 0, 0⟩ := by
  simp only [modeState, ver_app_off _ _ _ h]

theorem components_ver (δ : Fin 3 → ℝ) (T : (Fin 3 → ℤ) → ModeState) (R : Fin 2 → Fld (Fin 2))
    (h : ∀ k, (T (ver k)).v = ⟨(Forcing.vecFromRot (![δ 0, δ 2] 0 * k 0) (![δ 0, δ 2] 1 * k 1) (R 0 k)).1, 0,
      (Forcing.vecFromRot (![δ 0, δ 2] 0 * k 0) (![δ 0, δ 2] 1 * k 1) (R 0 k)).2⟩)
    (hb : ∀ k, (T (ver k)).b.getD 0 = if k = 0 then 0 else R 1 k)
    (hoff : ∀ q, q 1 ≠ 0 → (T q).v = ⟨0, 0, 0⟩ ∧ (T q).b.getD 0 = 0) :
    components4 T = (verMap δ).app R := by
  funext w q
  by_cases hq : q 1 = 0
  · rw [← ver_of hq]
    generalize (![q 0, q 2] : Fin 2 → ℤ) = k
    fin_cases w
    · exact (congrArg V3.x (h k)).trans (ver_app0 δ R k).symm
    · exact (congrArg V3.y (h k)).trans (ver_app1 δ R _).symm
    · exact (congrArg V3.z (h k)).trans (ver_app2 δ R k).symm
    · exact (hb k).trans (ver_app3 δ R k).symm
  · rw [ver_app_off _ _ _ hq]
    fin_cases w
    · exact congrArg V3.x (hoff q hq).1
    · exact congrArg V3.y (hoff q hq).1
    · exact congrArg V3.z (hoff q hq).1
    · exact (hoff q hq).2

theorem proj_app_ver {δ : Fin 3 → ℝ} (u : Fin 2 → Fld (Fin 2)) :
    (components4 fun k => projectState .none false (wave3 δ k) (modeState ((verMap δ).app u) k)) = (verMap δ).app u := by
  have ev : ∀ k, (projectState .none false (wave3 δ k) (modeState ((verMap δ).app u) k)).v
      = projV .none false (wave3 δ k) (modeState ((verMap δ).app u) k).v := fun k => projectState_v _ _ _ _ _
  refine components_ver δ _ u (fun k => ?_) (fun k => ?_) fun q hq => ⟨?_, ?_⟩
  · rw [ev, wave_ver, modeState_ver]
    by_cases h : (![δ 0, δ 2] 0 * (k 0 : ℝ)) ^ 2 + (![δ 0, δ 2] 1 * (k 1 : ℝ)) ^ 2 = 0
    · have ha : ![δ 0, δ 2] 0 * (k 0 : ℝ) = 0 := by nlinarith [sq_nonneg (![δ 0, δ 2] 0 * (k 0 : ℝ)), sq_nonneg (![δ 0, δ 2] 1 * (k 1 : ℝ))]
      have hb : ![δ 0, δ 2] 1 * (k 1 : ℝ) = 0 := by nlinarith [sq_nonneg (![δ 0, δ 2] 0 * (k 0 : ℝ)), sq_nonneg (![δ 0, δ 2] 1 * (k 1 : ℝ))]
      simp only [ux2, uy2, ha, hb, vecFromRot_zero, projV_zero]
    · refine proj_ver' _ _ _ ?_ fun ha hb => absurd (by rw [ha, hb]; ring) h
      have hc : ((![δ 0, δ 2] 0 * (k 0 : ℝ) : ℝ) : ℂ) ^ 2 + ((![δ 0, δ 2] 1 * (k 1 : ℝ) : ℝ) : ℂ) ^ 2 ≠ 0 := by exact_mod_cast h
      simp only [ux2, uy2, Forcing.vecFromRot, k2not0_eq h]
      generalize ![δ 0, δ 2] 0 * (k 0 : ℝ) = a at *
      generalize ![δ 0, δ 2] 1 * (k 1 : ℝ) = b at *
      push_cast
      field_simp
      linear_combination -(a ^ 2 + b ^ 2) * u 0 k * Complex.I_sq
  · simp only [projectState, Bool.false_eq_true, false_and, if_false, modeState, Option.getD_some]
    exact ver_app3 δ u k
  · rw [ev, modeState_ver_off _ _ hq, projV_zero]
  · simp only [projectState, Bool.false_eq_true, false_and, if_false, modeState, Option.getD_some]
    exact ver_app_off δ u 3 hq

theorem pd_no_mean (δ : Fin 2 → ℝ) (d : Fin 2) (b : Fld (Fin 2)) : pd δ d (fun k => if k = 0 then 0 else b k) = pd δ d b := by
  funext k
  by_cases hk : k = 0
  · simp [pd, hk]
  · simp [pd, hk]

theorem tendStrat_0 (n : Fin 2 → ℕ) (S : Finset (Fin 2 → ℤ)) (δ : Fin 2 → ℝ) (N : ℝ) (u : Fin 2 → Fld (Fin 2)) :
    tendStrat n S δ N u 0 = (ns2dStrat n S δ N (u 0) (u 1)).1 := rfl

theorem tendStrat_1 (n : Fin 2 → ℕ) (S : Finset (Fin 2 → ℤ)) (δ : Fin 2 → ℝ) (N : ℝ) (u : Fin 2 → Fld (Fin 2)) :
    tendStrat n S δ N u 1 = (ns2dStrat n S δ N (u 0) (u 1)).2 := rfl

theorem tend_ver {n : Fin 3 → ℕ} (hn : ∀ d, 0 < n d) {S : Finset (Fin 3 → ℤ)} (hA : NoAlias n S) {S2 : Finset (Fin 2 → ℤ)}
    (hS : ∀ k, k ∈ S2 ↔ ver k ∈ S) {δ : Fin 3 → ℝ} (hδ : ∀ d, δ d ≠ 0) {f : Option ℝ} (hf : f.getD 0 = 0) (N : ℝ)
    (u : Fin 2 → Fld (Fin 2)) :
    tend3dStrat n S δ f N .none false ((verMap δ).app u) = (verMap δ).app (tendStrat ![n 0, n 2] S2 ![δ 0, δ 2] N u) := by
  have hA2 : NoAlias ![n 0, n 2] S2 := by
    refine noAlias_plane ver_inj (fun k hk d => ?_) hS hA
    fin_cases d
    · exact hk 0
    · exact dvd_zero _
    · exact hk 1
  have hn2 : ∀ d, 0 < (![n 0, n 2] : Fin 2 → ℕ) d := fun d => by fin_cases d <;> exact hn _
  set v : (Fin 3 → ℤ) → V3 := fun k => (modeState ((verMap δ).app u) k).v with hv
  set b : Fld (Fin 3) := (verMap δ).app u 3 with hb
  have hoff : ∀ d q, (∀ k, ver k ≠ q) → comp v d q = 0 := by
    intro d q hq
    have := modeState_ver_off δ u (ver_off.1 hq)
    fin_cases d
    · exact congrArg V3.x this
    · exact congrArg V3.y this
    · exact congrArg V3.z this
  have hboff : ∀ q, (∀ k, ver k ≠ q) → b q = 0 := fun q hq => ver_app_off δ u 3 (ver_off.1 hq)
  have hadv : ∀ d, _ := fun d => advect_plane ver_inj (i := 0) (j := 2) (m := 1) (fun _ => rfl) (fun _ => rfl)
    (fun g h => by rw [Fin.sum_univ_three, h, add_zero]) hS δ (U := comp v) hoff (fun q => ver_app1 δ u q) (hoff d)
  have hvb : ∀ d, _ := fun d => exact_plane ver_inj hS (hoff d) hboff
  have c0 : comp v 0 ∘ ver = ux2 ![δ 0, δ 2] (u 0) := funext fun k => ver_app0 δ u k
  have c2 : comp v 2 ∘ ver = uy2 ![δ 0, δ 2] (u 0) := funext fun k => ver_app2 δ u k
  have c1 : comp v 1 ∘ ver = fun _ => 0 := funext fun k => ver_app1 δ u (ver k)
  have cb : b ∘ ver = fun k => if k = 0 then 0 else u 1 k := funext fun k => ver_app3 δ u k
  have hdiv : ∀ k, pd ![δ 0, δ 2] 1 (uy2 ![δ 0, δ 2] (u 0)) k = -pd ![δ 0, δ 2] 0 (ux2 ![δ 0, δ 2] (u 0)) k := by
    intro k
    simp only [pd, ux2, uy2, Forcing.vecFromRot]; ring
  refine components_ver δ _ _ (fun k => ?_) (fun k => ?_) fun q hq => ?_
  · by_cases hk : k ∈ S2
    · rw [(ns3dStrat_exact hn hA _ _ _ _ _ _ _ ((hS k).1 hk)).1, wave_ver]
      have hz : advect S δ (comp v) (comp v 1) (ver k) = 0 := by
        rw [(hadv 1).1 k, c1]
        have : ∀ d, pd ![δ 0, δ 2] d (fun _ : Fin 2 → ℤ => (0 : ℂ)) = fun _ => 0 := fun d => by funext p; simp [pd]
        simp [this, exactProduct]
      have hN : add (navierStokes S δ (f.getD 0) v (ver k)) ⟨0, 0, b (ver k)⟩
          = ⟨-(exactProduct S2 (ux2 ![δ 0, δ 2] (u 0)) (pd ![δ 0, δ 2] 0 (ux2 ![δ 0, δ 2] (u 0))) k
              + exactProduct S2 (uy2 ![δ 0, δ 2] (u 0)) (pd ![δ 0, δ 2] 1 (ux2 ![δ 0, δ 2] (u 0))) k), 0,
            -(exactProduct S2 (ux2 ![δ 0, δ 2] (u 0)) (pd ![δ 0, δ 2] 0 (uy2 ![δ 0, δ 2] (u 0))) k
              + exactProduct S2 (uy2 ![δ 0, δ 2] (u 0)) (pd ![δ 0, δ 2] 1 (uy2 ![δ 0, δ 2] (u 0))) k)
              + if k = 0 then 0 else u 1 k⟩ := by
        have hbk : b (ver k) = _ := ver_app3 δ u k
        simp only [navierStokes, (hadv 0).1 k, (hadv 2).1 k, hz, c0, c2, hf, add, hbk]
        simp
      rw [hN]
      refine proj_ver' _ _ _ ?_ fun ha hb => ?_
      · have hcurl := curl_advect S2 ![δ 0, δ 2] (u 0) k
        have hpb := congrFun (pd_no_mean ![δ 0, δ 2] 0 (u 1)) k
        rw [tendStrat_0, (ns2dStrat_exact hn2 hA2 _ _ _ _ hk).1]
        simp only at hcurl
        rw [← hpb, pd]
        push_cast at hcurl ⊢
        linear_combination -hcurl
      · have k0 : k = 0 := by
          funext d
          fin_cases d
          · have := (mul_eq_zero.1 ha).resolve_left (hδ 0)
            exact_mod_cast this
          · have := (mul_eq_zero.1 hb).resolve_left (hδ 2)
            exact_mod_cast this
        subst k0
        rw [advect_mean, advect_mean]
        simp
    · have h1 : tendStrat ![n 0, n 2] S2 ![δ 0, δ 2] N u 0 k = 0 := by rw [tendStrat_0]; simp only [ns2dStrat, if_neg hk]
      rw [h1, ns3dStrat, if_neg fun h => hk ((hS k).2 h)]
      simp [Forcing.vecFromRot]
  · by_cases hk : k ∈ S2
    · rw [(ns3dStrat_exact hn hA _ _ _ _ _ _ _ ((hS k).1 hk)).2]
      simp only [Bool.false_eq_true, false_and, if_false, Option.getD_some]
      have hvz : (v (ver k)).z = uy2 ![δ 0, δ 2] (u 0) k := ver_app2 δ u k
      have hw : ∀ d, ver k d = ![k 0, 0, k 1] d := fun _ => rfl
      rw [Fin.sum_univ_three, (hvb 0).1, (hvb 1).1, (hvb 2).1, c0, c2, cb, hvz, hw, hw, hw]
      by_cases hk0 : k = 0
      · subst hk0
        simp [uy2, vecFromRot_zero]
      · rw [if_neg hk0]
        rw [tendStrat_1, (ns2dStrat_exact hn2 hA2 _ _ _ _ hk).2, ← pd_no_mean _ 0, ← pd_no_mean _ 1]
        set B : Fld (Fin 2) := fun k => if k = 0 then 0 else u 1 k
        have l1 := exact_leibniz S2 ![δ 0, δ 2] 0 (ux2 ![δ 0, δ 2] (u 0)) B k
        have l2 := exact_leibniz S2 ![δ 0, δ 2] 1 (uy2 ![δ 0, δ 2] (u 0)) B k
        have l3 : exactProduct S2 (pd ![δ 0, δ 2] 1 (uy2 ![δ 0, δ 2] (u 0))) B k
            = -exactProduct S2 (pd ![δ 0, δ 2] 0 (ux2 ![δ 0, δ 2] (u 0))) B k := by
          rw [exact_comm, show pd ![δ 0, δ 2] 1 (uy2 ![δ 0, δ 2] (u 0)) = fun p => (-1) * pd ![δ 0, δ 2] 0 (ux2 ![δ 0, δ 2] (u 0)) p from
            funext fun p => by rw [hdiv]; ring, exact_mul_right, exact_comm]
          ring
        simp only [Matrix.cons_val_zero, Matrix.cons_val_one, Matrix.cons_val] at l1 l2 ⊢
        push_cast at l1 l2 ⊢
        linear_combination -l1 - l2 - l3
    · have h1 : tendStrat ![n 0, n 2] S2 ![δ 0, δ 2] N u 1 k = 0 := by rw [tendStrat_1]; simp only [ns2dStrat, if_neg hk]
      rw [h1, ns3dStrat, if_neg fun h => hk ((hS k).2 h)]
      simp
  · by_cases hk : q ∈ S
    · have hq' := ver_off.2 hq
      obtain ⟨e1, e2⟩ := ns3dStrat_exact hn hA δ f N .none false v b hk
      have hvq : v q = _ := modeState_ver_off δ u hq
      have hbq : b q = 0 := hboff q hq'
      rw [e1, e2]
      constructor
      · have : add (navierStokes S δ (f.getD 0) v q) ⟨0, 0, b q⟩ = ⟨0, 0, 0⟩ := by
          simp only [navierStokes, (hadv 0).2 q hq', (hadv 1).2 q hq', (hadv 2).2 q hq', hvq, hbq, add]
          simp
        rw [this, projV_zero]
      · simp [Fin.sum_univ_three, (hvb 0).2 q hq', (hvb 1).2 q hq', (hvb 2).2 q hq', hvq]
    · rw [ns3dStrat, if_neg hk]
      exact ⟨rfl, rfl⟩

end

end Verif.Symmetry
