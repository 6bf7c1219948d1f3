import Verif.Symmetry.PlaneVer
import Verif.Symmetry.Props

/-! # C96: reductions between the solvers -/

set_option linter.unusedSectionVars false

namespace Verif.Symmetry

open Verif.Fourier Verif.Vectors Verif.Energy Verif.Galerkin Verif.EndToEnd Verif.Uxuy Finset

noncomputable section

theorem waveSq_hor (δ : Fin 3 → ℝ) (k : Fin 2 → ℤ) : waveSq δ (hor k) = waveSq ![δ 0, δ 1] k := by
  simp [waveSq, Fin.sum_univ_three, hor]

theorem horMap_src {δ : Fin 3 → ℝ} {w : Fin 3} {q : Fin 3 → ℤ} {i : Unit × (Fin 2 → ℤ)} (h : (horMap δ).src w q = some i) : q = hor i.2 := by
  simp only [horMap] at h
  split at h
  · rename_i hw
    rw [← Option.some.inj h]
    exact (hor_of hw.2).symm
  · simp at h

/-- The flows of the specification are the velocities of their vorticity. -/
theorem horizontal_app {δ : Fin 3 → ℝ} (hδ : ∀ d, δ d ≠ 0) {u : Fin 3 → Fld (Fin 3)} (h : Horizontal δ u) :
    u = (horMap δ).app (vorticityZ δ u) := by
  have hδ2 : ∀ d, (![δ 0, δ 1] : Fin 2 → ℝ) d ≠ 0 := fun d => by fin_cases d <;> exact hδ _
  funext w q
  by_cases hq : q 2 = 0
  · rw [← hor_of hq]
    generalize (![q 0, q 1] : Fin 2 → ℤ) = k
    set U : Fin 2 → Fld (Fin 2) := ![u 0 ∘ hor, u 1 ∘ hor] with hU
    have hrot : vorticityZ δ u () = rotOf ![δ 0, δ 1] U := by
      rw [rotOf_eq]
      funext k
      simp [vorticityZ, vorticity, pd, hU, hor]
    have hdiv : ∀ k, pd ![δ 0, δ 1] 0 (U 0) k + pd ![δ 0, δ 1] 1 (U 1) k = 0 := fun k => h.divFree (hor k)
    have key : ∀ d, vecOf ![δ 0, δ 1] (vorticityZ δ u ()) d k = U d k := by
      intro d
      by_cases hk : (![δ 0, δ 1] 0 * (k 0 : ℝ)) ^ 2 + (![δ 0, δ 1] 1 * (k 1 : ℝ)) ^ 2 = 0
      · have k0 := wave_zero hδ2 hk
        subst k0
        have hm : ∀ v, u v 0 = 0 := h.mean
        fin_cases d <;> simp [vecOf, ux2, uy2, vecFromRot_zero, hU, hm]
      · rw [hrot]
        exact vecOf_rotOf (hdiv k) hk d
    fin_cases w
    · exact (key 0).symm.trans (hor_app0 δ _ k).symm
    · exact (key 1).symm.trans (hor_app1 δ _ k).symm
    · exact (h.noVz _).trans (hor_app2 δ _ _).symm
  · rw [hor_app_off _ _ _ hq]
    exact h.invariant w q hq

theorem app_horizontal (δ : Fin 3 → ℝ) (r : Unit → Fld (Fin 2)) : Horizontal δ ((horMap δ).app r) := by
  refine ⟨fun v q hq => hor_app_off δ r v hq, hor_app2 δ r, fun q => ?_, fun v => ?_⟩
  · by_cases hq : q 2 = 0
    · rw [← hor_of hq]
      generalize (![q 0, q 1] : Fin 2 → ℤ) = k
      simp only [pd, hor_app0, hor_app1, ux2, uy2, Forcing.vecFromRot]
      simp only [hor, AddMonoidHom.coe_mk, ZeroHom.coe_mk, Matrix.cons_val_zero, Matrix.cons_val_one]
      ring
    · simp [pd, hor_app_off δ r _ hq]
  · rw [← map_zero hor]
    fin_cases v
    · refine (hor_app0 δ r 0).trans ?_
      simp [ux2, vecFromRot_zero]
    · refine (hor_app1 δ r 0).trans ?_
      simp [uy2, vecFromRot_zero]
    · exact hor_app2 δ r _

theorem vorticityZ_app {δ : Fin 3 → ℝ} (hδ : ∀ d, δ d ≠ 0) (r : Unit → Fld (Fin 2)) {k : Fin 2 → ℤ} (hk : k ≠ 0) :
    vorticityZ δ ((horMap δ).app r) () k = r () k := by
  have h : (![δ 0, δ 1] 0 * (k 0 : ℝ)) ^ 2 + (![δ 0, δ 1] 1 * (k 1 : ℝ)) ^ 2 ≠ 0 := fun h =>
    hk (wave_zero (fun d => by fin_cases d <;> exact hδ _) h)
  have e : ![k 0, k 1, 0] = hor k := rfl
  simp only [vorticityZ, pd, e, hor_app0, hor_app1, ux2, uy2, Forcing.vecFromRot, k2not0_eq h]
  have hc : ((![δ 0, δ 1] 0 * (k 0 : ℝ) : ℝ) : ℂ) ^ 2 + ((![δ 0, δ 1] 1 * (k 1 : ℝ) : ℝ) : ℂ) ^ 2 ≠ 0 := by exact_mod_cast h
  simp only [hor, AddMonoidHom.coe_mk, ZeroHom.coe_mk, Matrix.cons_val_zero, Matrix.cons_val_one] at hc ⊢
  generalize δ 0 * (k 0 : ℝ) = a at *
  generalize δ 1 * (k 1 : ℝ) = b at *
  push_cast at hc ⊢
  field_simp
  linear_combination -((a : ℂ) ^ 2 + (b : ℂ) ^ 2) * r () k * Complex.I_sq

/-- C96 (ns3d and ns2d): a run of ns3d started from a horizontal flow which does not depend on `z`, with a force of the same kind, stays
such a flow and its vertical vorticity is the one of the run of ns2d on the horizontal grid: for every scheme, number of steps, rotation
rate `f` and option `no_vz_kz0`, without projection option or with the toroidal one. -/
theorem C96_horizontal {n : Fin 3 → ℕ} (hn : ∀ d, 0 < n d) {S G : Finset (Fin 3 → ℤ)} (hA : NoAlias n S) {S2 G2 : Finset (Fin 2 → ℤ)}
    (hS : ∀ k : Fin 2 → ℤ, k ∈ S2 ↔ ![k 0, k 1, 0] ∈ S) (hG : ∀ k : Fin 2 → ℤ, k ∈ G2 ↔ ![k 0, k 1, 0] ∈ G) {δ : Fin 3 → ℝ}
    (hδ : ∀ d, δ d ≠ 0) (f : Option ℝ) {p : Projection} (hp : p = .none ∨ p = .toroidal) (noVz : Bool) (nu : Dissip.Nu)
    {c2 : Numerics (Fin 2) Unit} {c3 : Numerics (Fin 3) (Fin 3)} (hc : SliceNumerics (fun k => ![k 0, k 1, 0]) c2 c3)
    (hdt : ∀ k, c2.dt k ≠ 0) {F : ℕ → Fin 3 → Fld (Fin 3)} (hF : ∀ m, Horizontal δ (F m)) {u0 : Fin 3 → Fld (Fin 3)}
    (hu : Horizontal δ u0) (k : ℕ) :
    Horizontal δ (runNs3d n S G δ f p noVz nu c3 F u0 k) ∧
      ∀ q, q ≠ 0 → vorticityZ δ (runNs3d n S G δ f p noVz nu c3 F u0 k) () q
        = runNs2d ![n 0, n 1] S2 G2 ![δ 0, δ 1] 0 nu c2 (fun m => vorticityZ δ (F m)) (vorticityZ δ u0) k () q := by
  have key : runNs3d n S G δ f p noVz nu c3 F u0 k
      = (horMap δ).app (runNs2d ![n 0, n 1] S2 G2 ![δ 0, δ 1] 0 nu c2 (fun m => vorticityZ δ (F m)) (vorticityZ δ u0) k) := by
    conv_lhs => rw [horizontal_app hδ hu]
    refine run_map (horMap δ) one_ne_zero (fun w q i hi => ?_) (fun w q i hi => ?_) (fun w q i hi => ?_) (P := id)
      (P' := fun u => components fun k => (projectState p noVz (wave3 δ k) ⟨vec u k, none⟩).v) (fun u => proj_app_hor hp noVz u)
      (id_onArrays G2) rfl (fun u w q => ?_) ⟨hc.1, hc.2.1, ?_, fun w q i hi j => ?_⟩ hdt (fun j w q => ?_) _ k
    · rw [horMap_src hi]; exact (hG i.2).symm
    · rw [horMap_src hi]; exact (hS i.2).symm
    · rw [horMap_src hi, waveSq_hor, one_mul]
    · rw [tend_hor hn hA hS hδ f hp noVz u, Complex.ofReal_one, one_mul]
    · rw [hc.2.2.1]; simp
    · rw [horMap_src hi]; exact hc.2.2.2 j i.2
    · rw [← horizontal_app hδ (hF j), Complex.ofReal_one, one_mul]
  rw [key]
  exact ⟨app_horizontal δ _, fun q hq => vorticityZ_app hδ _ hq⟩

/-! ### ns3d.strat and ns2d.strat -/

theorem waveSq_ver (δ : Fin 3 → ℝ) (k : Fin 2 → ℤ) : waveSq δ (ver k) = waveSq ![δ 0, δ 2] k := by
  simp [waveSq, Fin.sum_univ_three, ver]

theorem verMap_src {δ : Fin 3 → ℝ} {w : Fin 4} {q : Fin 3 → ℤ} {i : Fin 2 × (Fin 2 → ℤ)} (h : (verMap δ).src w q = some i) : q = ver i.2 := by
  simp only [verMap] at h
  split at h
  · rename_i hw
    rw [← Option.some.inj h]
    exact (ver_of hw.2.1).symm
  · simp at h

theorem vertical_app {δ : Fin 3 → ℝ} (hδ : ∀ d, δ d ≠ 0) {u : Fin 4 → Fld (Fin 3)} (h : Vertical δ u) :
    u = (verMap δ).app (inPlane δ u) := by
  have hδ2 : ∀ d, (![δ 0, δ 2] : Fin 2 → ℝ) d ≠ 0 := fun d => by fin_cases d <;> exact hδ _
  funext w q
  by_cases hq : q 1 = 0
  · rw [← ver_of hq]
    generalize (![q 0, q 2] : Fin 2 → ℤ) = k
    set U : Fin 2 → Fld (Fin 2) := ![u 0 ∘ ver, u 2 ∘ ver] with hU
    have hrot : inPlane δ u 0 = rotOf ![δ 0, δ 2] U := by
      rw [rotOf_eq]
      funext k
      simp [inPlane, vorticity, pd, hU, ver]
    have hdiv : ∀ k, pd ![δ 0, δ 2] 0 (U 0) k + pd ![δ 0, δ 2] 1 (U 1) k = 0 := fun k => h.divFree (ver k)
    have key : ∀ d, vecOf ![δ 0, δ 2] (inPlane δ u 0) d k = U d k := by
      intro d
      by_cases hk : (![δ 0, δ 2] 0 * (k 0 : ℝ)) ^ 2 + (![δ 0, δ 2] 1 * (k 1 : ℝ)) ^ 2 = 0
      · have k0 := wave_zero hδ2 hk
        subst k0
        have hm : ∀ v, u v 0 = 0 := h.mean
        fin_cases d <;> simp [vecOf, ux2, uy2, vecFromRot_zero, hU, hm]
      · rw [hrot]
        exact vecOf_rotOf (hdiv k) hk d
    fin_cases w
    · exact (key 0).symm.trans (ver_app0 δ _ k).symm
    · exact (h.noVy _).trans (ver_app1 δ _ _).symm
    · exact (key 1).symm.trans (ver_app2 δ _ k).symm
    · refine Eq.trans ?_ (ver_app3 δ _ k).symm
      by_cases hk : k = 0
      · subst hk
        rw [if_pos rfl, map_zero]
        exact h.mean 3
      · rw [if_neg hk]
        rfl
  · rw [ver_app_off _ _ _ hq]
    exact h.invariant w q hq

theorem app_vertical (δ : Fin 3 → ℝ) (r : Fin 2 → Fld (Fin 2)) : Vertical δ ((verMap δ).app r) := by
  refine ⟨fun v q hq => ver_app_off δ r v hq, ver_app1 δ r, fun q => ?_, fun v => ?_⟩
  · by_cases hq : q 1 = 0
    · rw [← ver_of hq]
      generalize (![q 0, q 2] : Fin 2 → ℤ) = k
      simp only [pd, ver_app0, ver_app2, ux2, uy2, Forcing.vecFromRot]
      simp only [ver, AddMonoidHom.coe_mk, ZeroHom.coe_mk, Matrix.cons_val_zero, Matrix.cons_val_one, Matrix.cons_val]
      ring
    · simp [pd, ver_app_off δ r _ hq]
  · rw [← map_zero ver]
    fin_cases v
    · refine (ver_app0 δ r 0).trans ?_
      simp [ux2, vecFromRot_zero]
    · exact ver_app1 δ r _
    · refine (ver_app2 δ r 0).trans ?_
      simp [uy2, vecFromRot_zero]
    · exact (ver_app3 δ r 0).trans (if_pos rfl)

theorem inPlane_app {δ : Fin 3 → ℝ} (hδ : ∀ d, δ d ≠ 0) (r : Fin 2 → Fld (Fin 2)) (v : Fin 2) {k : Fin 2 → ℤ} (hk : k ≠ 0) :
    inPlane δ ((verMap δ).app r) v k = r v k := by
  have h : (![δ 0, δ 2] 0 * (k 0 : ℝ)) ^ 2 + (![δ 0, δ 2] 1 * (k 1 : ℝ)) ^ 2 ≠ 0 := fun h =>
    hk (wave_zero (fun d => by fin_cases d <;> exact hδ _) h)
  have e : ![k 0, 0, k 1] = ver k := rfl
  fin_cases v
  · change pd δ 0 ((verMap δ).app r 2) ![k 0, 0, k 1] - pd δ 2 ((verMap δ).app r 0) ![k 0, 0, k 1] = r 0 k
    simp only [pd, e, ver_app0, ver_app2, ux2, uy2, Forcing.vecFromRot, k2not0_eq h]
    have hc : ((![δ 0, δ 2] 0 * (k 0 : ℝ) : ℝ) : ℂ) ^ 2 + ((![δ 0, δ 2] 1 * (k 1 : ℝ) : ℝ) : ℂ) ^ 2 ≠ 0 := by exact_mod_cast h
    simp only [ver, AddMonoidHom.coe_mk, ZeroHom.coe_mk, Matrix.cons_val_zero, Matrix.cons_val_one, Matrix.cons_val] at hc ⊢
    generalize δ 0 * (k 0 : ℝ) = a at *
    generalize δ 2 * (k 1 : ℝ) = b at *
    push_cast at hc ⊢
    field_simp
    linear_combination -((a : ℂ) ^ 2 + (b : ℂ) ^ 2) * r 0 k * Complex.I_sq
  · exact (ver_app3 δ r k).trans (if_neg hk)

/-- C96 (ns3d.strat and ns2d.strat): a run of ns3d.strat without rotation, started from a flow in the planes `(x, z)` which does not
depend on `y`, with a force of the same kind, stays such a flow; its vorticity and its buoyancy are those of the run of ns2d.strat. -/
theorem C96_vertical {n : Fin 3 → ℕ} (hn : ∀ d, 0 < n d) {S G : Finset (Fin 3 → ℤ)} (hA : NoAlias n S) {S2 G2 : Finset (Fin 2 → ℤ)}
    (hS : ∀ k : Fin 2 → ℤ, k ∈ S2 ↔ ![k 0, 0, k 1] ∈ S) (hG : ∀ k : Fin 2 → ℤ, k ∈ G2 ↔ ![k 0, 0, k 1] ∈ G) {δ : Fin 3 → ℝ}
    (hδ : ∀ d, δ d ≠ 0) {f : Option ℝ} (hf : f = none ∨ f = some 0) (N : ℝ) (nu : Dissip.Nu)
    {c2 : Numerics (Fin 2) (Fin 2)} {c3 : Numerics (Fin 3) (Fin 4)} (hc : SliceNumerics (fun k => ![k 0, 0, k 1]) c2 c3)
    (hdt : ∀ k, c2.dt k ≠ 0) {F : ℕ → Fin 4 → Fld (Fin 3)} (hF : ∀ m, Vertical δ (F m)) {u0 : Fin 4 → Fld (Fin 3)}
    (hu : Vertical δ u0) (k : ℕ) :
    Vertical δ (runStrat3d n S G δ f N .none false nu c3 F u0 k) ∧
      ∀ v q, q ≠ 0 → inPlane δ (runStrat3d n S G δ f N .none false nu c3 F u0 k) v q
        = runStrat2d ![n 0, n 2] S2 G2 ![δ 0, δ 2] N nu c2 (fun m => inPlane δ (F m)) (inPlane δ u0) k v q := by
  have hf' : f.getD 0 = 0 := by rcases hf with rfl | rfl <;> rfl
  have key : runStrat3d n S G δ f N .none false nu c3 F u0 k
      = (verMap δ).app (runStrat2d ![n 0, n 2] S2 G2 ![δ 0, δ 2] N nu c2 (fun m => inPlane δ (F m)) (inPlane δ u0) k) := by
    conv_lhs => rw [vertical_app hδ hu]
    refine run_map (verMap δ) one_ne_zero (fun w q i hi => ?_) (fun w q i hi => ?_) (fun w q i hi => ?_) (P := id)
      (P' := fun u => components4 fun k => projectState .none false (wave3 δ k) (modeState u k)) (fun u => proj_app_ver u)
      (id_onArrays G2) rfl (fun u w q => ?_) ⟨hc.1, hc.2.1, ?_, fun w q i hi j => ?_⟩ hdt (fun j w q => ?_) _ k
    · rw [verMap_src hi]; exact (hG i.2).symm
    · rw [verMap_src hi]; exact (hS i.2).symm
    · rw [verMap_src hi, waveSq_ver, one_mul]
    · rw [tend_ver hn hA hS hδ hf' N u, Complex.ofReal_one, one_mul]
    · rw [hc.2.2.1]; simp
    · rw [verMap_src hi]; exact hc.2.2.2 j i.2
    · rw [← vertical_app hδ (hF j), Complex.ofReal_one, one_mul]
  rw [key]
  exact ⟨app_vertical δ _, fun v q hq => inPlane_app hδ _ v hq⟩

end

end Verif.Symmetry
