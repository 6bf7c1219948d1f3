import Verif.ExactFlows.Lemmas
import Verif.Symmetry.Mirror3

/-! # C108: lemmas in three dimensions and for the shallow water -/

set_option linter.unusedSectionVars false

namespace Verif.ExactFlows

open Verif.Fourier Verif.Vectors Verif.Energy Verif.Galerkin Verif.Schemes Verif.EndToEnd Verif.Symmetry Verif.Invariants Verif.Convergence Finset

noncomputable section

section three

variable {δ : Fin 3 → ℝ} {S : Finset (Fin 3 → ℤ)}

theorem grid_insert (n : Fin 3 → ℕ) (lam : ℂ) {a : Fld (Fin 3)} (ha : ∀ k, k ∉ S → a k = 0) (j : Pt n) :
    gridVal n (insert 0 S) (fun k => lam * a k) j = lam * gridVal n S a j := by
  simp only [gridVal, mul_sum, ← mul_assoc]
  by_cases h : (0 : Fin 3 → ℤ) ∈ S
  · rw [insert_eq_of_mem h]
  · rw [sum_insert h, ha 0 h]
    simp

theorem lamb_beltrami {lam : ℂ} {u : Fin 3 → Fld (Fin 3)} (hB : Beltrami δ lam u) (hu : ∀ v k, k ∉ S → u v k = 0) {f : Option ℝ}
    (hf : f.getD 0 = 0) (n : Fin 3 → ℕ) (k : Fin 3 → ℤ) : lamb n S δ f (vec u) k = ⟨0, 0, 0⟩ := by
  have hom : omegaFft δ f (vec u) = fun k => ⟨lam * u 0 k, lam * u 1 k, lam * u 2 k⟩ := by
    funext k
    simp only [omegaFft, curl, vec, wave3, hf, V3.mk.injEq]
    have hx := hB.x k
    have hy := hB.y k
    have hz := hB.z k
    simp only [pd] at hx hy hz
    refine ⟨?_, ?_, ?_⟩
    · linear_combination hx
    · linear_combination hy
    · simp only [Complex.ofReal_zero, ite_self, add_zero]
      linear_combination hz
  simp only [lamb, hom, fftVec]
  have hc : ∀ j, cross (gridVec n S (vec u) j) (gridVec n (insert 0 S) (fun k => ⟨lam * u 0 k, lam * u 1 k, lam * u 2 k⟩) j) = ⟨0, 0, 0⟩ := by
    intro j
    simp only [gridVec, cross, grid_insert n lam (hu _), vec, V3.mk.injEq]
    refine ⟨?_, ?_, ?_⟩ <;> ring
  simp only [hc, fftCoef_zero]

/-- Unchanged by the projection. -/
def Fixed (δ : Fin 3 → ℝ) (p : Projection) (noVz : Bool) (u : Fin 3 → Fld (Fin 3)) : Prop :=
  ∀ k, projV p noVz (wave3 δ k) (vec u k) = vec u k

theorem fixed_add {p : Projection} {noVz : Bool} {u w : Fin 3 → Fld (Fin 3)} (hu : Fixed δ p noVz u) (hw : Fixed δ p noVz w) :
    Fixed δ p noVz fun v k => u v k + w v k := by
  intro k
  have h := projV_linear p noVz (wave3 δ k) 1 1 (vec u k) (vec w k)
  rw [hu k, hw k] at h
  simpa only [one_mul, vec] using h

theorem fixed_mul {p : Projection} {noVz : Bool} {u : Fin 3 → Fld (Fin 3)} (hu : Fixed δ p noVz u) (g : (Fin 3 → ℤ) → ℂ) :
    Fixed δ p noVz fun v k => g k * u v k := by
  intro k
  have h := projV_linear p noVz (wave3 δ k) (g k) 0 (vec u k) (vec u k)
  rw [hu k] at h
  simpa only [zero_mul, add_zero, vec] using h

theorem fixed_of {p : Projection} {noVz : Bool} {u : Fin 3 → Fld (Fin 3)} (hu : ∀ v k, k ∉ S → u v k = 0)
    (h : ∀ k ∈ S, projV p noVz (wave3 δ k) (vec u k) = vec u k) : Fixed δ p noVz u := by
  intro k
  by_cases hk : k ∈ S
  · exact h k hk
  · have : vec u k = ⟨0, 0, 0⟩ := by simp only [vec, hu _ k hk]
    rw [this, EndToEnd.projV_zero]

theorem project_fixed {G : Finset (Fin 3 → ℤ)} {p : Projection} {noVz : Bool} {a : Arr (Fin 3 × G)} (h : Fixed δ p noVz (fields G a)) :
    project3d G δ p noVz a = a := by
  simp only [project3d, projectState_v]
  have : (fun k => projV p noVz (wave3 δ k) (vec (fields G a) k)) = vec (fields G a) := funext h
  rw [this, components_vec, EndToEnd.array_fields]

theorem comps_zero {F : (Fin 3 → ℤ) → V3} {k : Fin 3 → ℤ} (h : F k = ⟨0, 0, 0⟩) (v : Fin 3) : components F v k = 0 := by
  fin_cases v <;> simp [components, h]

theorem tend3d_of_lamb {u : Fin 3 → Fld (Fin 3)} {f : Option ℝ} {n : Fin 3 → ℕ} (h : ∀ k, lamb n S δ f (vec u) k = ⟨0, 0, 0⟩)
    (p : Projection) (noVz : Bool) (v : Fin 3) (k : Fin 3 → ℤ) : tend3d n S δ f p noVz u v k = 0 := by
  refine comps_zero ?_ v
  simp only [ns3d, projectState_v, h, EndToEnd.projV_zero, ite_self]

/-! Parallel flows -/

theorem comp_vec (u : Fin 3 → Fld (Fin 3)) : comp (vec u) = u := by
  funext d k
  fin_cases d <;> rfl

theorem navier_line {a : Fin 3 → ℝ} {u : Fin 3 → Fld (Fin 3)} (hu : Perpendicular a u) (hs : ∀ d q, u d q ≠ 0 → q ∈ along δ a)
    (k : Fin 3 → ℤ) : navierStokes S δ 0 (vec u) k = ⟨0, 0, 0⟩ := by
  simp only [navierStokes, comp_vec, advect_line hu (hs _)]
  simp

theorem ns3d_line {n : Fin 3 → ℕ} (hn : ∀ d, 0 < n d) (hS : NoAlias n S) {a : Fin 3 → ℝ} {u : Fin 3 → Fld (Fin 3)} (hu : Perpendicular a u)
    (hs : ∀ d q, u d q ≠ 0 → q ∈ along δ a) {f : Option ℝ} (hf : f.getD 0 = 0) (p : Projection) (noVz : Bool) (v : Fin 3)
    (k : Fin 3 → ℤ) : tend3d n S δ f p noVz u v k = 0 := by
  refine comps_zero ?_ v
  by_cases hk : k ∈ S
  · rw [ns3d_exact hn hS _ _ _ _ _ hk, hf, navier_line hu hs, EndToEnd.projV_zero]
  · simp [ns3d, hk]

/-- A vertical force at a mode which varies only along the vertical is a gradient. -/
theorem projV_vertical {k : K3} (hx : k.x = 0) (hy : k.y = 0) (hz : k.z ≠ 0) (p : Projection) (noVz : Bool) (b : ℂ) :
    projV p noVz k ⟨0, 0, b⟩ = ⟨0, 0, 0⟩ := by
  have h := projector_grad p k (-Complex.I * b / k.z)
  have hz' : (k.z : ℂ) ≠ 0 := by exact_mod_cast hz
  have e : Complex.I * (k.z : ℂ) * (-Complex.I * b / k.z) = b := by
    field_simp
    linear_combination -b * Complex.I_sq
  rw [hx, hy, e] at h
  simp only [Complex.ofReal_zero, mul_zero, zero_mul] at h
  simp only [projV, h, zero, ite_self]

theorem strat3_line {n : Fin 3 → ℕ} (hn : ∀ d, 0 < n d) (hS : NoAlias n S) (hδ : δ 2 ≠ 0) {a : Fin 3 → ℝ} {u : Fin 4 → Fld (Fin 3)}
    (hu : Perpendicular a (velocity u)) (hs : ∀ d q, u d q ≠ 0 → q ∈ along δ a)
    (hb : ∀ k, u 3 k ≠ 0 → k 0 = 0 ∧ k 1 = 0 ∧ k 2 ≠ 0) {N : ℝ} (hz : N = 0 ∨ ∀ k, u 2 k = 0) {f : Option ℝ} (hf : f.getD 0 = 0)
    (p : Projection) (noVz : Bool) (v : Fin 4) (k : Fin 3 → ℤ) : tend3dStrat n S δ f N p noVz u v k = 0 := by
  by_cases hk : k ∈ S
  swap
  · fin_cases v <;> simp [tend3dStrat, components4, ns3dStrat, hk]
  have hvec : (fun k => (modeState u k).v) = vec (velocity u) := rfl
  have hsv : ∀ d q, velocity u d q ≠ 0 → q ∈ along δ a := by
    intro d q h
    fin_cases d
    · exact hs 0 q h
    · exact hs 1 q h
    · exact hs 2 q h
  obtain ⟨e1, e2⟩ := ns3dStrat_exact hn hS δ f N p noVz (vec (velocity u)) (u 3) hk
  have e1' : (ns3dStrat n S δ f N p noVz (vec (velocity u)) (u 3) k).v = ⟨0, 0, 0⟩ := by
    rw [e1, hf, navier_line hu hsv]
    simp only [add, zero_add]
    by_cases h : u 3 k = 0
    · rw [h, EndToEnd.projV_zero]
    · obtain ⟨h0, h1, h2⟩ := hb k h
      refine projV_vertical ?_ ?_ ?_ p noVz _
      · simp [wave3, h0]
      · simp [wave3, h1]
      · simp only [wave3]
        exact mul_ne_zero hδ (by exact_mod_cast h2)
  have e2' : (ns3dStrat n S δ f N p noVz (vec (velocity u)) (u 3) k).b.getD 0 = 0 := by
    rw [e2, comp_vec, divergence_line hu hsv (hs 3)]
    have : (N : ℂ) ^ 2 * (vec (velocity u) k).z = 0 := by
      rcases hz with h | h
      · simp [h]
      · have : (vec (velocity u) k).z = 0 := h k
        rw [this, mul_zero]
    rw [this]
    simp
  simp only [tend3dStrat, hvec]
  fin_cases v <;> simp [components4, e1', e2']

theorem project4_fixed {G : Finset (Fin 3 → ℤ)} (hδ : δ 2 ≠ 0) {p : Projection} {noVz : Bool} {a : Arr (Fin 4 × G)}
    (h : Fixed δ p noVz (velocity (fields G a))) (hb : ∀ k, fields G a 3 k ≠ 0 → k 2 ≠ 0) : project3dStrat G δ p noVz a = a := by
  have e : (components4 fun k => projectState p noVz (wave3 δ k) (modeState (fields G a) k)) = fields G a := by
    funext v k
    have hv : (projectState p noVz (wave3 δ k) (modeState (fields G a) k)).v = vec (velocity (fields G a)) k := by
      rw [← h k]; exact projectState_v _ _ _ _ _
    have hb' : (projectState p noVz (wave3 δ k) (modeState (fields G a) k)).b.getD 0 = fields G a 3 k := by
      simp only [projectState, modeState, abs_eq_zero]
      split
      · rename_i hz
        by_contra hne
        have h3 : fields G a 3 k ≠ 0 := fun h => hne (by simp [h])
        have := hz.2
        simp only [wave3, mul_eq_zero, Int.cast_eq_zero] at this
        exact this.elim hδ (hb k h3)
      · simp
    have hx : (projectState p noVz (wave3 δ k) (modeState (fields G a) k)).v.x = fields G a 0 k := by rw [hv]; rfl
    have hy : (projectState p noVz (wave3 δ k) (modeState (fields G a) k)).v.y = fields G a 1 k := by rw [hv]; rfl
    have hz : (projectState p noVz (wave3 δ k) (modeState (fields G a) k)).v.z = fields G a 2 k := by rw [hv]; rfl
    fin_cases v
    · exact hx
    · exact hy
    · exact hz
    · exact hb'
  simp only [project3dStrat]
  rw [e, EndToEnd.array_fields]

end three

/-! ### Shallow water -/

section sw

variable {S : Finset (Fin 2 → ℤ)} {n : Fin 2 → ℕ}

theorem sw1l_line (p : Sw1l.Par) (hn : ∀ d, 0 < n d) (hS : NoAlias n S) {a : Fin 2 → ℝ} {u : Fin 3 → Fld (Fin 2)}
    (hu : Perpendicular a ![u 0, u 1]) (hs : ∀ d q, u d q ≠ 0 → q ∈ along p.δ a) (hg : Geostrophic p u) (v : Fin 3) (k : Fin 2 → ℤ) :
    tendSw1l p n S u v k = 0 := by
  by_cases hk : k ∈ S
  swap
  · exact tendSw1l_out p u v hk
  have hsv : ∀ d q, (![u 0, u 1] : Fin 2 → Fld (Fin 2)) d q ≠ 0 → q ∈ along p.δ a := by
    intro d q h
    fin_cases d
    · exact hs 0 q h
    · exact hs 1 q h
  obtain ⟨e0, e1, e2⟩ := tendSw1l_exact p hn hS u hk
  have hx := hg.x k
  have hy := hg.y k
  have hd : pd p.δ 0 (u 0) k + pd p.δ 1 (u 1) k = 0 := by
    by_cases h : ∀ d, (![u 0, u 1] : Fin 2 → Fld (Fin 2)) d k = 0
    · have h0 : u 0 k = 0 := h 0
      have h1 : u 1 k = 0 := h 1
      simp [pd, h0, h1]
    · push Not at h
      obtain ⟨d, hd⟩ := h
      have h := line_dot hu (hsv d k hd) k
      simp only [Fin.sum_univ_two, Matrix.cons_val_zero, Matrix.cons_val_one] at h
      simp only [pd]
      linear_combination Complex.I * h
  have hdiv := divergence_line (S := S) hu hsv (hs 2) k
  have hsw : ∀ d, exactProduct S (u 2) ((![u 0, u 1] : Fin 2 → Fld (Fin 2)) d) k = exactProduct S ((![u 0, u 1] : Fin 2 → Fld (Fin 2)) d) (u 2) k := by
    intro d
    simp only [exactProduct]
    rw [sum_comm]
    refine sum_congr rfl fun q _ => sum_congr rfl fun r _ => ?_
    rw [add_comm, mul_comm]
  simp only [Fin.sum_univ_two] at hdiv
  rw [← hsw 0, ← hsw 1] at hdiv
  simp only [Matrix.cons_val_zero, Matrix.cons_val_one] at hdiv
  fin_cases v
  · refine e0.trans ?_
    rw [advect_line hu (hs 0), hx]; ring
  · refine e1.trans ?_
    rw [advect_line hu (hs 1), ← hy]; ring
  · refine e2.trans ?_
    rw [hd]
    simp only [pd]
    linear_combination -hdiv

theorem vel2_perp {δ a : Fin 2 → ℝ} {rot : Fld (Fin 2)} (hr : ∀ q, rot q ≠ 0 → q ∈ along δ a) :
    Perpendicular a (vel2 δ rot) := by
  intro k
  by_cases h : rot k = 0
  · simp [vel2, ux2, uy2, Forcing.vecFromRot, h, Fin.sum_univ_two]
  obtain ⟨s, hs⟩ := hr k h
  simp only [vel2, ux2, uy2, Forcing.vecFromRot, Fin.sum_univ_two, Matrix.cons_val_zero, Matrix.cons_val_one, hs]
  push_cast
  ring

theorem modified_line (p : Sw1l.Par) (hδ : ∀ d, p.δ d ≠ 0) (hn : ∀ d, 0 < n d) (hS : NoAlias n S) {a : Fin 2 → ℝ} {u : Fin 3 → Fld (Fin 2)}
    (hu : Perpendicular a ![u 0, u 1]) (hs : ∀ d q, u d q ≠ 0 → q ∈ along p.δ a) (hg : Geostrophic p u) (v : Fin 3) (k : Fin 2 → ℤ) :
    tendModified p n S u v k = 0 := by
  by_cases hk : k ∈ S
  swap
  · exact tendModified_out p u v hk
  obtain ⟨e0, e1, e2⟩ := tendModified_exact p hn hS hδ u hk
  have hx := hg.x k
  have hy := hg.y k
  have hrot : ∀ q, rotSw p.δ u q ≠ 0 → q ∈ along p.δ a := by
    intro q h
    by_contra hq
    have h0 : u 0 q = 0 := by_contra fun h => hq (hs 0 q h)
    have h1 : u 1 q = 0 := by_contra fun h => hq (hs 1 q h)
    exact h (by simp [rotSw, pd, h0, h1])
  have hp := vel2_perp hrot
  have hd : pd p.δ 0 (u 0) k + pd p.δ 1 (u 1) k = 0 := by
    by_cases h : u 0 k = 0 ∧ u 1 k = 0
    · simp [pd, h.1, h.2]
    · have hk' : k ∈ along p.δ a := by
        by_contra hq
        exact h ⟨by_contra fun h => hq (hs 0 k h), by_contra fun h => hq (hs 1 k h)⟩
      have h := line_dot hu hk' k
      simp only [Fin.sum_univ_two, Matrix.cons_val_zero, Matrix.cons_val_one] at h
      simp only [pd]
      linear_combination Complex.I * h
  fin_cases v
  · refine e0.trans ?_
    rw [advect_line hp (hs 0), hx]; ring
  · refine e1.trans ?_
    rw [advect_line hp (hs 1), ← hy]; ring
  · refine e2.trans ?_
    rw [advect_line hp (hs 2), hd]; ring

end sw

end

end Verif.ExactFlows
