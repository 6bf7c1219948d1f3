import Verif.Symmetry.Units
import Verif.Symmetry.Mirror
import Verif.Symmetry.ModelSw1l
import Verif.Symmetry.SpecSw1l
import Verif.Galerkin.Props
import Verif.Galerkin.PropsSw1lMod

/-! # C95, C98: the tendencies of the shallow water -/

set_option linter.unusedSectionVars false

namespace Verif.Symmetry

open Verif.Fourier Verif.Vectors Verif.Energy Verif.Galerkin Verif.EndToEnd Finset

noncomputable section

variable {n : Fin 2 → ℕ} {S : Finset (Fin 2 → ℤ)}

/-- The tendencies of sw1l with exact products. -/
theorem tendSw1l_exact (p : Sw1l.Par) (hn : ∀ d, 0 < n d) (hS : NoAlias n S) (u : Fin 3 → Fld (Fin 2)) {k : Fin 2 → ℤ} (hk : k ∈ S) :
    tendSw1l p n S u 0 k = -advect S p.δ ![u 0, u 1] (u 0) k + p.f * u 1 k - p.c2 * pd p.δ 0 (u 2) k ∧
    tendSw1l p n S u 1 k = -advect S p.δ ![u 0, u 1] (u 1) k - p.f * u 0 k - p.c2 * pd p.δ 1 (u 2) k ∧
    tendSw1l p n S u 2 k = -(pd p.δ 0 (u 0) k + pd p.δ 1 (u 1) k)
      - (pd p.δ 0 (exactProduct S (u 2) (u 0)) k + pd p.δ 1 (exactProduct S (u 2) (u 1)) k) := by
  obtain ⟨h1, h2, h3⟩ := C57_sw1l p hn hS (uEta u) hk
  refine ⟨?_, ?_, ?_⟩ <;> simp only [tendSw1l, ofUEta, h1, h2, h3, uEta]

theorem tendSw1l_out (p : Sw1l.Par) (u : Fin 3 → Fld (Fin 2)) (v : Fin 3) {k : Fin 2 → ℤ} (hk : k ∉ S) : tendSw1l p n S u v k = 0 := by
  fin_cases v <;> simp [tendSw1l, ofUEta, Sw1l.sw1l, Sw1l.trunc, hk]

theorem tendModified_out (p : Sw1l.Par) (u : Fin 3 → Fld (Fin 2)) (v : Fin 3) {k : Fin 2 → ℤ} (hk : k ∉ S) :
    tendModified p n S u v k = 0 := by
  fin_cases v <;> simp [tendModified, ofUEta, Sw1l.modified, Sw1l.trunc, hk]

/-- The vertical vorticity. -/
def rotSw (δ : Fin 2 → ℝ) (u : Fin 3 → Fld (Fin 2)) : Fld (Fin 2) := fun k => pd δ 0 (u 1) k - pd δ 1 (u 0) k

theorem tendModified_exact (p : Sw1l.Par) (hn : ∀ d, 0 < n d) (hS : NoAlias n S) (hδ : ∀ d, p.δ d ≠ 0) (u : Fin 3 → Fld (Fin 2))
    {k : Fin 2 → ℤ} (hk : k ∈ S) :
    tendModified p n S u 0 k = -advect S p.δ (vel2 p.δ (rotSw p.δ u)) (u 0) k + p.f * u 1 k - p.c2 * pd p.δ 0 (u 2) k ∧
    tendModified p n S u 1 k = -advect S p.δ (vel2 p.δ (rotSw p.δ u)) (u 1) k - p.f * u 0 k - p.c2 * pd p.δ 1 (u 2) k ∧
    tendModified p n S u 2 k = -advect S p.δ (vel2 p.δ (rotSw p.δ u)) (u 2) k - (pd p.δ 0 (u 0) k + pd p.δ 1 (u 1) k) := by
  obtain ⟨h1, h2, h3⟩ := C57_sw1l_modified (p := p) hn hS hδ (uEta u) (velocity2_ux2 hδ (rotSw p.δ u)) hk
  refine ⟨?_, ?_, ?_⟩ <;> simp only [tendModified, ofUEta, h1, h2, h3, uEta, vel2]

theorem advect_two (δ : Fin 2 → ℝ) (U : Fin 2 → Fld (Fin 2)) (a : Fld (Fin 2)) (k : Fin 2 → ℤ) :
    advect S δ U a k = exactProduct S (U 0) (pd δ 0 a) k + exactProduct S (U 1) (pd δ 1 a) k := by
  simp [advect, Fin.sum_univ_two]

/-! ### Units -/

theorem advect_units (δ s : Fin 2 → ℝ) {ℓ : ℝ} (a b : ℂ) {U U' : Fin 2 → Fld (Fin 2)} (hU : ∀ d, U' d = fun q => a * phase δ s q * U d q)
    (w : Fld (Fin 2)) (k : Fin 2 → ℤ) :
    advect S (fun d => δ d / ℓ) U' (fun q => b * phase δ s q * w q) k = a * b / ℓ * phase δ s k * advect S δ U w k := by
  rw [advect_two, advect_two, hU 0, hU 1, pd_transformed, pd_transformed, exact_transformed, exact_transformed]
  ring

theorem transformed_sw (δ s : Fin 2 → ℝ) (ℓ τ : ℝ) (u : Fin 3 → Fld (Fin 2)) (v : Fin 3) :
    transformed δ s (factorsSw ℓ τ) u v = fun q => ((factorsSw ℓ τ v : ℝ) : ℂ) * phase δ s q * u v q := rfl

theorem exact_transformed_fun (S : Finset (Fin 2 → ℤ)) (δ s : Fin 2 → ℝ) (a b : ℂ) (u v : Fld (Fin 2)) :
    exactProduct S (fun p => a * phase δ s p * u p) (fun p => b * phase δ s p * v p) = fun k => a * b * phase δ s k * exactProduct S u v k :=
  funext fun k => exact_transformed S δ s a b u v k

theorem new_pd (p : Sw1l.Par) (s : Fin 2 → ℝ) (ℓ τ : ℝ) (u : Fin 3 → Fld (Fin 2)) (d : Fin 2) (v : Fin 3) (k : Fin 2 → ℤ) :
    pd (newPar ℓ τ p).δ d (transformed p.δ s (factorsSw ℓ τ) u v) k = (factorsSw ℓ τ v : ℝ) / ℓ * phase p.δ s k * pd p.δ d (u v) k :=
  congrFun (pd_transformed p.δ s d ((factorsSw ℓ τ v : ℝ) : ℂ) (u v)) k

theorem new_advect (p : Sw1l.Par) (s : Fin 2 → ℝ) (ℓ τ : ℝ) (u : Fin 3 → Fld (Fin 2)) {U U' : Fin 2 → Fld (Fin 2)}
    (hU : ∀ d, U' d = fun q => ((ℓ / τ : ℝ) : ℂ) * phase p.δ s q * U d q) (v : Fin 3) (k : Fin 2 → ℤ) :
    advect S (newPar ℓ τ p).δ U' (transformed p.δ s (factorsSw ℓ τ) u v) k
      = ((ℓ / τ : ℝ) : ℂ) * (factorsSw ℓ τ v : ℝ) / ℓ * phase p.δ s k * advect S p.δ U (u v) k :=
  advect_units p.δ s _ _ hU (u v) k

theorem new_prod (p : Sw1l.Par) (s : Fin 2 → ℝ) (ℓ τ : ℝ) (u : Fin 3 → Fld (Fin 2)) (d : Fin 2) (v w : Fin 3) (k : Fin 2 → ℤ) :
    pd (newPar ℓ τ p).δ d (exactProduct S (transformed p.δ s (factorsSw ℓ τ) u v) (transformed p.δ s (factorsSw ℓ τ) u w)) k
      = (factorsSw ℓ τ v : ℝ) * (factorsSw ℓ τ w : ℝ) / ℓ * phase p.δ s k * pd p.δ d (exactProduct S (u v) (u w)) k := by
  rw [transformed_sw, transformed_sw, exact_transformed_fun]
  exact congrFun (pd_transformed p.δ s d _ _) k

theorem new_val (p : Sw1l.Par) (s : Fin 2 → ℝ) (ℓ τ : ℝ) (u : Fin 3 → Fld (Fin 2)) (v : Fin 3) (k : Fin 2 → ℤ) :
    transformed p.δ s (factorsSw ℓ τ) u v k = (factorsSw ℓ τ v : ℝ) * phase p.δ s k * u v k := rfl

theorem factorsSw_0 (ℓ τ : ℝ) : factorsSw ℓ τ 0 = ℓ / τ := rfl
theorem factorsSw_1 (ℓ τ : ℝ) : factorsSw ℓ τ 1 = ℓ / τ := rfl
theorem factorsSw_2 (ℓ τ : ℝ) : factorsSw ℓ τ 2 = 1 := rfl

theorem tendSw1l_units (hn : ∀ d, 0 < n d) (hS : NoAlias n S) (p : Sw1l.Par) (s : Fin 2 → ℝ) {ℓ τ : ℝ}
    (hℓ : ℓ ≠ 0) (hτ : τ ≠ 0) (u : Fin 3 → Fld (Fin 2)) (v : Fin 3) (k : Fin 2 → ℤ) :
    τ * tendSw1l (newPar ℓ τ p) n S (transformed p.δ s (factorsSw ℓ τ) u) v k
      = transformed p.δ s (factorsSw ℓ τ) (tendSw1l p n S u) v k := by
  have hc : (τ : ℂ) ≠ 0 := by exact_mod_cast hτ
  have hl : (ℓ : ℂ) ≠ 0 := by exact_mod_cast hℓ
  rw [new_val]
  by_cases hk : k ∈ S
  · obtain ⟨a1, a2, a3⟩ := tendSw1l_exact (newPar ℓ τ p) hn hS (transformed p.δ s (factorsSw ℓ τ) u) hk
    obtain ⟨b1, b2, b3⟩ := tendSw1l_exact p hn hS u hk
    have hU : ∀ d, ![transformed p.δ s (factorsSw ℓ τ) u 0, transformed p.δ s (factorsSw ℓ τ) u 1] d
        = fun q => ((ℓ / τ : ℝ) : ℂ) * phase p.δ s q * (![u 0, u 1] : Fin 2 → Fld (Fin 2)) d q := by
      intro d; fin_cases d <;> rfl
    fin_cases v
    · change _ * tendSw1l _ n S _ 0 k = (factorsSw ℓ τ 0 : ℝ) * _ * tendSw1l _ n S _ 0 k
      rw [a1, b1, new_advect p s ℓ τ u hU, new_pd, new_val, factorsSw_0, factorsSw_1, factorsSw_2]
      simp only [newPar]
      push_cast
      field_simp
    · change _ * tendSw1l _ n S _ 1 k = (factorsSw ℓ τ 1 : ℝ) * _ * tendSw1l _ n S _ 1 k
      rw [a2, b2, new_advect p s ℓ τ u hU, new_pd, new_val, factorsSw_0, factorsSw_1, factorsSw_2]
      simp only [newPar]
      push_cast
      field_simp
    · change _ * tendSw1l _ n S _ 2 k = (factorsSw ℓ τ 2 : ℝ) * _ * tendSw1l _ n S _ 2 k
      rw [a3, b3, new_prod, new_prod, new_pd, new_pd, factorsSw_0, factorsSw_1, factorsSw_2]
      push_cast
      field_simp
  · rw [tendSw1l_out _ _ _ hk, tendSw1l_out _ _ _ hk, mul_zero, mul_zero]

theorem rotSw_units (p : Sw1l.Par) (s : Fin 2 → ℝ) {ℓ τ : ℝ} (hℓ : ℓ ≠ 0) (u : Fin 3 → Fld (Fin 2)) :
    rotSw (newPar ℓ τ p).δ (transformed p.δ s (factorsSw ℓ τ) u) = fun q => ((1 / τ : ℝ) : ℂ) * phase p.δ s q * rotSw p.δ u q := by
  have hl : (ℓ : ℂ) ≠ 0 := by exact_mod_cast hℓ
  funext q
  simp only [rotSw]
  rw [new_pd, new_pd, factorsSw_0, factorsSw_1]
  push_cast
  field_simp

theorem tendModified_units (hn : ∀ d, 0 < n d) (hS : NoAlias n S) (p : Sw1l.Par) (hδ : ∀ d, p.δ d ≠ 0) (s : Fin 2 → ℝ) {ℓ τ : ℝ}
    (hℓ : ℓ ≠ 0) (hτ : τ ≠ 0) (u : Fin 3 → Fld (Fin 2)) (v : Fin 3) (k : Fin 2 → ℤ) :
    τ * tendModified (newPar ℓ τ p) n S (transformed p.δ s (factorsSw ℓ τ) u) v k
      = transformed p.δ s (factorsSw ℓ τ) (tendModified p n S u) v k := by
  have hc : (τ : ℂ) ≠ 0 := by exact_mod_cast hτ
  have hl : (ℓ : ℂ) ≠ 0 := by exact_mod_cast hℓ
  rw [new_val]
  by_cases hk : k ∈ S
  · obtain ⟨a1, a2, a3⟩ := tendModified_exact (newPar ℓ τ p) hn hS (fun d => div_ne_zero (hδ d) hℓ)
      (transformed p.δ s (factorsSw ℓ τ) u) hk
    obtain ⟨b1, b2, b3⟩ := tendModified_exact p hn hS hδ u hk
    have hU : ∀ d, vel2 (newPar ℓ τ p).δ (rotSw (newPar ℓ τ p).δ (transformed p.δ s (factorsSw ℓ τ) u)) d
        = fun q => ((ℓ / τ : ℝ) : ℂ) * phase p.δ s q * vel2 p.δ (rotSw p.δ u) d q := by
      intro d
      rw [rotSw_units p s hℓ]
      obtain ⟨e1, e2⟩ := ux2_transformed hℓ p.δ s ((1 / τ : ℝ) : ℂ) (rotSw p.δ u)
      have e : ∀ q, (ℓ : ℂ) * ((1 / τ : ℝ) : ℂ) * phase p.δ s q = ((ℓ / τ : ℝ) : ℂ) * phase p.δ s q := fun q => by push_cast; ring
      fin_cases d
      · exact e1.trans (funext fun q => by rw [e]; rfl)
      · exact e2.trans (funext fun q => by rw [e]; rfl)
    fin_cases v
    · change _ * tendModified _ n S _ 0 k = (factorsSw ℓ τ 0 : ℝ) * _ * tendModified _ n S _ 0 k
      rw [a1, b1, new_advect p s ℓ τ u hU, new_pd, new_val, factorsSw_0, factorsSw_1, factorsSw_2]
      simp only [newPar]
      push_cast
      field_simp
    · change _ * tendModified _ n S _ 1 k = (factorsSw ℓ τ 1 : ℝ) * _ * tendModified _ n S _ 1 k
      rw [a2, b2, new_advect p s ℓ τ u hU, new_pd, new_val, factorsSw_0, factorsSw_1, factorsSw_2]
      simp only [newPar]
      push_cast
      field_simp
    · change _ * tendModified _ n S _ 2 k = (factorsSw ℓ τ 2 : ℝ) * _ * tendModified _ n S _ 2 k
      rw [a3, b3, new_advect p s ℓ τ u hU, new_pd, new_pd, factorsSw_0, factorsSw_1, factorsSw_2]
      push_cast
      field_simp
  · rw [tendModified_out _ _ _ hk, tendModified_out _ _ _ hk, mul_zero, mul_zero]

/-! ### Symmetries -/

/-- The variables and the signs of the image. -/
def varsSw (g : Sym (Fin 2)) : Fin 3 → Fin 3 := ![(g.π 0).castSucc, (g.π 1).castSucc, 2]
def signsSw (g : Sym (Fin 2)) : Fin 3 → ℤ := ![g.σ 0, g.σ 1, 1]

/-- The two cases: the axes are kept or exchanged. -/
theorem sym_cases (g : Sym (Fin 2)) : (g.π 0 = 0 ∧ g.π 1 = 1 ∧ det2 g = g.σ 0 * g.σ 1) ∨ (g.π 0 = 1 ∧ g.π 1 = 0 ∧ det2 g = -(g.σ 0 * g.σ 1)) := by
  rcases perm2 g.π with ⟨h0, h1⟩ | ⟨h0, h1⟩
  · exact Or.inl ⟨h0, h1, by simp [det2, h0]⟩
  · exact Or.inr ⟨h0, h1, by simp [det2, h0]⟩

section

variable (g : Sym (Fin 2)) (u : Fin 3 → Fld (Fin 2))

theorem sw_val {q : Fin 2 → ℤ} (hq : q ∈ S) (v : Fin 3) :
    (symMap g S (varsSw g) (signsSw g)).app u v q = (signsSw g v : ℂ) * u (varsSw g v) (g.back q) := by
  rw [symMap_app, if_pos hq]; rfl

theorem pd_at {δ : Fin 2 → ℝ} (hg : g.Fits S δ) {a a' : Fld (Fin 2)} (s : ℂ) {q : Fin 2 → ℤ} (h : a' q = s * a (g.back q)) (d : Fin 2) :
    pd δ d a' q = s * g.σ d * pd δ (g.π d) a (g.back q) := by
  rw [← congrFun (pd_image g hg.box s a d) q]
  simp only [pd, h]

theorem sw_pd {δ : Fin 2 → ℝ} (hg : g.Fits S δ) {q : Fin 2 → ℤ} (hq : q ∈ S) (v : Fin 3) (d : Fin 2) :
    pd δ d ((symMap g S (varsSw g) (signsSw g)).app u v) q = (signsSw g v : ℂ) * g.σ d * pd δ (g.π d) (u (varsSw g v)) (g.back q) :=
  pd_at g hg _ (sw_val g u hq v) d

theorem sw_prod {δ : Fin 2 → ℝ} (hg : g.Fits S δ) (q : Fin 2 → ℤ) (v w : Fin 3) :
    exactProduct S ((symMap g S (varsSw g) (signsSw g)).app u v) ((symMap g S (varsSw g) (signsSw g)).app u w) q
      = (signsSw g v : ℂ) * (signsSw g w) * exactProduct S (u (varsSw g v)) (u (varsSw g w)) (g.back q) := by
  rw [← exact_image g hg.modes]
  exact exact_congr (fun p hp => sw_val g u hp v) (fun p hp => sw_val g u hp w) q

theorem sw_advect {δ : Fin 2 → ℝ} (hg : g.Fits S δ) (q : Fin 2 → ℤ) (v : Fin 3) :
    advect S δ ![(symMap g S (varsSw g) (signsSw g)).app u 0, (symMap g S (varsSw g) (signsSw g)).app u 1]
        ((symMap g S (varsSw g) (signsSw g)).app u v) q
      = (signsSw g v : ℂ) * advect S δ ![u 0, u 1] (u (varsSw g v)) (g.back q) := by
  rw [← advect_image g hg]
  refine advect_congr (fun d p hp => ?_) (fun p hp => sw_val g u hp v) q
  have h0 := sw_val g u hp 0
  have h1 := sw_val g u hp 1
  rcases sym_cases g with ⟨a, b, _⟩ | ⟨a, b, _⟩ <;> fin_cases d <;>
    simp_all [varsSw, signsSw]

theorem sw_rot {δ : Fin 2 → ℝ} (hg : g.Fits S δ) {q : Fin 2 → ℤ} (hq : q ∈ S) :
    rotSw δ ((symMap g S (varsSw g) (signsSw g)).app u) q = (det2 g : ℂ) * rotSw δ u (g.back q) := by
  simp only [rotSw]
  rw [sw_pd g u hg hq, sw_pd g u hg hq]
  rcases sym_cases g with ⟨a, b, c⟩ | ⟨a, b, c⟩ <;> rw [c] <;> simp only [varsSw, signsSw, a, b] <;> simp <;> ring

/-- The Coriolis force is compatible with the rotations. -/
theorem sw_coriolis {f : ℝ} (hf : f = 0 ∨ det2 g = 1) :
    (g.π 0 = 0 ∧ g.π 1 = 1 ∧ (f : ℂ) * g.σ 1 = f * g.σ 0) ∨ (g.π 0 = 1 ∧ g.π 1 = 0 ∧ (f : ℂ) * g.σ 1 = -(f * g.σ 0)) := by
  have u0 := g.unitC 0
  rcases sym_cases g with ⟨a, b, c⟩ | ⟨a, b, c⟩
  · refine Or.inl ⟨a, b, ?_⟩
    rcases hf with rfl | h
    · simp
    · rw [h] at c
      have c' : (1 : ℂ) = g.σ 0 * g.σ 1 := by exact_mod_cast c
      linear_combination (-(f : ℂ) * g.σ 1) * u0 - f * g.σ 0 * c'
  · refine Or.inr ⟨a, b, ?_⟩
    rcases hf with rfl | h
    · simp
    · rw [h] at c
      have c' : (1 : ℂ) = -(g.σ 0 * g.σ 1) := by exact_mod_cast c
      linear_combination (-(f : ℂ) * g.σ 1) * u0 + f * g.σ 0 * c'

theorem imageSw_eq (w : Fin 3 → Fld (Fin 2)) (v : Fin 3) (k : Fin 2 → ℤ) :
    imageSw g w v k = (signsSw g v : ℂ) * w (varsSw g v) (g.back k) := rfl

theorem varsSw_eq {a b : Fin 2} (h0 : g.π 0 = a) (h1 : g.π 1 = b) : varsSw g 0 = a.castSucc ∧ varsSw g 1 = b.castSucc ∧ varsSw g 2 = 2 :=
  ⟨by rw [← h0]; rfl, by rw [← h1]; rfl, rfl⟩

theorem signsSw_eq : signsSw g 0 = g.σ 0 ∧ signsSw g 1 = g.σ 1 ∧ signsSw g 2 = 1 := ⟨rfl, rfl, rfl⟩

theorem tendSw1l_image (hn : ∀ d, 0 < n d) (hS : NoAlias n S) {p : Sw1l.Par} (hg : g.Fits S p.δ) (hf : p.f = 0 ∨ det2 g = 1) (v : Fin 3)
    (k : Fin 2 → ℤ) (hk : k ∈ S) :
    tendSw1l p n S ((symMap g S (varsSw g) (signsSw g)).app u) v k = imageSw g (tendSw1l p n S u) v k := by
  obtain ⟨a1, a2, a3⟩ := tendSw1l_exact p hn hS ((symMap g S (varsSw g) (signsSw g)).app u) hk
  obtain ⟨b1, b2, b3⟩ := tendSw1l_exact p hn hS u ((hg.modes k).2 hk)
  rw [sw_advect g u hg, sw_val g u hk, sw_pd g u hg hk] at a1 a2
  rw [sw_pd g u hg hk, sw_pd g u hg hk, pd_at g hg _ (sw_prod g u hg k 2 0) 0, pd_at g hg _ (sw_prod g u hg k 2 1) 1] at a3
  have u0 := g.unitC 0
  have u1 := g.unitC 1
  obtain ⟨s0, s1, s2⟩ := signsSw_eq g
  rw [imageSw_eq]
  rcases sw_coriolis g hf with ⟨h0, h1, hF⟩ | ⟨h0, h1, hF⟩
  · obtain ⟨w0, w1, w2⟩ := varsSw_eq g h0 h1
    rw [w0, w1, w2, s0, s1, s2, h0] at a1
    rw [w0, w1, w2, s0, s1, s2, h1] at a2
    rw [w0, w1, w2, s0, s1, s2, h0, h1] at a3
    simp only [Fin.castSucc_zero, Fin.castSucc_one, Int.cast_one] at a1 a2 a3
    fin_cases v
    · change tendSw1l p n S _ 0 k = (signsSw g 0 : ℂ) * tendSw1l p n S u (varsSw g 0) _
      rw [a1, w0, s0]
      simp only [Fin.castSucc_zero]
      rw [b1]
      linear_combination u 1 (g.back k) * hF
    · change tendSw1l p n S _ 1 k = (signsSw g 1 : ℂ) * tendSw1l p n S u (varsSw g 1) _
      rw [a2, w1, s1]
      simp only [Fin.castSucc_one]
      rw [b2]
      linear_combination u 0 (g.back k) * hF
    · change tendSw1l p n S _ 2 k = (signsSw g 2 : ℂ) * tendSw1l p n S u (varsSw g 2) _
      rw [a3, w2, s2, b3]
      linear_combination (-pd p.δ 0 (u 0) (g.back k) - pd p.δ 0 (exactProduct S (u 2) (u 0)) (g.back k)) * u0
        + (-pd p.δ 1 (u 1) (g.back k) - pd p.δ 1 (exactProduct S (u 2) (u 1)) (g.back k)) * u1
  · obtain ⟨w0, w1, w2⟩ := varsSw_eq g h0 h1
    rw [w0, w1, w2, s0, s1, s2, h0] at a1
    rw [w0, w1, w2, s0, s1, s2, h1] at a2
    rw [w0, w1, w2, s0, s1, s2, h0, h1] at a3
    simp only [Fin.castSucc_zero, Fin.castSucc_one, Int.cast_one] at a1 a2 a3
    fin_cases v
    · change tendSw1l p n S _ 0 k = (signsSw g 0 : ℂ) * tendSw1l p n S u (varsSw g 0) _
      rw [a1, w0, s0]
      simp only [Fin.castSucc_one]
      rw [b2]
      linear_combination u 0 (g.back k) * hF
    · change tendSw1l p n S _ 1 k = (signsSw g 1 : ℂ) * tendSw1l p n S u (varsSw g 1) _
      rw [a2, w1, s1]
      simp only [Fin.castSucc_zero]
      rw [b1]
      linear_combination (-u 1 (g.back k)) * hF
    · change tendSw1l p n S _ 2 k = (signsSw g 2 : ℂ) * tendSw1l p n S u (varsSw g 2) _
      rw [a3, w2, s2, b3]
      linear_combination (-pd p.δ 1 (u 1) (g.back k) - pd p.δ 1 (exactProduct S (u 2) (u 1)) (g.back k)) * u0
        + (-pd p.δ 0 (u 0) (g.back k) - pd p.δ 0 (exactProduct S (u 2) (u 0)) (g.back k)) * u1

theorem tendModified_image (hn : ∀ d, 0 < n d) (hS : NoAlias n S) {p : Sw1l.Par} (hδ : ∀ d, p.δ d ≠ 0) (hg : g.Fits S p.δ)
    (hf : p.f = 0 ∨ det2 g = 1) (v : Fin 3) (k : Fin 2 → ℤ) (hk : k ∈ S) :
    tendModified p n S ((symMap g S (varsSw g) (signsSw g)).app u) v k = imageSw g (tendModified p n S u) v k := by
  obtain ⟨a1, a2, a3⟩ := tendModified_exact p hn hS hδ ((symMap g S (varsSw g) (signsSw g)).app u) hk
  obtain ⟨b1, b2, b3⟩ := tendModified_exact p hn hS hδ u ((hg.modes k).2 hk)
  have hr := fun q (hq : q ∈ S) => sw_rot g u hg hq
  rw [adv2_image g hg hr _ (fun q hq => sw_val g u hq 0), sw_val g u hk, sw_pd g u hg hk] at a1
  rw [adv2_image g hg hr _ (fun q hq => sw_val g u hq 1), sw_val g u hk, sw_pd g u hg hk] at a2
  rw [adv2_image g hg hr _ (fun q hq => sw_val g u hq 2), sw_pd g u hg hk, sw_pd g u hg hk] at a3
  have u0 := g.unitC 0
  have u1 := g.unitC 1
  obtain ⟨s0, s1, s2⟩ := signsSw_eq g
  rw [imageSw_eq]
  rcases sw_coriolis g hf with ⟨h0, h1, hF⟩ | ⟨h0, h1, hF⟩
  · obtain ⟨w0, w1, w2⟩ := varsSw_eq g h0 h1
    rw [w0, w1, w2, s0, s1, s2, h0] at a1
    rw [w0, w1, w2, s0, s1, s2, h1] at a2
    rw [w0, w1, w2, s0, s1, s2, h0, h1] at a3
    simp only [Fin.castSucc_zero, Fin.castSucc_one, Int.cast_one] at a1 a2 a3
    fin_cases v
    · change tendModified p n S _ 0 k = (signsSw g 0 : ℂ) * tendModified p n S u (varsSw g 0) _
      rw [a1, w0, s0]
      simp only [Fin.castSucc_zero]
      rw [b1]
      linear_combination u 1 (g.back k) * hF
    · change tendModified p n S _ 1 k = (signsSw g 1 : ℂ) * tendModified p n S u (varsSw g 1) _
      rw [a2, w1, s1]
      simp only [Fin.castSucc_one]
      rw [b2]
      linear_combination u 0 (g.back k) * hF
    · change tendModified p n S _ 2 k = (signsSw g 2 : ℂ) * tendModified p n S u (varsSw g 2) _
      rw [a3, w2, s2, b3]
      linear_combination (-pd p.δ 0 (u 0) (g.back k)) * u0 + (-pd p.δ 1 (u 1) (g.back k)) * u1
  · obtain ⟨w0, w1, w2⟩ := varsSw_eq g h0 h1
    rw [w0, w1, w2, s0, s1, s2, h0] at a1
    rw [w0, w1, w2, s0, s1, s2, h1] at a2
    rw [w0, w1, w2, s0, s1, s2, h0, h1] at a3
    simp only [Fin.castSucc_zero, Fin.castSucc_one, Int.cast_one] at a1 a2 a3
    fin_cases v
    · change tendModified p n S _ 0 k = (signsSw g 0 : ℂ) * tendModified p n S u (varsSw g 0) _
      rw [a1, w0, s0]
      simp only [Fin.castSucc_one]
      rw [b2]
      linear_combination u 0 (g.back k) * hF
    · change tendModified p n S _ 1 k = (signsSw g 1 : ℂ) * tendModified p n S u (varsSw g 1) _
      rw [a2, w1, s1]
      simp only [Fin.castSucc_zero]
      rw [b1]
      linear_combination (-u 1 (g.back k)) * hF
    · change tendModified p n S _ 2 k = (signsSw g 2 : ℂ) * tendModified p n S u (varsSw g 2) _
      rw [a3, w2, s2, b3]
      linear_combination (-pd p.δ 1 (u 1) (g.back k)) * u0 + (-pd p.δ 0 (u 0) (g.back k)) * u1

end

end

end Verif.Symmetry
