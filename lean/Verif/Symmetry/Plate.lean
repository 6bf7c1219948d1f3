import Verif.Symmetry.Props
import Verif.Symmetry.Mirror
import Verif.Symmetry.ModelPlate
import Verif.Symmetry.SpecPlate
import Verif.Galerkin.PropsPlate

/-! # C95, C98: the tendencies of plate2d -/

set_option linter.unusedSectionVars false

namespace Verif.Symmetry

open Verif.Fourier Verif.Vectors Verif.Energy Verif.Galerkin Verif.EndToEnd Verif.Schemes Finset

noncomputable section

section

variable {D V : Type*} [Fintype D] [DecidableEq D]

theorem runFreq_units {S G : Finset (D → ℤ)} (δ s : D → ℝ) {τ : ℝ} (hτ : 0 < τ) (a : V → ℝ) {freq freq' : V → Fld D}
    (hf : ∀ v q, τ * freq' v q = freq v q)
    {tend tend' : (V → Fld D) → V → Fld D} (ht : ∀ u w q, τ * tend' (transformed δ s a u) w q = transformed δ s a (tend u) w q)
    {c c' : Numerics D V} (hc : SameNumerics τ c c') (hdt : ∀ k, c.dt k ≠ 0) (F : ℕ → V → Fld D) (u0 : V → Fld D) (k : ℕ) :
    runFreq S G freq' id tend' c' (fun m => transformed δ s (fun v => a v / τ) (F m)) (transformed δ s a u0) k
      = transformed δ s a (runFreq S G freq id tend c F u0 k) := by
  refine runFreq_map (unitsMap δ s a) hτ.ne' (fun w q i hi => ?_) (fun w q i hi => ?_) (fun w q i hi => ?_) (P := id) (P' := id)
    (fun _ => rfl) (id_onArrays G) (id_onArrays G) ht (related_units hc δ s a) hdt (fun j w q => force_units hτ.ne' δ s a (F j) w q) u0 k
  all_goals
    simp only [unitsMap, Option.some.injEq] at hi
    rw [← hi]
  exact hf w q

theorem runFreq_within {S G : Finset (D → ℤ)} {freq : V → Fld D} {project : Arr (V × G) → Arr (V × G)} {tend : (V → Fld D) → V → Fld D}
    {c : Numerics D V} {F : ℕ → V → Fld D} {u0 : V → Fld D} (h0 : Within S u0) (k : ℕ) :
    Within S (runFreq S G freq project tend c F u0 k) := by
  intro v q hq
  simp only [runFreq, fields]
  split
  · cases k with
    | zero => simp only [stepping, set_same, array]; exact h0 v q hq
    | succ k => simp [stepping, oneStep3d, Schemes.dealias, set_same, truncated, hq]
  · rfl

theorem runFreq_image (g : Sym D) {S G : Finset (D → ℤ)} (hSG : S ⊆ G) {δ : D → ℝ} (hg : g.Fits S δ) (a : V → ℤ) {freq : V → Fld D}
    (hfr : ∀ v q, freq v (g.back q) = freq v q)
    {tend : (V → Fld D) → V → Fld D} (ht : ∀ u v, ∀ k ∈ S, tend ((symMap g S id a).app u) v k = g.image id a (tend u) v k)
    (ht0 : ∀ u v, ∀ k ∉ S, tend u v k = 0) {c c' : Numerics D V} (hc : SymNumerics g c c') (hdt : ∀ k, c.dt k ≠ 0)
    {F : ℕ → V → Fld D} (hF : ∀ m, Within S (F m)) {u0 : V → Fld D} (hu0 : Within S u0) (k : ℕ) :
    runFreq S G freq id tend c' (fun m => g.image id a (F m)) (g.image id a u0) k = g.image id a (runFreq S G freq id tend c F u0 k) := by
  have key := runFreq_map (symMap g S id a) (τ := 1) one_ne_zero (S := S) (S' := S) (G := G) (G' := G) (freq := freq) (freq' := freq)
    (P := id) (P' := id) (tend := tend) (tend' := tend) (c := c) (c' := c') (F := F)
    (F' := fun m => g.image id a (F m)) ?_ ?_ ?_ (fun _ => rfl) (id_onArrays G) (id_onArrays G) ?_ ?_ hdt ?_ u0 k
  · rwa [symMap_within g hg.modes id a hu0, symMap_within g hg.modes id a (runFreq_within hu0 k)] at key
  · intro v q i hi
    simp only [symMap] at hi
    split at hi
    · rename_i hq
      cases hi
      exact ⟨fun _ => hSG ((hg.modes q).2 hq), fun _ => hSG hq⟩
    · cases hi
  · intro v q i hi
    simp only [symMap] at hi
    split at hi
    · cases hi
      exact (hg.modes q).symm
    · cases hi
  · intro v q i hi
    simp only [symMap] at hi
    split at hi
    · cases hi
      rw [Complex.ofReal_one, one_mul, id, hfr]
    · cases hi
  · intro u v q
    rw [Complex.ofReal_one, one_mul, symMap_app]
    split
    · exact ht u v q ‹_›
    · exact ht0 _ v q ‹_›
  · refine ⟨hc.1, hc.2.1, by rw [hc.2.2.1]; simp, fun v q i hi j => ?_⟩
    simp only [symMap] at hi
    split at hi
    · cases hi
      exact hc.2.2.2 j q
    · cases hi
  · intro j v q
    rw [Complex.ofReal_one, one_mul, symMap_within g hg.modes id a (hF j)]

end

variable {n : Fin 2 → ℕ} {S H : Finset (Fin 2 → ℤ)} {δ : Fin 2 → ℝ}

/-- The bracket with its coefficients. -/
def br (S H : Finset (Fin 2 → ℤ)) (δ : Fin 2 → ℝ) (a b : Fld (Fin 2)) (k : Fin 2 → ℤ) : ℂ :=
  ∑ p ∈ S, ∑ q ∈ H, if p + q = k then a p * b q * (cr δ p q : ℂ) ^ 2 else 0

/-- The stress function. -/
def chiOf (S : Finset (Fin 2 → ℤ)) (δ : Fin 2 → ℝ) (z : Fld (Fin 2)) : Fld (Fin 2) := fun q =>
  if q = 0 then 0 else -(br S S δ z z q / (k4 δ q : ℂ))

theorem k4_ne (hδ : ∀ d, δ d ≠ 0) {q : Fin 2 → ℤ} (hq : q ≠ 0) : k4 δ q ≠ 0 := by
  intro h
  rw [k4] at h
  have h' : (δ 0 * q 0) ^ 2 + (δ 1 * q 1) ^ 2 = 0 := pow_eq_zero_iff two_ne_zero |>.1 h
  apply hq
  have e0 : δ 0 * q 0 = 0 := by nlinarith [sq_nonneg (δ 0 * (q 0 : ℝ)), sq_nonneg (δ 1 * (q 1 : ℝ))]
  have e1 : δ 1 * q 1 = 0 := by nlinarith [sq_nonneg (δ 0 * (q 0 : ℝ)), sq_nonneg (δ 1 * (q 1 : ℝ))]
  have e0' : q 0 = 0 := by exact_mod_cast (mul_eq_zero.1 e0).resolve_left (hδ 0)
  have e1' : q 1 = 0 := by exact_mod_cast (mul_eq_zero.1 e1).resolve_left (hδ 1)
  funext d
  fin_cases d
  · exact e0'
  · exact e1'

theorem br_zero (S : Finset (Fin 2 → ℤ)) (δ : Fin 2 → ℝ) (z : Fld (Fin 2)) : br S S δ z z 0 = 0 := by
  refine sum_eq_zero fun p _ => sum_eq_zero fun q _ => ?_
  split
  · rename_i h
    have e : q = -p := by rw [eq_neg_iff_add_eq_zero, add_comm]; exact h
    rw [e]
    simp only [cr, Pi.neg_apply]
    push_cast
    ring
  · rfl

theorem airy_chi (hδ : ∀ d, δ d ≠ 0) (z : Fld (Fin 2)) : Airy S δ z (chiOf S δ z) := by
  refine ⟨by simp [chiOf], fun k _ => ?_⟩
  rw [bilap_k4, bracket_cr]
  change _ = -br S S δ z z k
  by_cases h : k = 0
  · subst h; rw [br_zero]; simp [chiOf]
  · have hne : ((k4 δ k : ℝ) : ℂ) ≠ 0 := by exact_mod_cast k4_ne hδ h
    simp only [chiOf, if_neg h]
    field_simp

theorem tendPlate_exact (h : Half n S H) (hδ : ∀ d, δ d ≠ 0) (u : Fin 2 → Fld (Fin 2)) {k : Fin 2 → ℤ} (hk : k ∈ S) :
    tendPlate n S H δ u 0 k = -(k4 δ k * u 1 k) + br S (sums S) δ (u 1) (chiOf S δ (u 1)) k ∧ tendPlate n S H δ u 1 k = u 0 k := by
  obtain ⟨h1, h2⟩ := C57_plate2d_partial h.pos h.four h.two h.sums hδ (w := u 0) (airy_chi (S := S) hδ (u 1)) hk
  rw [bilap_k4, bracket_cr] at h1
  exact ⟨h1, h2⟩

theorem tendPlate_out (u : Fin 2 → Fld (Fin 2)) (v : Fin 2) {k : Fin 2 → ℤ} (hk : k ∉ S) : tendPlate n S H δ u v k = 0 := by
  fin_cases v <;> simp [tendPlate, plate2d, hk]

/-! ### Units -/

theorem br_units (s : Fin 2 → ℝ) {ℓ : ℝ} (a b : Fld (Fin 2)) (k : Fin 2 → ℤ) :
    br S H (fun d => δ d / ℓ) (fun p => phase δ s p * a p) (fun p => phase δ s p * b p) k = phase δ s k / ℓ ^ 4 * br S H δ a b k := by
  simp only [br, mul_sum]
  refine sum_congr rfl fun p _ => sum_congr rfl fun q _ => ?_
  split
  · rename_i h
    rw [← h, phase_add]
    simp only [cr]
    push_cast
    ring
  · simp

theorem k4_units (ℓ : ℝ) (k : Fin 2 → ℤ) : k4 (fun d => δ d / ℓ) k = k4 δ k / ℓ ^ 4 := by
  simp only [k4]; ring

theorem chi_units (s : Fin 2 → ℝ) {ℓ : ℝ} (hℓ : ℓ ≠ 0) (z : Fld (Fin 2)) :
    chiOf S (fun d => δ d / ℓ) (fun p => phase δ s p * z p) = fun p => phase δ s p * chiOf S δ z p := by
  have hl : (ℓ : ℂ) ≠ 0 := by exact_mod_cast hℓ
  funext q
  simp only [chiOf]
  split
  · simp
  · rw [br_units, k4_units]
    push_cast
    by_cases hk : (k4 δ q : ℂ) = 0
    · simp [hk]
    · field_simp

theorem tendPlate_units (h : Half n S H) (hδ : ∀ d, δ d ≠ 0) (s : Fin 2 → ℝ) {ℓ : ℝ} (hℓ : ℓ ≠ 0) (u : Fin 2 → Fld (Fin 2)) (v : Fin 2)
    (k : Fin 2 → ℤ) :
    ((ℓ ^ 2 : ℝ) : ℂ) * tendPlate n S H (fun d => δ d / ℓ) (transformed δ s ![1 / ℓ ^ 2, 1] u) v k
      = transformed δ s ![1 / ℓ ^ 2, 1] (tendPlate n S H δ u) v k := by
  have hl : (ℓ : ℂ) ≠ 0 := by exact_mod_cast hℓ
  change _ = ((![1 / ℓ ^ 2, 1] v : ℝ) : ℂ) * phase δ s k * _
  by_cases hk : k ∈ S
  · obtain ⟨a1, a2⟩ := tendPlate_exact h (fun d => div_ne_zero (hδ d) hℓ) (transformed δ s ![1 / ℓ ^ 2, 1] u) hk
    obtain ⟨b1, b2⟩ := tendPlate_exact h hδ u hk
    have ez : transformed δ s ![1 / ℓ ^ 2, 1] u 1 = fun p => phase δ s p * u 1 p := by
      funext p
      change ((1 : ℝ) : ℂ) * phase δ s p * _ = _
      simp
    have ew : transformed δ s ![1 / ℓ ^ 2, 1] u 0 k = ((1 / ℓ ^ 2 : ℝ) : ℂ) * phase δ s k * u 0 k := rfl
    fin_cases v
    · change _ * tendPlate n S H _ _ 0 k = ((1 / ℓ ^ 2 : ℝ) : ℂ) * _ * tendPlate n S H _ _ 0 k
      rw [a1, b1, ez, chi_units s hℓ, br_units, k4_units]
      push_cast
      field_simp
    · change _ * tendPlate n S H _ _ 1 k = ((1 : ℝ) : ℂ) * _ * tendPlate n S H _ _ 1 k
      rw [a2, b2, ew]
      push_cast
      field_simp
  · rw [tendPlate_out _ _ hk, tendPlate_out _ _ hk, mul_zero, mul_zero]

/-! ### Symmetries -/

section

variable (g : Sym (Fin 2)) (hg : g.Fits S δ)

include hg

theorem cr_image (p q : Fin 2 → ℤ) : cr δ (g.back p) (g.back q) ^ 2 = cr δ p q ^ 2 := by
  have b : ∀ k d, ((g.back k (g.π d) : ℤ) : ℝ) = g.σ d * k d := fun k d => by rw [back_apply]; push_cast; rfl
  have e0 := hg.box 0
  have e1 := hg.box 1
  have u0 := g.unitR 0
  have u1 := g.unitR 1
  have b0 := fun k => b k 0
  have b1 := fun k => b k 1
  rcases perm2 g.π with ⟨h0, h1⟩ | ⟨h0, h1⟩
  · simp only [h0] at b0
    simp only [h1] at b1
    simp only [cr, b0, b1]
    linear_combination ((δ 0 * p 0 * (δ 1 * q 1) - δ 1 * p 1 * (δ 0 * q 0)) ^ 2) * ((g.σ 1 : ℝ) * g.σ 1 * u0 + u1)
  · simp only [h0] at b0 e0
    simp only [h1] at b1 e1
    simp only [cr, b0, b1]
    linear_combination ((δ 0 * p 0 * (δ 1 * q 1) - δ 1 * p 1 * (δ 0 * q 0)) ^ 2) * ((g.σ 1 : ℝ) * g.σ 1 * u0 + u1)

theorem sums_image (k : Fin 2 → ℤ) : g.back k ∈ sums S ↔ k ∈ sums S := by
  simp only [sums, mem_image, mem_product, Prod.exists]
  constructor
  · rintro ⟨p, q, ⟨hp, hq⟩, e⟩
    obtain ⟨p', rfl⟩ := (backEquiv g).surjective p
    obtain ⟨q', rfl⟩ := (backEquiv g).surjective q
    refine ⟨p', q', ⟨(hg.modes p').1 hp, (hg.modes q').1 hq⟩, ?_⟩
    change g.back p' + g.back q' = _ at e
    rw [← back_add] at e
    exact (back_inj g).1 e
  · rintro ⟨p, q, ⟨hp, hq⟩, rfl⟩
    exact ⟨g.back p, g.back q, ⟨(hg.modes p).2 hp, (hg.modes q).2 hq⟩, (back_add g p q).symm⟩

theorem br_image {H : Finset (Fin 2 → ℤ)} (hH : ∀ k, g.back k ∈ H ↔ k ∈ H) (s t : ℂ) {a b a' b' : Fld (Fin 2)}
    (ha : ∀ p ∈ S, a' p = s * a (g.back p)) (hb : ∀ p ∈ H, b' p = t * b (g.back p)) (k : Fin 2 → ℤ) :
    br S H δ a' b' k = s * t * br S H δ a b (g.back k) := by
  simp only [br, mul_sum]
  refine Finset.sum_equiv (backEquiv g) (fun p => (hg.modes p).symm) fun p hp => ?_
  refine Finset.sum_equiv (backEquiv g) (fun q => (hH q).symm) fun q hq => ?_
  change _ = s * t * if g.back p + g.back q = g.back k then a (g.back p) * b (g.back q) * (cr δ (g.back p) (g.back q) : ℂ) ^ 2 else 0
  rw [← back_add]
  have e : (cr δ (g.back p) (g.back q) : ℂ) ^ 2 = (cr δ p q : ℂ) ^ 2 := by exact_mod_cast cr_image g hg p q
  by_cases h : p + q = k
  · rw [if_pos h, if_pos (by rw [h]), ha p hp, hb q hq, e]; ring
  · rw [if_neg h, if_neg fun e => h ((back_inj g).1 e), mul_zero]

theorem k4_image (k : Fin 2 → ℤ) : k4 δ (g.back k) = k4 δ k := by
  have := waveSq_image g hg.box k
  simp only [waveSq, Fin.sum_univ_two] at this
  simp only [k4, this]

theorem chi_image {s : ℂ} (hs : s * s = 1) {z z' : Fld (Fin 2)} (hz : ∀ p ∈ S, z' p = s * z (g.back p)) (q : Fin 2 → ℤ) :
    chiOf S δ z' q = chiOf S δ z (g.back q) := by
  have h0 : g.back q = 0 ↔ q = 0 := by
    rw [← back_inj g (p := q) (q := 0)]
    have : g.back 0 = 0 := by funext d; simp [Sym.back]
    rw [this]
  simp only [chiOf, h0]
  split
  · rfl
  · rw [br_image g hg hg.modes s s hz hz, k4_image g hg, hs, one_mul]

theorem tendPlate_image (h : Half n S H) (hδ : ∀ d, δ d ≠ 0) {s : ℤ} (hs : s * s = 1) (u : Fin 2 → Fld (Fin 2)) (v : Fin 2) (k : Fin 2 → ℤ)
    (hk : k ∈ S) :
    tendPlate n S H δ ((symMap g S id fun _ => s).app u) v k = g.image id (fun _ => s) (tendPlate n S H δ u) v k := by
  obtain ⟨a1, a2⟩ := tendPlate_exact h hδ ((symMap g S id fun _ => s).app u) hk
  obtain ⟨b1, b2⟩ := tendPlate_exact h hδ u ((hg.modes k).2 hk)
  have hc : (s : ℂ) * s = 1 := by exact_mod_cast hs
  have hv : ∀ v, ∀ q ∈ S, (symMap g S id fun _ => s).app u v q = (s : ℂ) * u v (g.back q) := by
    intro v q hq
    rw [symMap_app, if_pos hq]; rfl
  change _ = (s : ℂ) * tendPlate n S H δ u v (g.back k)
  fin_cases v
  · change tendPlate n S H _ _ 0 k = (s : ℂ) * tendPlate n S H _ _ 0 _
    rw [a1, b1, hv 1 k hk, br_image g hg (sums_image g hg) s 1 (hv 1)
      (fun q _ => by rw [one_mul]; exact chi_image g hg hc (hv 1) q), k4_image g hg]
    ring
  · change tendPlate n S H _ _ 1 k = (s : ℂ) * tendPlate n S H _ _ 1 _
    rw [a2, b2, hv 0 k hk]

end

end

end Verif.Symmetry
