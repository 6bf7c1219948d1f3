import Verif.Replicas.Lemmas
import Verif.Symmetry.Sw1l
import Verif.Symmetry.Plate

/-! # C107: lemmas for the shallow water and the plates -/

set_option linter.unusedSectionVars false

namespace Verif.Replicas

open Verif.Fourier Verif.Vectors Verif.Energy Verif.Galerkin Verif.Schemes Verif.EndToEnd Verif.Symmetry Finset

noncomputable section

variable {m : Fin 2 → ℕ} {S S' : Finset (Fin 2 → ℤ)}

/-- The parameters in the small box. -/
def smallPar (m : Fin 2 → ℕ) (p : Sw1l.Par) : Sw1l.Par := { p with δ := small m p.δ }

theorem two_copy (u : Fin 3 → Fld (Fin 2)) (d : Fin 2) : (![copy m (u 0), copy m (u 1)] : Fin 2 → Fld (Fin 2)) d = copy m ((![u 0, u 1] : Fin 2 → Fld (Fin 2)) d) := by
  fin_cases d <;> rfl

theorem sw1l_copy (hm : ∀ d, 0 < m d) (hSS : SameWaves m S S') {n n' : Fin 2 → ℕ} (hn : ∀ d, 0 < n d) (hn' : ∀ d, 0 < n' d) (hS : NoAlias n S)
    (hS' : NoAlias n' S') (p : Sw1l.Par) (u : Fin 3 → Fld (Fin 2)) (v : Fin 3) :
    (∀ k ∈ S, tendSw1l p n' S' (copies m u) v (times m k) = tendSw1l (smallPar m p) n S u v k) ∧
      ∀ q ∈ S', ¬Mult m q → tendSw1l p n' S' (copies m u) v q = 0 := by
  constructor
  · intro k hk
    obtain ⟨e0, e1, e2⟩ := tendSw1l_exact p hn' hS' (copies m u) ((hSS k).2 hk)
    obtain ⟨d0, d1, d2⟩ := tendSw1l_exact (smallPar m p) hn hS u hk
    simp only [smallPar] at d0 d1 d2
    fin_cases v
    · refine e0.trans (Eq.trans ?_ d0.symm)
      simp only [copies_eq, advect_copy hm hSS p.δ (two_copy u), pd_copy hm, copy_times hm]
    · refine e1.trans (Eq.trans ?_ d1.symm)
      simp only [copies_eq, advect_copy hm hSS p.δ (two_copy u), pd_copy hm, copy_times hm]
    · refine e2.trans (Eq.trans ?_ d2.symm)
      simp only [copies_eq, exact_copy hm hSS, pd_copy hm, copy_times hm]
  · intro q hq hM
    obtain ⟨e0, e1, e2⟩ := tendSw1l_exact p hn' hS' (copies m u) hq
    fin_cases v
    · refine e0.trans ?_
      simp only [copies_eq, advect_copy hm hSS p.δ (two_copy u), pd_copy hm, copy_out _ hM]
      ring
    · refine e1.trans ?_
      simp only [copies_eq, advect_copy hm hSS p.δ (two_copy u), pd_copy hm, copy_out _ hM]
      ring
    · refine e2.trans ?_
      simp only [copies_eq, exact_copy hm hSS, pd_copy hm, copy_out _ hM]
      ring

theorem rotSw_copy (hm : ∀ d, 0 < m d) (δ : Fin 2 → ℝ) (u : Fin 3 → Fld (Fin 2)) : rotSw δ (copies m u) = copy m (rotSw (small m δ) u) := by
  refine eq_copy hm (fun k => ?_) fun q hq => ?_ <;> simp only [rotSw, copies_eq, pd_copy hm]
  · rw [copy_times hm, copy_times hm]
  · rw [copy_out _ hq, copy_out _ hq, sub_zero]

theorem modified_copy (hm : ∀ d, 0 < m d) (hSS : SameWaves m S S') {n n' : Fin 2 → ℕ} (hn : ∀ d, 0 < n d) (hn' : ∀ d, 0 < n' d)
    (hS : NoAlias n S) (hS' : NoAlias n' S') (p : Sw1l.Par) (hδ : ∀ d, p.δ d ≠ 0) (u : Fin 3 → Fld (Fin 2)) (v : Fin 3) :
    (∀ k ∈ S, tendModified p n' S' (copies m u) v (times m k) = tendModified (smallPar m p) n S u v k) ∧
      ∀ q ∈ S', ¬Mult m q → tendModified p n' S' (copies m u) v q = 0 := by
  have hδs : ∀ d, (smallPar m p).δ d ≠ 0 := fun d => mul_ne_zero (by exact_mod_cast (hm d).ne') (hδ d)
  have hv : ∀ d, vel2 p.δ (rotSw p.δ (copies m u)) d = copy m (vel2 (small m p.δ) (rotSw (small m p.δ) u) d) := fun d => by
    rw [rotSw_copy hm, vel2_copy hm]
  constructor
  · intro k hk
    obtain ⟨e0, e1, e2⟩ := tendModified_exact p hn' hS' hδ (copies m u) ((hSS k).2 hk)
    obtain ⟨d0, d1, d2⟩ := tendModified_exact (smallPar m p) hn hS hδs u hk
    simp only [smallPar] at d0 d1 d2
    fin_cases v
    · refine e0.trans (Eq.trans ?_ d0.symm)
      simp only [copies_eq, advect_copy hm hSS p.δ hv, pd_copy hm, copy_times hm]
    · refine e1.trans (Eq.trans ?_ d1.symm)
      simp only [copies_eq, advect_copy hm hSS p.δ hv, pd_copy hm, copy_times hm]
    · refine e2.trans (Eq.trans ?_ d2.symm)
      simp only [copies_eq, advect_copy hm hSS p.δ hv, pd_copy hm, copy_times hm]
  · intro q hq hM
    obtain ⟨e0, e1, e2⟩ := tendModified_exact p hn' hS' hδ (copies m u) hq
    fin_cases v
    · refine e0.trans ?_
      simp only [copies_eq, advect_copy hm hSS p.δ hv, pd_copy hm, copy_out _ hM]
      ring
    · refine e1.trans ?_
      simp only [copies_eq, advect_copy hm hSS p.δ hv, pd_copy hm, copy_out _ hM]
      ring
    · refine e2.trans ?_
      simp only [copies_eq, advect_copy hm hSS p.δ hv, pd_copy hm, copy_out _ hM]
      ring

/-! ### Plates -/

theorem cr_times (δ : Fin 2 → ℝ) (p q : Fin 2 → ℤ) : cr δ (times m p) (times m q) = cr (small m δ) p q := by
  simp only [cr, wave_times]

theorem k4_times (δ : Fin 2 → ℝ) (k : Fin 2 → ℤ) : k4 δ (times m k) = k4 (small m δ) k := by
  simp only [k4, wave_times]

theorem sum_copy_subset (hm : ∀ d, 0 < m d) {H H' : Finset (Fin 2 → ℤ)} (hH : ∀ k ∈ H, times m k ∈ H') {f : (Fin 2 → ℤ) → ℂ}
    (h0 : ∀ q, ¬Mult m q → f q = 0) (h1 : ∀ k, k ∉ H → f (times m k) = 0) : ∑ q ∈ H', f q = ∑ k ∈ H, f (times m k) := by
  have hsub : H.image (times m) ⊆ H' := by
    intro q hq
    obtain ⟨k, hk, rfl⟩ := mem_image.1 hq
    exact hH k hk
  rw [← sum_image (f := f) fun a _ b _ h => times_inj hm h]
  refine (sum_subset hsub fun q hq hn => ?_).symm
  by_cases hM : Mult m q
  · obtain ⟨k, rfl⟩ := hM
    exact h1 k fun hk => hn (mem_image.2 ⟨k, hk, rfl⟩)
  · exact h0 q hM

theorem br_copy (hm : ∀ d, 0 < m d) (hSS : SameWaves m S S') {H H' : Finset (Fin 2 → ℤ)} (hH : ∀ k ∈ H, times m k ∈ H') (δ : Fin 2 → ℝ)
    (a b : Fld (Fin 2)) (hb : ∀ k, k ∉ H → b k = 0) : br S' H' δ (copy m a) (copy m b) = copy m (br S H (small m δ) a b) := by
  refine eq_copy hm (fun k => ?_) fun q hq => ?_
  · simp only [br]
    rw [sum_copy hm hSS]
    · refine sum_congr rfl fun p _ => ?_
      rw [sum_copy_subset hm hH]
      · refine sum_congr rfl fun q _ => ?_
        rw [copy_times hm, copy_times hm, ← times_add, cr_times]
        by_cases h : p + q = k
        · rw [if_pos h, if_pos (by rw [h])]
        · rw [if_neg h, if_neg fun e => h (times_inj hm e)]
      · intro q hq
        rw [copy_out b hq, mul_zero, zero_mul, ite_self]
      · intro q hq
        rw [copy_times hm b, hb q hq, mul_zero, zero_mul, ite_self]
    · intro p hp
      refine sum_eq_zero fun q _ => ?_
      rw [copy_out a hp, zero_mul, zero_mul, ite_self]
  · refine sum_eq_zero fun p _ => sum_eq_zero fun r _ => ?_
    split
    · rename_i h
      by_cases hp : Mult m p
      · by_cases hr : Mult m r
        · exact absurd (h ▸ mult_add hp hr) hq
        · rw [copy_out b hr, mul_zero, zero_mul]
      · rw [copy_out a hp, zero_mul, zero_mul]
    · rfl

theorem br_out (δ : Fin 2 → ℝ) (a b : Fld (Fin 2)) {k : Fin 2 → ℤ} (hk : k ∉ sums S) : br S S δ a b k = 0 := by
  refine sum_eq_zero fun p hp => sum_eq_zero fun q hq => ?_
  rw [if_neg]
  rintro rfl
  exact hk (mem_image.2 ⟨(p, q), mem_product.2 ⟨hp, hq⟩, rfl⟩)

theorem restrict_br (δ : Fin 2 → ℝ) (a b : Fld (Fin 2)) : br S S δ a (fun k => if k ∈ S then b k else 0) = br S S δ a b := by
  funext k
  refine sum_congr rfl fun p _ => sum_congr rfl fun q hq => ?_
  simp only [hq, if_true]

theorem br_self_copy (hm : ∀ d, 0 < m d) (hSS : SameWaves m S S') (δ : Fin 2 → ℝ) (z : Fld (Fin 2)) :
    br S' S' δ (copy m z) (copy m z) = copy m (br S S (small m δ) z z) := by
  have h1 := restrict_br (S := S') δ (copy m z) (copy m z)
  have e : (fun k => if k ∈ S' then copy m z k else 0) = copy m fun k => if k ∈ S then z k else 0 := by
    refine eq_copy hm (fun k => ?_) fun q hq => ?_
    · simp only [hSS k, copy_times hm]
    · simp only [copy_out z hq, ite_self]
  rw [← h1, e, br_copy hm hSS (fun k hk => (hSS k).2 hk) δ z _ fun k hk => by rw [if_neg hk], restrict_br]

theorem chi_copy (hm : ∀ d, 0 < m d) (hSS : SameWaves m S S') (δ : Fin 2 → ℝ) (z : Fld (Fin 2)) :
    chiOf S' δ (copy m z) = copy m (chiOf S (small m δ) z) := by
  have h0 : times m (0 : Fin 2 → ℤ) = 0 := by funext d; simp [times]
  refine eq_copy hm (fun k => ?_) fun q hq => ?_ <;> simp only [chiOf, br_self_copy hm hSS]
  · rw [copy_times hm, k4_times]
    by_cases hk : k = 0
    · rw [if_pos hk, if_pos (by rw [hk, h0])]
    · rw [if_neg hk, if_neg fun e => hk (times_inj hm (e.trans h0.symm))]
  · rw [copy_out _ hq]
    simp

theorem plate_copy (hm : ∀ d, 0 < m d) (hSS : SameWaves m S S') {n n' : Fin 2 → ℕ} {H H' : Finset (Fin 2 → ℤ)} (h : Half n S H)
    (h' : Half n' S' H') {δ : Fin 2 → ℝ} (hδ : ∀ d, δ d ≠ 0) (u : Fin 2 → Fld (Fin 2)) (v : Fin 2) :
    (∀ k ∈ S, tendPlate n' S' H' δ (copies m u) v (times m k) = tendPlate n S H (small m δ) u v k) ∧
      ∀ q ∈ S', ¬Mult m q → tendPlate n' S' H' δ (copies m u) v q = 0 := by
  have hδs : ∀ d, small m δ d ≠ 0 := fun d => mul_ne_zero (by exact_mod_cast (hm d).ne') (hδ d)
  have hsum : ∀ k ∈ sums S, times m k ∈ sums S' := by
    intro k hk
    obtain ⟨⟨p, q⟩, hpq, rfl⟩ := mem_image.1 hk
    obtain ⟨hp, hq⟩ := mem_product.1 hpq
    exact mem_image.2 ⟨(times m p, times m q), mem_product.2 ⟨(hSS p).2 hp, (hSS q).2 hq⟩, (times_add p q).symm⟩
  have hb : br S' (sums S') δ (copies m u 1) (chiOf S' δ (copies m u 1)) = copy m (br S (sums S) (small m δ) (u 1) (chiOf S (small m δ) (u 1))) := by
    rw [copies_eq, chi_copy hm hSS, br_copy hm hSS hsum]
    intro k hk
    simp only [chiOf, br_out _ _ _ hk, zero_div, neg_zero, ite_self]
  constructor
  · intro k hk
    obtain ⟨e0, e1⟩ := tendPlate_exact h' hδ (copies m u) ((hSS k).2 hk)
    obtain ⟨d0, d1⟩ := tendPlate_exact h hδs u hk
    fin_cases v
    · refine e0.trans (Eq.trans ?_ d0.symm)
      rw [hb, copy_times hm, copies_eq, copy_times hm, k4_times]
    · refine e1.trans (Eq.trans ?_ d1.symm)
      rw [copies_eq, copy_times hm]
  · intro q hq hM
    obtain ⟨e0, e1⟩ := tendPlate_exact h' hδ (copies m u) hq
    fin_cases v
    · refine e0.trans ?_
      rw [hb, copy_out _ hM, copies_eq, copy_out _ hM]
      ring
    · refine e1.trans ?_
      rw [copies_eq, copy_out _ hM]

end

end Verif.Replicas
