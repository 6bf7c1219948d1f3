import Verif.Sw1lBudget.Spec
import Verif.SpectBudget.Lemmas
import Verif.Galerkin.Props
import Verif.Sw1l.Props
import Verif.Spectra2d.PropsValues

/-! # Lemmas for C74 -/

set_option linter.unusedSectionVars false

namespace Verif.Sw1lBudget

open Verif.Fourier Verif.Energy Verif.Forcing Verif.Sw1l Verif.Spectra2d Verif.SpectBudget Verif.Galerkin
  Finset

noncomputable section

variable {p : Par}

theorem sqrt_rpow (x : ℝ) : x ^ (0.5 : ℝ) = √x := by
  rw [Real.sqrt_eq_rpow]; norm_num

theorem sigma_sq (h : p.Ok) {k : Mode} (hk : k ≠ 0) :
    0 < sigma p k ∧ sigma p k ^ 2 = p.f ^ 2 + p.c2 * p.k2 k := by
  have hk2 := h.k2_pos hk
  have hc := h.2
  have e : sigma p k = √(p.f ^ 2 + p.c2 * p.k2 k) := by
    simp only [sigma, sqrt_rpow, h.k2not0 hk]
    split
    · rename_i hf
      rw [hf, ← Real.sqrt_mul hc.le]; congr 1; ring
    · congr 1
      rw [mul_pow, Real.sq_sqrt hc.le, Real.sq_sqrt hk2.le]
  rw [e]
  have : 0 < p.f ^ 2 + p.c2 * p.k2 k := by positivity
  exact ⟨Real.sqrt_pos.mpr this, Real.sq_sqrt this.le⟩

theorem kappa_sigma (h : p.Ok) {k : Mode} (hk : k ≠ 0) :
    p.kappaOverIc k = -Complex.I * (sigma p k / p.c2 : ℝ) := by
  have hk2 := h.k2_pos hk
  have hc := h.2
  obtain ⟨h1, h2⟩ := sigma_sq h hk
  rw [Par.kappaOverIc]
  have : √((p.k2 k + p.kd2) / p.c2) = sigma p k / p.c2 := by
    rw [Real.sqrt_eq_iff_mul_self_eq_of_pos (by positivity)]
    have : sigma p k / p.c2 * (sigma p k / p.c2) = sigma p k ^ 2 / p.c2 ^ 2 := by ring
    rw [this, h2, Par.kd2]
    field_simp
    ring
  rw [this]; ring

/-- The three modes of a wavenumber give its primitive variables. -/
theorem qmat_bvec (h : p.Ok) {k : Mode} (hk : k ≠ 0) (u : UEta) :
    let b := QA.comp (bvec p k (qapam p k u))
    ∑ i, qmat p k 0 i * b i = u.ux ∧ ∑ i, qmat p k 1 i * b i = u.uy ∧
      (∑ i, qmat p k 2 i * b i) / (p.c2 ^ (0.5 : ℝ) : ℝ) = u.eta := by
  have hk2 := h.k2_pos hk
  have hc := h.2
  obtain ⟨hσ, hσ2⟩ := sigma_sq h hk
  have hS : ((√(2 : ℝ) : ℝ) : ℂ) ≠ 0 := by exact_mod_cast (Real.sqrt_pos.mpr two_pos).ne'
  have hC : ((√p.c2 : ℝ) : ℂ) ≠ 0 := by exact_mod_cast (Real.sqrt_pos.mpr hc).ne'
  have hC2 : ((√p.c2 : ℝ) : ℂ) ^ 2 = p.c2 := by exact_mod_cast Real.sq_sqrt hc.le
  have hK : ((√(p.k2 k) : ℝ) : ℂ) ≠ 0 := by exact_mod_cast (Real.sqrt_pos.mpr hk2).ne'
  have hK2 : ((√(p.k2 k) : ℝ) : ℂ) ^ 2 = p.k2 k := by exact_mod_cast Real.sq_sqrt hk2.le
  have hG : (sigma p k : ℂ) ≠ 0 := by exact_mod_cast hσ.ne'
  have hG2 : (sigma p k : ℂ) ^ 2 = p.f ^ 2 + p.c2 * p.k2 k := by exact_mod_cast hσ2
  have hkk : (p.k2 k : ℂ) = p.kx k ^ 2 + p.ky k ^ 2 := by simp only [Par.k2]; push_cast; ring
  have hk2c : (p.k2 k : ℂ) ≠ 0 := by exact_mod_cast hk2.ne'
  have hcc : (p.c2 : ℂ) ≠ 0 := by exact_mod_cast hc.ne'
  intro b
  simp only [b, QA.comp, bvec, if_neg hk, qmat, qapam_ne hk, kappa_sigma h hk, Fin.sum_univ_three, sqrt_rpow,
    h.k2not0 hk, rotOf, divOf]
  simp only [Matrix.of_apply, Matrix.cons_val', Matrix.cons_val_zero, Matrix.cons_val_one, Matrix.cons_val]
  push_cast
  rw [← hC2] at hG2 ⊢
  rw [← hK2] at hG2 hkk ⊢
  set C : ℂ := ((√p.c2 : ℝ) : ℂ)
  set K : ℂ := ((√(p.k2 k) : ℝ) : ℂ)
  set G : ℂ := (sigma p k : ℂ)
  set s : ℂ := ((√(2 : ℝ) : ℝ) : ℂ)
  set X : ℂ := (p.kx k : ℂ)
  set Y : ℂ := (p.ky k : ℂ)
  set f : ℂ := (p.f : ℂ)
  have hI : Complex.I ^ 2 = -1 := Complex.I_sq
  obtain ⟨ux, uy, eta⟩ := u
  simp only
  refine ⟨?_, ?_, ?_⟩
  · field_simp
    linear_combination (2 * Y * (X * uy - Y * ux) * (C ^ 2 * K ^ 2 + f ^ 2)
      - 2 * G ^ 2 * X * (X * ux + Y * uy)) * hI + 2 * Y * (X * uy - Y * ux) * hG2 - 2 * G ^ 2 * ux * hkk
  · field_simp
    linear_combination (-2 * X * (X * uy - Y * ux) * (C ^ 2 * K ^ 2 + f ^ 2)
      - 2 * G ^ 2 * Y * (X * ux + Y * uy)) * hI - 2 * X * (X * uy - Y * ux) * hG2 - 2 * G ^ 2 * uy * hkk
  · field_simp
    linear_combination -2 * eta * hG2

theorem bvec_zero (s : QA) (i : Fin 3) : QA.comp (bvec p 0 s) i = 0 := by
  fin_cases i <;> simp [QA.comp, bvec]

theorem sum_modeOf (h : p.Ok) (u : Mode → UEta) (v : Var) (k : Mode) :
    ∑ i, modeOf p u v i k = fieldVar p u v k := by
  by_cases hk : k = 0
  · subst hk
    simp only [fieldVar, if_pos, modeOf]
    refine sum_eq_zero fun i _ => ?_
    cases v <;> simp [bvecOf, bvec_zero]
  · obtain ⟨h1, h2, h3⟩ := qmat_bvec h hk (u k)
    obtain ⟨h4, h5, -⟩ := qmat_bvec h hk (rotState p u k)
    simp only [fieldVar, if_neg hk, modeOf]
    cases v
    · simpa [bvecOf, Var.row] using h1
    · simpa [bvecOf, Var.row] using h2
    · simp only [if_pos, ← sum_div]
      simpa [bvecOf, Var.row] using h3
    · simpa [bvecOf, Var.row] using h4
    · simpa [bvecOf, Var.row] using h5

theorem sum_normalMode (h : p.Ok) (u : Mode → UEta) (key : Key) (k : Mode) :
    ∑ i, normalMode p u key i k = field p u key k := by
  cases key with
  | var v => exact sum_modeOf h u v k
  | px v => simp only [normalMode, field, Energy.deriv, pd, ← mul_sum, sum_modeOf h]
  | py v => simp only [normalMode, field, Energy.deriv, pd, ← mul_sum, sum_modeOf h]
  | div =>
    simp only [normalMode, field, Energy.deriv, sum_add_distrib, ← mul_sum, sum_modeOf h, fieldVar]
    by_cases hk : k = 0
    · subst hk; simp [divOf, Par.kx, Par.ky]
    · simp only [if_neg hk, divOf, Par.kx, Par.ky]; push_cast; ring

/-! ### Groups -/

section groups

variable {V : Type*} [AddCommMonoid V]

theorem dyad_explicit (v : Fin 3 → Fin 3 → V) :
    groupMatrix dyadGroup [("GG", v 0 0), ("GA", v 0 1), ("Ga", v 0 2), ("AG", v 1 0), ("AA", v 1 1),
        ("Aa", v 1 2), ("aG", v 2 0), ("aA", v 2 1), ("aa", v 2 2)]
      = .ok [("GG", v 0 0), ("AG", v 0 1 + v 1 0), ("aG", v 0 2 + v 2 0),
          ("AA", v 1 1 + v 1 2 + v 2 1 + v 2 2)] := by
  have g1 : groupOf dyadGroup "GG" = some "GG" := by decide +kernel
  have g2 : groupOf dyadGroup "GA" = some "AG" := by decide +kernel
  have g3 : groupOf dyadGroup "Ga" = some "aG" := by decide +kernel
  have g4 : groupOf dyadGroup "AG" = some "AG" := by decide +kernel
  have g5 : groupOf dyadGroup "AA" = some "AA" := by decide +kernel
  have g6 : groupOf dyadGroup "Aa" = some "AA" := by decide +kernel
  have g7 : groupOf dyadGroup "aG" = some "aG" := by decide +kernel
  have g8 : groupOf dyadGroup "aA" = some "AA" := by decide +kernel
  have g9 : groupOf dyadGroup "aa" = some "AA" := by decide +kernel
  simp only [groupMatrix, groupLoop, g1, g2, g3, g4, g5, g6, g7, g8, g9]
  simp [dyadGroup, addTo]

/-- The twelve products of a mode and a group of two modes. -/
theorem triad_explicit (v : Fin 3 → Fin 4 → V) :
    groupMatrix triadGroup [("GGG", v 0 0), ("GAG", v 0 1), ("GaG", v 0 2), ("GAA", v 0 3),
        ("AGG", v 1 0), ("AAG", v 1 1), ("AaG", v 1 2), ("AAA", v 1 3),
        ("aGG", v 2 0), ("aAG", v 2 1), ("aaG", v 2 2), ("aAA", v 2 3)]
      = .ok [("GGG", v 0 0), ("AGG", v 0 1 + v 0 2 + v 1 0 + v 2 0), ("GAAs", v 0 3 + v 1 1 + v 2 2),
          ("GAAd", v 1 2 + v 2 1), ("AAA", v 1 3 + v 2 3)] := by
  have g1 : groupOf triadGroup "GGG" = some "GGG" := by decide +kernel
  have g2 : groupOf triadGroup "GAG" = some "AGG" := by decide +kernel
  have g3 : groupOf triadGroup "GaG" = some "AGG" := by decide +kernel
  have g4 : groupOf triadGroup "GAA" = some "GAAs" := by decide +kernel
  have g5 : groupOf triadGroup "AGG" = some "AGG" := by decide +kernel
  have g6 : groupOf triadGroup "AAG" = some "GAAs" := by decide +kernel
  have g7 : groupOf triadGroup "AaG" = some "GAAd" := by decide +kernel
  have g8 : groupOf triadGroup "AAA" = some "AAA" := by decide +kernel
  have g9 : groupOf triadGroup "aGG" = some "AGG" := by decide +kernel
  have g10 : groupOf triadGroup "aAG" = some "GAAd" := by decide +kernel
  have g11 : groupOf triadGroup "aaG" = some "GAAs" := by decide +kernel
  have g12 : groupOf triadGroup "aAA" = some "AAA" := by decide +kernel
  simp only [groupMatrix, groupLoop, g1, g2, g3, g4, g5, g6, g7, g8, g9, g10, g11, g12]
  simp [triadGroup, addTo]

end groups

theorem dyadPhys_eq (n : Fin 2 → ℕ) (S : Finset Mode) (y z : Fin 3 → Fld (Fin 2)) :
    dyadPhys n S y z = .ok [("GG", prod n S (y 0) (z 0)),
      ("AG", prod n S (y 0) (z 1) + prod n S (y 1) (z 0)),
      ("aG", prod n S (y 0) (z 2) + prod n S (y 2) (z 0)),
      ("AA", prod n S (y 1) (z 1) + prod n S (y 1) (z 2) + prod n S (y 2) (z 1)
        + prod n S (y 2) (z 2))] := by
  rw [← dyad_explicit fun i j => prod n S (y i) (z j)]
  rfl

theorem dyadFft_eq (x y : Fin 3 → Fld (Fin 2)) :
    let v := fun i j => (fun k => (starRingEnd ℂ) (x i k) * y j k : Fld (Fin 2))
    dyadFft x y = .ok [("GG", v 0 0), ("AG", v 0 1 + v 1 0), ("aG", v 0 2 + v 2 0),
      ("AA", v 1 1 + v 1 2 + v 2 1 + v 2 2)] := by
  intro v
  rw [← dyad_explicit v]
  rfl

/-- The content of the groups of triads. -/
theorem triad_eq (n : Fin 2 → ℕ) (S : Finset Mode) (x y z : Fin 3 → Fld (Fin 2)) :
    let P := fun i j => prod n S (y i) (z j)
    let c := fun i (b : Fld (Fin 2)) => (fun k => (starRingEnd ℂ) (x i k) * b k : Fld (Fin 2))
    triad n S x y z = .ok [("GGG", c 0 (P 0 0)),
      ("AGG", c 0 (P 0 1 + P 1 0) + c 0 (P 0 2 + P 2 0) + c 1 (P 0 0) + c 2 (P 0 0)),
      ("GAAs", c 0 (P 1 1 + P 1 2 + P 2 1 + P 2 2) + c 1 (P 0 1 + P 1 0) + c 2 (P 0 2 + P 2 0)),
      ("GAAd", c 1 (P 0 2 + P 2 0) + c 2 (P 0 1 + P 1 0)),
      ("AAA", c 1 (P 1 1 + P 1 2 + P 2 1 + P 2 2) + c 2 (P 1 1 + P 1 2 + P 2 1 + P 2 2))] := by
  intro P c
  rw [triad, dyadPhys_eq]
  have := triad_explicit fun i j => c i (![P 0 0, P 0 1 + P 1 0, P 0 2 + P 2 0,
    P 1 1 + P 1 2 + P 2 1 + P 2 2] j)
  exact this

/-! ### Products -/

theorem grid_sum {D : Type*} [Fintype D] [DecidableEq D] (n : D → ℕ) (S : Finset (D → ℤ)) {ι : Type*} (I : Finset ι)
    (x : ι → Fld D) (j : Pt n) :
    gridVal n S (fun k => ∑ i ∈ I, x i k) j = ∑ i ∈ I, gridVal n S (x i) j := by
  simp only [gridVal, sum_mul]
  rw [sum_comm]

theorem fft_sum {D : Type*} [Fintype D] [DecidableEq D] (n : D → ℕ) {ι : Type*} (I : Finset ι)
    (x : ι → Pt n → ℂ) (k : D → ℤ) :
    fftCoef n (fun j => ∑ i ∈ I, x i j) k = ∑ i ∈ I, fftCoef n (x i) k := by
  simp only [fftCoef, sum_mul, ← sum_div]
  rw [sum_comm]

theorem prod_congr' {n : Fin 2 → ℕ} {S : Finset Mode} {a a' b b' : Fld (Fin 2)} (ha : ∀ k, a k = a' k)
    (hb : ∀ k, b k = b' k) (k : Mode) : prod n S a b k = prod n S a' b' k := by
  rw [funext ha, funext hb]

/-- The products of the modes of two fields give the product of the fields. -/
theorem sum_prod (n : Fin 2 → ℕ) (S : Finset Mode) (y z : Fin 3 → Fld (Fin 2)) (k : Mode) :
    ∑ i, ∑ j, prod n S (y i) (z j) k = prod n S (fun k => ∑ i, y i k) (fun k => ∑ i, z i k) k := by
  simp only [prod]
  split
  · simp only [← fft_sum, ← mul_sum, ← sum_mul, grid_sum]
  · simp

theorem prod_exact {n : Fin 2 → ℕ} (hn : ∀ d, 0 < n d) {S : Finset Mode} (hS : NoAlias n S)
    (a b : Fld (Fin 2)) {k : Mode} (hk : k ∈ S) : prod n S a b k = exactProduct S a b k := by
  rw [prod, if_pos hk, fft_prod hn hS _ _ hk]

/-- The result of `triad`. -/
def tri (n : Fin 2 → ℕ) (S : Finset Mode) (x y z : Fin 3 → Fld (Fin 2)) : List (String × Fld (Fin 2)) :=
  let P := fun i j => prod n S (y i) (z j)
  let c := fun i (b : Fld (Fin 2)) => (fun k => (starRingEnd ℂ) (x i k) * b k : Fld (Fin 2))
  [("GGG", c 0 (P 0 0)),
      ("AGG", c 0 (P 0 1 + P 1 0) + c 0 (P 0 2 + P 2 0) + c 1 (P 0 0) + c 2 (P 0 0)),
      ("GAAs", c 0 (P 1 1 + P 1 2 + P 2 1 + P 2 2) + c 1 (P 0 1 + P 1 0) + c 2 (P 0 2 + P 2 0)),
      ("GAAd", c 1 (P 0 2 + P 2 0) + c 2 (P 0 1 + P 1 0)),
      ("AAA", c 1 (P 1 1 + P 1 2 + P 2 1 + P 2 2) + c 2 (P 1 1 + P 1 2 + P 2 1 + P 2 2))]

theorem triad_ok (n : Fin 2 → ℕ) (S : Finset Mode) (x y z : Fin 3 → Fld (Fin 2)) :
    triad n S x y z = .ok (tri n S x y z) := triad_eq n S x y z

theorem tri_total (n : Fin 2 → ℕ) (S : Finset Mode) (x y z : Fin 3 → Fld (Fin 2)) (k : Mode) :
    (triadGroup.map fun g => valueOf (tri n S x y z) g.1 k).sum
      = (starRingEnd ℂ) (∑ i, x i k)
        * prod n S (fun k => ∑ i, y i k) (fun k => ∑ i, z i k) k := by
  rw [← sum_prod]
  simp only [Fin.sum_univ_three, map_add]
  simp [triadGroup, valueOf, tri, List.lookup]
  ring

theorem triads_ok (p : Par) (n : Fin 2 → ℕ) (S : Finset Mode) (u : Mode → UEta) (terms : List Term) :
    triads p n S u terms = .ok (terms.map fun t =>
      (t.coef, tri n S (normalMode p u t.a) (normalMode p u t.b) (normalMode p u t.c))) := by
  induction terms with
  | nil => rfl
  | cons t l ih => simp [triads, triad_ok, ih]

theorem tq_ok (p : Par) (n : Fin 2 → ℕ) (S : Finset Mode) (u : Mode → UEta) (terms : List Term) :
    tq p n S u terms = .ok (triadGroup.map fun g => (g.1, fun k => (terms.map fun t =>
      ((t.coef : ℂ) * valueOf (tri n S (normalMode p u t.a) (normalMode p u t.b) (normalMode p u t.c))
        g.1 k).re).sum)) := by
  simp [tq, triads_ok, Function.comp_def]

theorem list_sum_comm {α β : Type*} (l : List α) (m : List β) (f : α → β → ℝ) :
    (l.map fun a => (m.map fun b => f a b).sum).sum = (m.map fun b => (l.map fun a => f a b).sum).sum := by
  induction l with
  | nil => simp
  | cons a l ih => simp [ih, List.sum_map_add]

theorem list_re_sum {α : Type*} (l : List α) (f : α → ℂ) : (l.map fun a => (f a).re).sum = (l.map f).sum.re := by
  induction l with
  | nil => simp
  | cons a l ih => simp [ih]

theorem tq_total (h : p.Ok) (n : Fin 2 → ℕ) (S : Finset Mode) (u : Mode → UEta) (terms : List Term) :
    ∃ d, tq p n S u terms = .ok d ∧ d.map (·.1) = triadGroup.map (·.1) ∧
      ∀ k, total d k = (terms.map fun t => t.coef
        * ((starRingEnd ℂ) (field p u t.a k) * prod n S (field p u t.b) (field p u t.c) k).re).sum := by
  refine ⟨_, tq_ok p n S u terms, by simp [Function.comp_def], fun k => ?_⟩
  rw [total, List.map_map]
  simp only [Function.comp_def]
  rw [list_sum_comm]
  congr 1
  refine List.map_congr_left fun t _ => ?_
  rw [list_re_sum, List.sum_map_mul_left, tri_total, sum_normalMode h,
    prod_congr' (sum_normalMode h u t.b) (sum_normalMode h u t.c)]
  simp

end

end Verif.Sw1lBudget
