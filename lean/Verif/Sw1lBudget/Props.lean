import Verif.Sw1lBudget.Lemmas
import Verif.SpectBudget.Props

/-! # C74: spectral energy budgets of the shallow-water solvers -/

set_option linter.unusedSectionVars false

namespace Verif.Sw1lBudget

open Verif.Fourier Verif.Energy Verif.Forcing Verif.Sw1l Verif.Spectra2d Verif.SpectBudget Verif.Galerkin
  Finset

noncomputable section

variable {p : Par}

/-! ### Normal modes -/

/-- C74: for every state, every variable and every wavenumber, the three normal modes computed for the
budgets sum to the variable without its mean. -/
theorem C74_normal_modes (h : p.Ok) (u : Mode → UEta) (key : Key) (k : Mode) :
    normalMode p u key 0 k + normalMode p u key 1 k + normalMode p u key 2 k = field p u key k := by
  rw [← sum_normalMode h, Fin.sum_univ_three]

example : normalMode ⟨fun _ => 1, 3, 16⟩ (fun _ => ⟨1, 2, 5⟩) (.var .eta) 0 ![1, 0]
    + normalMode ⟨fun _ => 1, 3, 16⟩ (fun _ => ⟨1, 2, 5⟩) (.var .eta) 1 ![1, 0]
    + normalMode ⟨fun _ => 1, 3, 16⟩ (fun _ => ⟨1, 2, 5⟩) (.var .eta) 2 ![1, 0] = 5 := by
  rw [C74_normal_modes ⟨fun _ => by norm_num, by norm_num⟩]
  simp [field, fieldVar]

/-- The words of the groups. -/
theorem words_GGG : (words.filter fun w => ["GGG"].contains (letter w.1 ++ letter w.2.1 ++ letter w.2.2))
    = [(0, 0, 0)] := by decide +kernel

theorem words_AGG : (words.filter fun w => ["AGG", "GAG", "GGA", "aGG", "GaG", "GGa"].contains
      (letter w.1 ++ letter w.2.1 ++ letter w.2.2))
    = [(0, 0, 1), (0, 0, 2), (0, 1, 0), (0, 2, 0), (1, 0, 0), (2, 0, 0)] := by decide +kernel

theorem words_GAAs : (words.filter fun w => ["aaG", "aGa", "Gaa", "AAG", "AGA", "GAA"].contains
      (letter w.1 ++ letter w.2.1 ++ letter w.2.2))
    = [(0, 1, 1), (0, 2, 2), (1, 0, 1), (1, 1, 0), (2, 0, 2), (2, 2, 0)] := by decide +kernel

theorem words_GAAd : (words.filter fun w => ["aAG", "AaG", "aGA", "AGa", "GaA", "GAa"].contains
      (letter w.1 ++ letter w.2.1 ++ letter w.2.2))
    = [(0, 1, 2), (0, 2, 1), (1, 0, 2), (1, 2, 0), (2, 0, 1), (2, 1, 0)] := by decide +kernel

theorem words_AAA : (words.filter fun w => ["AAA", "aaa", "AAa", "AaA", "aAA", "aaA", "aAa", "Aaa"].contains
      (letter w.1 ++ letter w.2.1 ++ letter w.2.2))
    = [(1, 1, 1), (1, 1, 2), (1, 2, 1), (1, 2, 2), (2, 1, 1), (2, 1, 2), (2, 2, 1), (2, 2, 2)] := by
  decide +kernel

/-- C74: the products of three normal modes are never rejected; the groups GGG, AGG and AAA contain the
products announced by their table, and GAAs and GAAd together the products announced for the two. -/
theorem C74_groups_partial (n : Fin 2 → ℕ) (S : Finset Mode) (x y z : Fin 3 → Fld (Fin 2)) :
    ∃ d, triad n S x y z = .ok d ∧ d.map (·.1) = ["GGG", "AGG", "GAAs", "GAAd", "AAA"] ∧ ∀ k,
      valueOf d "GGG" k = announced n S x y z ["GGG"] k ∧
      valueOf d "AGG" k = announced n S x y z ["AGG", "GAG", "GGA", "aGG", "GaG", "GGa"] k ∧
      valueOf d "AAA" k
        = announced n S x y z ["AAA", "aaa", "AAa", "AaA", "aAA", "aaA", "aAa", "Aaa"] k ∧
      valueOf d "GAAs" k + valueOf d "GAAd" k
        = announced n S x y z ["aaG", "aGa", "Gaa", "AAG", "AGA", "GAA"] k
          + announced n S x y z ["aAG", "AaG", "aGA", "AGa", "GaA", "GAa"] k ∧
      -- the misplaced products
      valueOf d "GAAs" k = announced n S x y z ["aaG", "aGa", "Gaa", "AAG", "AGA", "GAA"] k
        + announced n S x y z ["GAa", "GaA"] k := by
  have w2 : (words.filter fun w => ["GAa", "GaA"].contains (letter w.1 ++ letter w.2.1 ++ letter w.2.2))
    = [(0, 1, 2), (0, 2, 1)] := by decide +kernel
  refine ⟨_, triad_ok n S x y z, rfl, fun k => ?_⟩
  simp only [announced, words_GGG, words_AGG, words_GAAs, words_GAAd, words_AAA, w2]
  refine ⟨?_, ?_, ?_, ?_, ?_⟩ <;>
    simp [valueOf, tri, List.lookup] <;> ring

/-! ### Transfers of sw1l -/

section transfers

variable {n : Fin 2 → ℕ} {S : Finset Mode}

theorem exact_deriv {a b : ℝ → Fld (Fin 2)} {a' b' : Fld (Fin 2)} {t : ℝ}
    (ha : ∀ k ∈ S, HasDerivAt (fun s => a s k) (a' k) t)
    (hb : ∀ k ∈ S, HasDerivAt (fun s => b s k) (b' k) t) (k : Mode) :
    HasDerivAt (fun s => exactProduct S (a s) (b s) k)
      (exactProduct S a' (b t) k + exactProduct S (a t) b' k) t := by
  simp only [exactProduct, ← sum_add_distrib]
  refine HasDerivAt.fun_sum fun q hq => HasDerivAt.fun_sum fun r hr => ?_
  split
  · exact (ha q hq).mul (hb r hr)
  · simpa using hasDerivAt_const t (0 : ℂ)

theorem re_mul_deriv {g m : ℝ → ℂ} {g' m' : ℂ} {t : ℝ} (hg : HasDerivAt g g' t) (hm : HasDerivAt m m' t) :
    HasDerivAt (fun s => ((starRingEnd ℂ) (g s) * m s).re)
      (((starRingEnd ℂ) g' * m t).re + ((starRingEnd ℂ) (g t) * m').re) t := by
  have h1 : HasDerivAt (fun s => (starRingEnd ℂ) (g s)) ((starRingEnd ℂ) g') t :=
    (Complex.conjCLE.toContinuousLinearMap).hasFDerivAt.comp_hasDerivAt t hg
  have h2 := Complex.reCLM.hasFDerivAt.comp_hasDerivAt t (h1.mul hm)
  rw [← Complex.add_re]
  exact h2

theorem fnlOf_exact (hn : ∀ d, 0 < n d) (hS : NoAlias n S) (δ : Fin 2 → ℝ) (ux uy a : Fld (Fin 2))
    {k : Mode} (hk : k ∈ S) : fnlOf n S δ ux uy a k = -advect S δ ![ux, uy] a k := by
  rw [fnlOf, if_pos hk]
  have e : ∀ j, -gridVal n S ux j * gridVal n S (Energy.deriv δ 0 a) j
      - gridVal n S uy j * gridVal n S (Energy.deriv δ 1 a) j
      = -(gridVal n S ux j * gridVal n S (Energy.deriv δ 0 a) j
        + gridVal n S uy j * gridVal n S (Energy.deriv δ 1 a) j) := fun j => by ring
  rw [fft_congr n e, fft_neg, fft_add, fft_prod hn hS _ _ hk, fft_prod hn hS _ _ hk]
  simp only [advect, Fin.sum_univ_two, Matrix.cons_val_zero, Matrix.cons_val_one, pd_deriv]

/-- C74: for a flow of sw1l without mean, the rate of change of the energy `½ h |u|² + ½ c² η²` of each
mode is the sum of the transfers of the budget and of one term, which the budget omits because its last
nonquadratic term has the derivative of `η u` instead of the derivative of `u`. -/
theorem C74_budget_partial (h : p.Ok) (hn : ∀ d, 0 < n d) (hS : NoAlias n S) {u : ℝ → Mode → UEta} {t : ℝ}
    (hu : EvolvesU S u (Sw1l.sw1l p n S (u t)) (fun _ => 0) t) (h0 : u t 0 = ⟨0, 0, 0⟩) {k : Mode}
    (hk : k ∈ S) :
    ∃ d, tq p n S (u t) (sw1lTerms p.c2) = .ok d ∧
      let ux : Fld (Fin 2) := fun k => (u t k).ux
      let uy : Fld (Fin 2) := fun k => (u t k).uy
      let eta : Fld (Fin 2) := fun k => (u t k).eta
      let adv := advect S p.δ ![ux, uy]
      HasDerivAt (fun s => energyH p S (u s) k)
        (total d k + tnq p n S (u t) k
          + (((starRingEnd ℂ) (ux k) * (adv (exactProduct S eta ux) k - exactProduct S eta (adv ux) k)).re
            + ((starRingEnd ℂ) (uy k) * (adv (exactProduct S eta uy) k
              - exactProduct S eta (adv uy) k)).re) / 2) t := by
  obtain ⟨d, hd, -, htot⟩ := tq_total h n S (u t) (sw1lTerms p.c2)
  refine ⟨d, hd, ?_⟩
  intro ux uy eta adv
  obtain ⟨hx, hy, he⟩ := hu
  set T := Sw1l.sw1l p n S (u t) with hT
  have dx : ∀ k ∈ S, HasDerivAt (fun s => (u s k).ux) ((T k).ux) t := fun k hk => by
    simpa using hx k hk
  have dy : ∀ k ∈ S, HasDerivAt (fun s => (u s k).uy) ((T k).uy) t := fun k hk => by
    simpa using hy k hk
  have de : ∀ k ∈ S, HasDerivAt (fun s => (u s k).eta) ((T k).eta) t := fun k hk => by
    simpa using he k hk
  have hM : ∀ {b : ℝ → Fld (Fin 2)} {b' : Fld (Fin 2)}, (∀ k ∈ S, HasDerivAt (fun s => b s k) (b' k) t) →
      HasDerivAt (fun s => exactProduct S (fun k => (u s k).eta) (b s) k)
        (exactProduct S (fun k => (T k).eta) (b t) k + exactProduct S eta b' k) t := fun hb =>
    exact_deriv de hb k
  have hmain := (((half_deriv (dx k hk)).fun_add (half_deriv (dy k hk))).fun_add
    (((re_mul_deriv (dx k hk) (hM dx)).fun_add (re_mul_deriv (dy k hk) (hM dy))).div_const 2)).fun_add
    ((half_deriv (de k hk)).const_mul p.c2)
  refine hmain.congr_deriv ?_
  have hC := fun q (hq : q ∈ S) => C57_sw1l p hn hS (u t) hq
  have hMx : ∀ {a b : Fld (Fin 2)}, ∀ q ∈ S, prod n S a b q = exactProduct S a b q := fun q hq =>
    prod_exact hn hS _ _ hq
  -- the fields of the budget are those of the state
  have f0 : ∀ v : Var, v ≠ .urx → v ≠ .ury → fieldVar p (u t) v
      = match v with | .ux => ux | .uy => uy | .eta => eta | _ => 0 := by
    intro v h1 h2
    funext q
    by_cases hq : q = 0
    · subst hq; cases v <;> simp_all [fieldVar, ux, uy, eta]
    · cases v <;> simp_all [fieldVar, ux, uy, eta]
  have fx : fieldVar p (u t) .ux = ux := f0 .ux (by simp) (by simp)
  have fy : fieldVar p (u t) .uy = uy := f0 .uy (by simp) (by simp)
  have fe : fieldVar p (u t) .eta = eta := f0 .eta (by simp) (by simp)
  have fd : field p (u t) .div = fun q => pd p.δ 0 ux q + pd p.δ 1 uy q := by
    funext q; simp only [field, divOf, pd, Par.kx, Par.ky, ux, uy]; push_cast; ring
  set D : Fld (Fin 2) := fun q => pd p.δ 0 ux q + pd p.δ 1 uy q with hD
  set Mx := exactProduct S eta ux with hMx'
  set My := exactProduct S eta uy with hMy'
  -- the tendencies
  have Tx : ∀ q ∈ S, (T q).ux = -adv ux q + p.f * uy q - p.c2 * pd p.δ 0 eta q := fun q hq => (hC q hq).1
  have Ty : ∀ q ∈ S, (T q).uy = -adv uy q - p.f * ux q - p.c2 * pd p.δ 1 eta q := fun q hq => (hC q hq).2.1
  have Te : ∀ q ∈ S, (T q).eta = -D q - (pd p.δ 0 Mx q + pd p.δ 1 My q) := fun q hq => (hC q hq).2.2
  have eneg : ∀ (a b : Fld (Fin 2)), exactProduct S a (fun q => -b q) k = -exactProduct S a b k := by
    intro a b
    have := exact_mul_right S a b (-1) k
    simpa using this
  have eDM : ∀ a : Fld (Fin 2), exactProduct S (fun q => (T q).eta) a k
      = -exactProduct S a D k - exactProduct S a (fun q => pd p.δ 0 Mx q + pd p.δ 1 My q) k := by
    intro a
    rw [exact_comm, exact_congr (fun _ _ => rfl) Te, exact_sub_right, eneg]
  have eTx : exactProduct S eta (fun q => (T q).ux) k
      = -exactProduct S eta (adv ux) k + p.f * My k
        - p.c2 * (Complex.I * ((p.δ 0 * k 0 : ℝ) : ℂ) * (1 / 2 * exactProduct S eta eta k)) := by
    rw [exact_congr (fun _ _ => rfl) Tx, exact_sub_right, exact_add_right, eneg, exact_mul_right,
      exact_mul_right, exact_half]
  have eTy : exactProduct S eta (fun q => (T q).uy) k
      = -exactProduct S eta (adv uy) k - p.f * Mx k
        - p.c2 * (Complex.I * ((p.δ 1 * k 1 : ℝ) : ℂ) * (1 / 2 * exactProduct S eta eta k)) := by
    rw [exact_congr (fun _ _ => rfl) Ty, exact_sub_right, exact_sub_right, eneg, exact_mul_right,
      exact_mul_right, exact_half]
  -- the budget
  have hFM : ∀ {a a' : Fld (Fin 2)}, (∀ q ∈ S, a q = a' q) → advect S p.δ ![ux, uy] a k = adv a' k := by
    intro a a' haa
    simp only [adv, advect]
    refine sum_congr rfl fun d _ => exact_congr (fun _ _ => rfl) (fun q hq => ?_) k
    simp only [pd, haa q hq]
  have hdM : exactProduct S ux (fun q => divOf p q (prod n S eta ux q) (prod n S eta uy q)) k
      = exactProduct S ux (fun q => pd p.δ 0 Mx q + pd p.δ 1 My q) k ∧
      exactProduct S uy (fun q => divOf p q (prod n S eta ux q) (prod n S eta uy q)) k
      = exactProduct S uy (fun q => pd p.δ 0 Mx q + pd p.δ 1 My q) k := by
    have : ∀ q ∈ S, divOf p q (prod n S eta ux q) (prod n S eta uy q)
        = pd p.δ 0 Mx q + pd p.δ 1 My q := by
      intro q hq
      rw [hMx q hq, hMx q hq]
      simp only [divOf, pd, Par.kx, Par.ky, Mx, My]; push_cast; ring
    exact ⟨exact_congr (fun _ _ => rfl) this k, exact_congr (fun _ _ => rfl) this k⟩
  have hq : tnq p n S (u t) k = 0.5 * (Mx k * (starRingEnd ℂ) (-adv ux k) + My k * (starRingEnd ℂ) (-adv uy k)
      + ((starRingEnd ℂ) (ux k) * -adv Mx k + (starRingEnd ℂ) (uy k) * -adv My k)
      - ((starRingEnd ℂ) (ux k) * exactProduct S ux (fun q => pd p.δ 0 Mx q + pd p.δ 1 My q) k
        + (starRingEnd ℂ) (uy k) * exactProduct S uy (fun q => pd p.δ 0 Mx q + pd p.δ 1 My q) k)).re := by
    simp only [tnq]
    rw [fnlOf_exact hn hS _ _ _ _ hk, fnlOf_exact hn hS _ _ _ _ hk, fnlOf_exact hn hS _ _ _ _ hk,
      fnlOf_exact hn hS _ _ _ _ hk, hMx k hk, hMx k hk, hMx k hk, hMx k hk, hFM (a' := Mx) hMx, hFM (a' := My) hMx]
    have a1 := hdM.1
    have a2 := hdM.2
    simp only [ux, uy, eta] at a1 a2 ⊢
    rw [a1, a2]
  have htq : total d k = -((starRingEnd ℂ) (ux k) * adv ux k).re - ((starRingEnd ℂ) (uy k) * adv uy k).re
      + 0.5 * p.c2 * ((starRingEnd ℂ) (pd p.δ 0 eta k) * Mx k).re
      + 0.5 * p.c2 * ((starRingEnd ℂ) (pd p.δ 1 eta k) * My k).re
      - 0.5 * ((starRingEnd ℂ) (ux k) * exactProduct S ux D k).re
      - 0.5 * ((starRingEnd ℂ) (uy k) * exactProduct S uy D k).re
      + 0.25 * p.c2 * ((starRingEnd ℂ) (D k) * exactProduct S eta eta k).re := by
    rw [htot]
    simp only [sw1lTerms, List.map_cons, List.map_nil, List.sum_cons, List.sum_nil, fd]
    simp only [field, fx, fy, fe, hMx k hk]
    simp only [adv, advect, Fin.sum_univ_two, Matrix.cons_val_zero, Matrix.cons_val_one, mul_add,
      Complex.add_re]
    ring
  rw [htq, hq, Tx k hk, Ty k hk, Te k hk, eDM, eDM, eTx, eTy]
  have hDk : D k = Complex.I * ((p.δ 0 * k 0 : ℝ) : ℂ) * ux k + Complex.I * ((p.δ 1 * k 1 : ℝ) : ℂ) * uy k := rfl
  have hpe : ∀ d, pd p.δ d eta k = Complex.I * ((p.δ d * k d : ℝ) : ℂ) * eta k := fun d => rfl
  have hpm : pd p.δ 0 Mx k + pd p.δ 1 My k = Complex.I * ((p.δ 0 * k 0 : ℝ) : ℂ) * Mx k
    + Complex.I * ((p.δ 1 * k 1 : ℝ) : ℂ) * My k := rfl
  rw [hDk, hpe, hpe, hpm]
  have ex : (u t k).ux = ux k := rfl
  have ey : (u t k).uy = uy k := rfl
  have ee : (u t k).eta = eta k := rfl
  rw [ex, ey, ee]
  generalize exactProduct S ux (fun q => pd p.δ 0 Mx q + pd p.δ 1 My q) k = a1
  generalize exactProduct S uy (fun q => pd p.δ 0 Mx q + pd p.δ 1 My q) k = a2
  generalize exactProduct S ux D k = a3
  generalize exactProduct S uy D k = a4
  generalize exactProduct S eta eta k = a5
  generalize exactProduct S eta (adv ux) k = a6
  generalize exactProduct S eta (adv uy) k = a7
  generalize adv ux k = b1
  generalize adv uy k = b2
  generalize adv Mx k = b3
  generalize adv My k = b4
  generalize Mx k = mx
  generalize My k = my
  generalize ux k = x
  generalize uy k = y
  generalize eta k = e
  generalize p.δ 0 * k 0 = kx
  generalize p.δ 1 * k 1 = ky
  simp only [Complex.add_re, Complex.sub_re, Complex.mul_re, Complex.neg_re, Complex.add_im, Complex.sub_im,
    Complex.mul_im, Complex.neg_im, Complex.conj_re, Complex.conj_im, Complex.I_re, Complex.I_im,
    Complex.ofReal_re, Complex.ofReal_im, map_add, map_mul, map_neg, map_sub]
  norm_num
  ring

/-- C74: for every real flow the transfers of the budget of sw1l sum to zero over the modes: they only
exchange energy between wavenumbers. -/
theorem C74_conservative (h : p.Ok) (hn : ∀ d, 0 < n d) (hS : TriadExact n S) (u : Mode → UEta)
    (hx : RealOn S fun k => (u k).ux) (hy : RealOn S fun k => (u k).uy) (he : RealOn S fun k => (u k).eta) :
    ∃ d, tq p n S u (sw1lTerms p.c2) = .ok d ∧ ∑ k ∈ S, total d k = 0 := by
  obtain ⟨d, hd, -, htot⟩ := tq_total h n S u (sw1lTerms p.c2)
  refine ⟨d, hd, ?_⟩
  have hz : ∀ {a : Fld (Fin 2)}, RealOn S a → RealOn S fun k => if k = 0 then 0 else a k := by
    intro a ha k hk
    refine ⟨(ha k hk).1, ?_⟩
    by_cases h0 : k = 0
    · simp [h0]
    · simp [h0, (ha k hk).2]
  have rx : RealOn S (fieldVar p u .ux) := hz hx
  have ry : RealOn S (fieldVar p u .uy) := hz hy
  have re : RealOn S (fieldVar p u .eta) := hz he
  set X := fieldVar p u .ux with hX
  set Y := fieldVar p u .uy with hY
  set E := fieldVar p u .eta with hE
  have fd : field p u .div = fun q => Energy.deriv p.δ 0 X q + Energy.deriv p.δ 1 Y q := by
    funext q
    by_cases hq : q = 0
    · subst hq; simp [field, divOf, Par.kx, Par.ky, Energy.deriv]
    · simp only [field, divOf, Energy.deriv, Par.kx, Par.ky, X, Y, fieldVar, if_neg hq]; push_cast; ring
  have rd : RealOn S (field p u .div) := by
    rw [fd]
    intro k hk
    refine ⟨(hx k hk).1, ?_⟩
    simp only [map_add, (rx.deriv p.δ 0 k hk).2, (ry.deriv p.δ 1 k hk).2]
  -- the sum of a term is a mean over the grid
  have hsum : ∀ {a : Fld (Fin 2)} (b c : Fld (Fin 2)), RealOn S a →
      ∑ k ∈ S, ((starRingEnd ℂ) (a k) * prod n S b c k).re
        = (gmean n fun j => gridVal n S b j * gridVal n S c j * gridVal n S a j).re := by
    intro a b c ha
    rw [← parseval_real n (fun j => gridVal n S b j * gridVal n S c j) ha, Complex.re_sum]
    refine sum_congr rfl fun k hk => ?_
    rw [prod, if_pos hk, mul_comm]
  have hgd : ∀ j : Pt n, gridVal n S (field p u .div) j
      = gridVal n S (Energy.deriv p.δ 0 X) j + gridVal n S (Energy.deriv p.δ 1 Y) j := by
    intro j; rw [fd]; simp only [gridVal, add_mul, sum_add_distrib]
  simp only [htot, sw1lTerms, List.map_cons, List.map_nil, List.sum_cons, List.sum_nil, sum_add_distrib,
    ← mul_sum, sum_const_zero]
  have r1 := hsum X (Energy.deriv p.δ 0 X) rx
  have r2 := hsum Y (Energy.deriv p.δ 1 X) rx
  have r3 := hsum X (Energy.deriv p.δ 0 Y) ry
  have r4 := hsum Y (Energy.deriv p.δ 1 Y) ry
  have r5 := hsum E X (re.deriv p.δ 0)
  have r6 := hsum E Y (re.deriv p.δ 1)
  have r7 := hsum X (field p u .div) rx
  have r8 := hsum Y (field p u .div) ry
  have r9 := hsum E E rd
  rw [gmean_congr n (fun j => by rw [hgd, mul_add, add_mul]), gmean_add] at r7 r8
  rw [gmean_congr n (fun j => by rw [hgd, mul_add]), gmean_add] at r9
  simp only [field, ← hX, ← hY, ← hE, ← pd_deriv] at r1 r2 r3 r4 r5 r6 r7 r8 r9 ⊢
  rw [r1, r2, r3, r4, r5, r6, r7, r8, r9]
  simp only [Complex.add_re]
  have l := fun (d : Fin 2) (a b c : Fld (Fin 2)) => congrArg Complex.re (leibniz hn hS p.δ d a b c)
  have comm : ∀ (a b c a' b' c' : Fld (Fin 2)), (∀ j : Pt n, gridVal n S a j * gridVal n S b j * gridVal n S c j
      = gridVal n S a' j * gridVal n S b' j * gridVal n S c' j) →
      (gmean n fun j => gridVal n S a j * gridVal n S b j * gridVal n S c j).re
        = (gmean n fun j => gridVal n S a' j * gridVal n S b' j * gridVal n S c' j).re := by
    intro a b c a' b' c' hh; rw [gmean_congr n hh]
  simp only [Complex.add_re, Complex.zero_re] at l
  have l1 := l 0 X X X
  have l2 := l 1 Y X X
  have l3 := l 0 X Y Y
  have l4 := l 1 Y Y Y
  have l5 := l 0 X E E
  have l6 := l 1 Y E E
  set dX := Energy.deriv p.δ 0 X
  set dXy := Energy.deriv p.δ 1 X
  set dYx := Energy.deriv p.δ 0 Y
  set dY := Energy.deriv p.δ 1 Y
  set dEx := Energy.deriv p.δ 0 E
  set dEy := Energy.deriv p.δ 1 E
  rw [comm dX X X X dX X (fun j => by ring), comm X X dX X dX X (fun j => by ring)] at l1
  rw [comm dY X X X dY X (fun j => by ring), comm Y X dXy Y dXy X (fun j => by ring)] at l2
  rw [comm dX Y Y Y dX Y (fun j => by ring), comm X Y dYx X dYx Y (fun j => by ring)] at l3
  rw [comm dY Y Y Y dY Y (fun j => by ring), comm Y Y dY Y dY Y (fun j => by ring)] at l4
  rw [comm dX E E E E dX (fun j => by ring), comm X dEx E E X dEx (fun j => by ring),
    comm X E dEx E X dEx (fun j => by ring)] at l5
  rw [comm dY E E E E dY (fun j => by ring), comm Y dEy E E Y dEy (fun j => by ring),
    comm Y E dEy E Y dEy (fun j => by ring)] at l6
  linear_combination -0.5 * l1 - 0.5 * l2 - 0.5 * l3 - 0.5 * l4 + 0.25 * p.c2 * l5 + 0.25 * p.c2 * l6

/-- The result of `dyadFft`. -/
def dy (x y : Fin 3 → Fld (Fin 2)) : List (String × Fld (Fin 2)) :=
  let v := fun i j => (fun k => (starRingEnd ℂ) (x i k) * y j k : Fld (Fin 2))
  [("GG", v 0 0), ("AG", v 0 1 + v 1 0), ("aG", v 0 2 + v 2 0), ("AA", v 1 1 + v 1 2 + v 2 1 + v 2 2)]

theorem cq_ok (p : Par) (u : Mode → UEta) : cq p u = .ok (dyadGroup.map fun g =>
    (g.1, fun k => ((-p.c2 : ℝ) * valueOf (dy (normalMode p u (.var .ux)) (normalMode p u (.px .eta))) g.1 k : ℂ).re
      + ((-p.c2 : ℝ) * valueOf (dy (normalMode p u (.var .uy)) (normalMode p u (.py .eta))) g.1 k : ℂ).re)) := by
  have h : ∀ x y, dyadFft x y = .ok (dy x y) := dyadFft_eq
  simp only [cq, h]

/-- C74: the exchanges saved by the budget, summed over their groups, are the rate at which the mode
loses potential energy, `c² Re(η* div u)`. -/
theorem C74_exchanges (h : p.Ok) (u : Mode → UEta) {k : Mode} (hk : k ≠ 0) :
    ∃ d, cq p u = .ok d ∧ d.map (·.1) = ["GG", "AG", "aG", "AA"] ∧
      total d k = p.c2 * ((starRingEnd ℂ) (u k).eta * divOf p k (u k).ux (u k).uy).re := by
  have hok := cq_ok p u
  refine ⟨_, hok, rfl, ?_⟩
  have key : ∀ x y : Fin 3 → Fld (Fin 2),
      (dyadGroup.map fun g => valueOf (dy x y) g.1 k).sum = (starRingEnd ℂ) (∑ i, x i k) * ∑ i, y i k := by
    intro x y
    simp only [Fin.sum_univ_three, map_add]
    simp [dyadGroup, valueOf, dy, List.lookup]
    ring
  simp only [total, List.map_map, Function.comp_def]
  have hs : ∀ l m : List (String × Fld (Fin 2)),
      (dyadGroup.map fun g => ((-p.c2 : ℝ) * valueOf l g.1 k : ℂ).re + ((-p.c2 : ℝ) * valueOf m g.1 k : ℂ).re).sum
      = -p.c2 * (dyadGroup.map fun g => valueOf l g.1 k).sum.re
        + -p.c2 * (dyadGroup.map fun g => valueOf m g.1 k).sum.re := by
    intro l m
    simp [dyadGroup]
    ring
  rw [hs, key, key, sum_normalMode h, sum_normalMode h, sum_normalMode h, sum_normalMode h]
  simp only [field, fieldVar, pd, if_neg hk, divOf, Par.kx, Par.ky]
  simp only [Complex.add_re, Complex.mul_re, Complex.add_im,
    Complex.mul_im, Complex.conj_re, Complex.conj_im, Complex.I_re, Complex.I_im,
    Complex.ofReal_re, Complex.ofReal_im]
  ring

end transfers

end

end Verif.Sw1lBudget
