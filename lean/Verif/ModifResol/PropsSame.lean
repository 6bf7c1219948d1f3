import Verif.ModifResol.Props
import Mathlib.LinearAlgebra.FiniteDimensional.Basic
import Mathlib.Algebra.BigOperators.Intervals
import Mathlib.LinearAlgebra.FiniteDimensional.Lemmas

/-! # C79: files written without change of resolution, numbers of points -/

set_option linter.unusedSectionVars false

namespace Verif.ModifResol

open Verif.Fourier Verif.Modes Finset

noncomputable section

variable {D : Type*} [Fintype D] [DecidableEq D]

/-- The wavenumbers of an index of the array. -/
def idx {n : D → ℕ} (i : Pt n) : D → ℤ := fun d => ((i d : ℕ) : ℤ)

theorem idx_dvd {n : D → ℕ} (i i' : Pt n) (h : ∀ d, (n d : ℤ) ∣ idx i d - idx i' d) : i = i' := by
  funext d
  have h1 := (i d).2
  have h2 := (i' d).2
  have := Int.eq_zero_of_abs_lt_dvd (h d) (by simp only [idx]; rw [abs_lt]; omega)
  simp only [idx] at this
  exact Fin.ext (by omega)

/-- The discrete transform is inverted by the sum over all its indices. -/
theorem grid_inverse (n : D → ℕ) (hn : ∀ d, 0 < n d) (x : Pt n → ℂ) (j : Pt n) :
    ∑ i : Pt n, fftCoef n x (idx i) * chi n (idx i) j = x j := by
  have hN : (∏ d, (n d : ℂ)) ≠ 0 := by
    rw [prod_ne_zero_iff]; intro d _; exact_mod_cast (hn d).ne'
  let E : (Pt n → ℂ) →ₗ[ℂ] (Pt n → ℂ) :=
    { toFun := fun x i => fftCoef n x (idx i)
      map_add' := fun a b => by funext i; simp only [fftCoef, Pi.add_apply, add_mul, sum_add_distrib, add_div]
      map_smul' := fun c a => by
        funext i; simp only [fftCoef, Pi.smul_apply, smul_eq_mul, mul_assoc, ← mul_sum, mul_div_assoc, RingHom.id_apply] }
  let G : (Pt n → ℂ) →ₗ[ℂ] (Pt n → ℂ) :=
    { toFun := fun a j => ∑ i : Pt n, a i * chi n (idx i) j
      map_add' := fun a b => by funext i; simp only [Pi.add_apply, add_mul, sum_add_distrib]
      map_smul' := fun c a => by funext i; simp only [Pi.smul_apply, smul_eq_mul, mul_assoc, ← mul_sum, RingHom.id_apply] }
  have h : E ∘ₗ G = LinearMap.id := by
    refine LinearMap.ext fun a => funext fun i0 => ?_
    show fftCoef n (fun j => ∑ i : Pt n, a i * chi n (idx i) j) (idx i0) = a i0
    rw [fftCoef, div_eq_iff hN]
    have h1 : ∀ j : Pt n, (∑ i : Pt n, a i * chi n (idx i) j) * chi n (-idx i0) j
        = ∑ i : Pt n, a i * chi n (idx i + -idx i0) j := by
      intro j
      rw [sum_mul]
      refine sum_congr rfl fun p _ => ?_
      rw [← chi_mul]; ring
    simp only [h1]
    rw [sum_comm]
    simp only [← mul_sum, sum_chi n hn, Pi.add_apply, Pi.neg_apply]
    simp only [← sub_eq_add_neg]
    rw [sum_eq_single i0]
    · simp
    · intro i _ hi
      rw [if_neg fun h => hi (idx_dvd _ _ h), mul_zero]
    · simp
  have h' := (LinearMap.comp_eq_id_comm ℂ (Pt n → ℂ)).1 h
  exact congrFun (LinearMap.congr_fun h' x) j

/-- Sum of a symmetric periodic function over a half of the indices. -/
theorem half_sum (n : ℕ) (hn : 0 < n) (g : ℕ → ℝ) (hg : ∀ b, 0 < b → b < n → g (n - b) = g b) :
    ∑ b ∈ range n, g b = ∑ m ∈ range (n / 2 + 1), weight n m * g m := by
  have refl : ∀ q, (∀ b < q, b + 1 < n ∧ n - (b + 1) = n - q + (q - 1 - b)) → ∑ b ∈ range q, g (n - q + b) = ∑ b ∈ range q, g (b + 1) := by
    intro q hq
    rw [← sum_range_reflect]
    refine sum_congr rfl fun b hb => ?_
    have h1 := hq b (mem_range.1 hb)
    rw [← h1.2]
    exact hg (b + 1) (by omega) (by omega)
  rcases Nat.even_or_odd' n with ⟨q, rfl | rfl⟩
  · obtain ⟨r, rfl⟩ : ∃ r, q = r + 1 := ⟨q - 1, by omega⟩
    have e : 2 * (r + 1) = r + 1 + 1 + r := by ring
    have e2 : 2 * (r + 1) / 2 + 1 = r + 1 + 1 := by omega
    rw [e2, sum_range_succ, sum_range_succ']
    have hl : ∑ b ∈ range (2 * (r + 1)), g b = ∑ b ∈ range (r + 1 + 1), g b + ∑ b ∈ range r, g (r + 1 + 1 + b) := by
      rw [e, sum_range_add]
    have hr := refl r (fun b hb => by omega)
    rw [show 2 * (r + 1) - r = r + 1 + 1 by omega] at hr
    rw [hl, hr, sum_range_succ, sum_range_succ']
    have hw : ∀ k ∈ range r, weight (2 * (r + 1)) (k + 1) * g (k + 1) = 2 * g (k + 1) := by
      intro k hk
      rw [mem_range] at hk
      rw [weight, if_neg (by omega)]
    rw [sum_congr rfl hw, ← mul_sum, weight, weight, if_pos (Or.inl rfl), if_pos (Or.inr rfl)]
    ring
  · have e : 2 * q + 1 = q + 1 + q := by ring
    have e2 : (2 * q + 1) / 2 + 1 = q + 1 := by omega
    have hl : ∑ b ∈ range (2 * q + 1), g b = ∑ b ∈ range (q + 1), g b + ∑ b ∈ range q, g (q + 1 + b) := by
      rw [e, sum_range_add]
    have hr := refl q (fun b hb => by omega)
    rw [show 2 * q + 1 - q = q + 1 by omega] at hr
    rw [e2, hl, hr, sum_range_succ', sum_range_succ']
    have hw : ∀ k ∈ range q, weight (2 * q + 1) (k + 1) * g (k + 1) = 2 * g (k + 1) := by
      intro k hk
      rw [mem_range] at hk
      rw [weight, if_neg (by omega)]
    rw [sum_congr rfl hw, ← mul_sum, weight, if_pos (Or.inl rfl)]
    ring

/-- Sum of a periodic function over the opposite indices. -/
theorem sum_neg_periodic (n : ℕ) (F : ℤ → ℝ) (hF : ∀ a b : ℤ, (n : ℤ) ∣ a - b → F a = F b) :
    ∑ a ∈ range n, F (-(a : ℤ)) = ∑ a ∈ range n, F a := by
  cases n with
  | zero => rfl
  | succ q =>
    rw [sum_range_succ', sum_range_succ']
    congr 1
    rw [← sum_range_reflect]
    refine sum_congr rfl fun a ha => hF _ _ ?_
    rw [mem_range] at ha
    refine ⟨-1, ?_⟩
    push_cast
    omega

theorem chi_conj' (n : D → ℕ) (k : D → ℤ) (j : Pt n) : (starRingEnd ℂ) (chi n k j) = chi n (-k) j := by
  rw [chi, chi, ← Complex.exp_conj]
  congr 1
  simp only [map_mul, map_sum, Complex.conj_I, Complex.conj_ofReal, map_div₀, map_natCast, map_intCast, map_ofNat, Pi.neg_apply]
  push_cast
  simp only [neg_mul, neg_div, sum_neg_distrib]
  ring

/-- The backward real transform inverts the forward one, for every field. -/
theorem c2r2_r2c2 (n : Fin 2 → ℕ) (hn : ∀ d, 0 < n d) (X : Pt n → ℝ) : c2r2 n (r2c2 n X) = X := by
  funext j
  set h : (Fin 2 → ℤ) → ℝ := fun k => (fftCoef n (fun j => (X j : ℂ)) k * chi n k j).re with hh
  have hper : ∀ k k' : Fin 2 → ℤ, (∀ d, (n d : ℤ) ∣ k d - k' d) → h k = h k' := by
    intro k k' hk
    have e2 : ∀ j, chi n (-k) j = chi n (-k') j := fun j => chi_periodic n hn _ _ (fun d => by
      have := dvd_neg.2 (hk d); simpa [neg_sub, sub_eq_add_neg, add_comm] using this) j
    simp only [hh, fftCoef, e2, chi_periodic n hn _ _ hk j]
  have hneg : ∀ k, h (-k) = h k := by
    intro k
    have : fftCoef n (fun j => (X j : ℂ)) (-k) * chi n (-k) j
        = (starRingEnd ℂ) (fftCoef n (fun j => (X j : ℂ)) k * chi n k j) := by
      simp only [fftCoef, map_mul, map_div₀, map_sum, chi_conj', Complex.conj_ofReal, map_prod, map_natCast]
    simp only [hh, this, Complex.conj_re]
  have h1 := congrArg Complex.re (grid_inverse n hn (fun j => (X j : ℂ)) j)
  rw [Complex.re_sum, Complex.ofReal_re] at h1
  have h2 : ∑ i : Pt n, h (idx i) = ∑ b ∈ range (n 1), ∑ a ∈ range (n 0), h ![(a : ℤ), b] := by
    rw [sum_comm]
    simp only [sum_range]
    rw [← Fintype.sum_prod_type']
    refine Fintype.sum_equiv (piFinTwoEquiv fun d => Fin (n d)) _ _ fun i => ?_
    congr 1
    funext d
    fin_cases d <;> rfl
  have h3 := half_sum (n 1) (hn 1) (fun b => ∑ a ∈ range (n 0), h ![(a : ℤ), b]) (by
    intro b hb hb'
    have := sum_neg_periodic (n 0) (fun a => h ![a, (b : ℤ)]) (fun a a' ha => hper _ _ (by
      rw [Fin.forall_fin_two]; exact ⟨ha, by simp⟩))
    rw [← this]
    refine sum_congr rfl fun a _ => ?_
    rw [← hneg]
    refine hper _ _ ?_
    rw [Fin.forall_fin_two]
    refine ⟨by simp, ⟨-1, ?_⟩⟩
    simp only [Pi.neg_apply, Matrix.cons_val_one, Matrix.cons_val_fin_one]
    push_cast [hb'.le]
    ring)
  rw [← h1]
  show c2r2 n (r2c2 n X) j = ∑ i : Pt n, h (idx i)
  rw [h2, h3, c2r2, sum_product_right]
  refine sum_congr rfl fun b _ => ?_
  rw [mul_sum]
  rfl

/-- Copies of elements at their own indices. -/
theorem assign_self {I J A : Type*} [DecidableEq J] (nd : I → Option J) (inp : J → A) :
    ∀ (ws : List (I × I)) (out : J → A), (∀ w ∈ ws, w.1 = w.2 ∧ nd w.1 ≠ none) →
      ∃ o, assign nd nd inp ws out = .ok o ∧ ∀ j, (out j = inp j ∨ ∃ w ∈ ws, nd w.1 = some j) → o j = inp j
  | [], out, _ => ⟨out, rfl, fun j h => by rcases h with h | ⟨w, hw, _⟩ <;> [exact h; cases hw]⟩
  | (d, s) :: ws, out, h => by
    obtain ⟨e, hne⟩ := h (d, s) (List.mem_cons_self ..)
    simp only at e hne
    subst e
    obtain ⟨x, hx⟩ := Option.ne_none_iff_exists'.1 hne
    obtain ⟨o, ho, hj⟩ := assign_self nd inp ws (Function.update out x (inp x)) fun w hw => h w (List.mem_cons_of_mem _ hw)
    refine ⟨o, by rw [assign, hx]; exact ho, fun j hjj => hj j ?_⟩
    by_cases hjx : j = x
    · left; rw [hjx, Function.update_self]
    · rw [Function.update_of_ne hjx]
      rcases hjj with h | ⟨w, hw, hw'⟩
      · exact Or.inl h
      · rcases List.mem_cons.1 hw with rfl | hw
        · rw [hx] at hw'
          exact absurd (Option.some.inj hw').symm hjx
        · exact Or.inr ⟨w, hw, hw'⟩

/-- C79: a file written for the same grid contains the same values, whatever the fields (all their modes, with those at the Nyquist
wavenumbers), with an even number of points along y. -/
theorem C79_same_grid (n : Fin 2 → ℕ) (hn : ∀ d, 0 < n d) (e : Even (n 0)) (Xs : List (Pt n → ℝ)) : modif2 n n Xs = .ok Xs := by
  obtain ⟨q, hq⟩ := e
  have h0 := hn 0
  have pos1 : ∀ i : ℕ, i < n 1 / 2 + 1 → pyIdx (n 1 / 2 + 1) (i : ℤ) = some i := fun i hi => by
    simp only [pyIdx]; rw [if_pos (by omega)]; simp
  have pos0 : ∀ i : ℕ, i < n 0 → pyIdx (n 0) (i : ℤ) = some i := fun i hi => by
    simp only [pyIdx]; rw [if_pos (by omega)]; simp
  have key : ∀ (X : Pt n → ℝ) s, ∃ s', getVar2 n n s X = .ok (s', X) := by
    intro X s
    obtain ⟨o, ho, hj⟩ := assign_self (pyIdx2 (shapeK2 (n 1) (n 0))) (r2c2 n X)
      (writes2d (shapeK2 (n 1) (n 0)) (shapeK2 (n 1) (n 0))) s (by
        intro w hw
        simp only [writes2d, shapeK2, min_self, List.mem_append, List.mem_flatMap, List.mem_range, List.mem_range'_1, List.mem_cons,
          List.not_mem_nil, or_false] at hw
        rcases hw with ⟨i1, h1, rfl | rfl⟩ | ⟨i0, hi0, i1, h1, rfl | rfl⟩ <;> refine ⟨rfl, ?_⟩
        · have := pos0 0 h0
          rw [Nat.cast_zero] at this
          simp only [pyIdx2, shapeK2, this, pos1 i1 h1]; simp
        · simp only [pyIdx2, shapeK2, pos0 (n 0 / 2) (by omega), pos1 i1 h1]; simp
        · simp only [pyIdx2, shapeK2, pos0 i0 (by omega), pos1 i1 h1]; simp
        · have : pyIdx (n 0) (-(i0 : ℤ)) = some (n 0 - i0) := by
            simp only [pyIdx]
            rw [if_neg (by omega), if_pos (by omega)]
            congr 1
            omega
          simp only [pyIdx2, shapeK2, this, pos1 i1 h1]; simp)
    have hall : c2r2 n o = X := by
      refine Eq.trans ?_ (c2r2_r2c2 n hn X)
      funext j
      rw [c2r2, c2r2]
      refine sum_congr rfl fun i hi => ?_
      rw [hj i]
      right
      simp only [mem_product, mem_range] at hi
      simp only [writes2d, shapeK2, min_self, List.mem_append, List.mem_flatMap, List.mem_range, List.mem_range'_1, List.mem_cons,
        List.not_mem_nil, or_false]
      have hx1 : pyIdx (n 1 / 2 + 1) (i.2 : ℤ) = some i.2 := pos1 _ hi.2
      have hx0 : pyIdx (n 0) (i.1 : ℤ) = some i.1 := pos0 _ hi.1
      have hm : ∀ m : ℕ, i.1 = n 0 - m → 0 < m → m ≤ n 0 → pyIdx (n 0) (-(m : ℤ)) = some i.1 := by
        intro m e1 e2 e3
        simp only [pyIdx]
        rw [if_neg (by omega), if_pos (by omega)]
        congr 1
        omega
      rcases Nat.lt_or_ge (n 0 / 2) i.1 with h | h
      · exact ⟨_, Or.inr ⟨n 0 - i.1, by omega, i.2, hi.2, Or.inr rfl⟩, by
          simp only [pyIdx2, hx1, hm (n 0 - i.1) (by omega) (by omega) (by omega)]⟩
      · by_cases h' : i.1 = 0
        · exact ⟨_, Or.inl ⟨i.2, hi.2, Or.inl rfl⟩, by
            rw [h', Nat.cast_zero] at hx0; simp only [pyIdx2, hx1, hx0]; rw [← h']⟩
        · by_cases h'' : i.1 = n 0 / 2
          · exact ⟨_, Or.inl ⟨i.2, hi.2, Or.inr rfl⟩, by rw [h''] at hx0; simp only [pyIdx2, hx1, hx0]; rw [← h'']⟩
          · exact ⟨_, Or.inr ⟨i.1, by omega, i.2, hi.2, Or.inl rfl⟩, by simp only [pyIdx2, hx1, hx0]⟩
    refine ⟨o, ?_⟩
    rw [getVar2, fill2d, ho]
    simp only [hall]
  have : ∀ (Xs : List (Pt n → ℝ)) s, saveAll (getVar2 n n) s Xs = .ok Xs := by
    intro Xs
    induction Xs with
    | nil => intro s; rfl
    | cons X l ih =>
      intro s
      obtain ⟨s', hs⟩ := key X s
      simp only [saveAll, hs, ih]
  exact this Xs _

/-- C79: a file which is written contains all the variables: when the transfer of one of them raises an exception, the loop raises it. -/
theorem C79_complete {A X Y : Type*} (getVar : A → X → Except String (A × Y)) (s : A) (l : List X) (Ys : List Y)
    (h : saveAll getVar s l = .ok Ys) : Ys.length = l.length := by
  induction l generalizing s Ys with
  | nil => cases h; rfl
  | cons x l ih =>
    rw [saveAll] at h
    cases hg : getVar s x with
    | error e => rw [hg] at h; cases h
    | ok r =>
      rw [hg] at h
      simp only at h
      cases hl : saveAll getVar r.1 l with
      | error e => rw [hl] at h; cases h
      | ok Zs =>
        rw [hl] at h
        cases h
        simp [ih _ _ hl]

/-- C79: the new numbers of points are the products by the coefficient, rounded towards zero. -/
theorem C79_new_size (coef : ℚ) (n : ℕ) :
    |(newSize coef n : ℚ)| ≤ |n * coef| ∧ |n * coef| - 1 < |(newSize coef n : ℚ)| ∧ 0 ≤ (newSize coef n : ℚ) * (n * coef) := by
  unfold newSize
  generalize (n : ℚ) * coef = x
  split_ifs with h
  · have h1 := Int.floor_le x
    have h2 := Int.lt_floor_add_one x
    have h3 : (0 : ℚ) ≤ ⌊x⌋ := by exact_mod_cast Int.floor_nonneg.2 h
    rw [abs_of_nonneg h, abs_of_nonneg h3]
    exact ⟨h1, by linarith, mul_nonneg h3 h⟩
  · have h := (not_le.1 h).le
    have h1 := Int.le_ceil x
    have h2 := Int.ceil_lt_add_one x
    have h3 : (⌈x⌉ : ℚ) ≤ 0 := by exact_mod_cast Int.ceil_le.2 (by simpa using h)
    rw [abs_of_nonpos h, abs_of_nonpos h3]
    exact ⟨by linarith, by linarith, mul_nonneg_of_nonpos_of_nonpos h3 h⟩

example : newSize (1 / 2) 9 = 4 := by
  have : ((9 : ℕ) : ℚ) * (1 / 2) = 9 / 2 := by norm_num
  rw [newSize, this]
  norm_num

end

end Verif.ModifResol
