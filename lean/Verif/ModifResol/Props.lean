import Verif.ModifResol.Lemmas

/-! # C79: theorems on the change of resolution of a file -/

namespace Verif.ModifResol

open Verif.Fourier Verif.Modes Finset

noncomputable section

set_option linter.unusedSectionVars false

/-- C79, 2D. For all grids with even numbers of points along y, and all the variables of a file: if each variable
contains a real function whose modes are resolved by the two grids, each variable of the new file contains the same
function on the new grid. The arrays are reused from a variable to the next one. -/
theorem C79_2d (nI nO : Fin 2 → ℕ) (hI : ∀ d, 0 < nI d) (hO : ∀ d, 0 < nO d) (eI : Even (nI 0)) (eO : Even (nO 0))
    (l : List ((Pt nI → ℝ) × Finset (Fin 2 → ℤ) × ((Fin 2 → ℤ) → ℂ)))
    (hl : ∀ v ∈ l, IsReal v.2.1 v.2.2 ∧ Resolved nI v.2.1 ∧ Resolved nO v.2.1 ∧ Contains nI v.2.1 v.2.2 v.1) :
    ∃ Ys, modif2 nI nO (l.map Prod.fst) = .ok Ys ∧ List.Forall₂ (fun v Y => Contains nO v.2.1 v.2.2 Y) l Ys := by
  have key : ∀ l : List ((Pt nI → ℝ) × Finset (Fin 2 → ℤ) × ((Fin 2 → ℤ) → ℂ)),
      (∀ v ∈ l, IsReal v.2.1 v.2.2 ∧ Resolved nI v.2.1 ∧ Resolved nO v.2.1 ∧ Contains nI v.2.1 v.2.2 v.1) →
      ∀ s : ℕ × ℕ → ℂ, (∀ j, (∀ w ∈ writes2d (shapeK2 (nI 1) (nI 0)) (shapeK2 (nO 1) (nO 0)),
        pyIdx2 (shapeK2 (nO 1) (nO 0)) w.1 ≠ some j) → s j = 0) →
      ∃ Ys, saveAll (getVar2 nI nO) s (l.map Prod.fst) = .ok Ys ∧
        List.Forall₂ (fun v Y => Contains nO v.2.1 v.2.2 Y) l Ys := by
    intro l
    induction l with
    | nil => exact fun _ s _ => ⟨[], rfl, .nil⟩
    | cons v l ih =>
      intro hl s hs
      obtain ⟨⟨hr, h1, h2, h3⟩, hl'⟩ := List.forall_mem_cons.1 hl
      obtain ⟨o, ho, hsame⟩ := C24_2d_even (shapeK2 (nI 1) (nI 0)) (shapeK2 (nO 1) (nO 0)) (hI 0) (hO 0) eI eO
        (r2c2 nI v.1)
      have hfill : fill2d (shapeK2 (nI 1) (nI 0)) (shapeK2 (nO 1) (nO 0)) (r2c2 nI v.1) s = .ok o := by
        rw [← ho]; exact assign_congr _ _ _ _ _ _ hs
      obtain ⟨Ys, e1, e2⟩ := ih hl' o (fun j hj => assign_other _ _ _ _ _ _ ho j hj)
      refine ⟨c2r2 nO o :: Ys, ?_, .cons ?_ e2⟩
      · simp only [List.map_cons, saveAll, getVar2, hfill, e1]
      · exact c2r2_eq nO hO _ _ hr h2 o fun i => out2_eq nI nO hI _ _ h1 v.1 h3 o hsame i
  exact key l hl _ fun _ _ => rfl

/-- C79, 3D, with even numbers of points along y and z. -/
theorem C79_3d (nI nO : Fin 3 → ℕ) (hI : ∀ d, 0 < nI d) (hO : ∀ d, 0 < nO d) (eI : Even (nI 0)) (eO : Even (nO 0))
    (eI' : Even (nI 1)) (eO' : Even (nO 1)) (l : List ((Pt nI → ℝ) × Finset (Fin 3 → ℤ) × ((Fin 3 → ℤ) → ℂ)))
    (hl : ∀ v ∈ l, IsReal v.2.1 v.2.2 ∧ Resolved nI v.2.1 ∧ Resolved nO v.2.1 ∧ Contains nI v.2.1 v.2.2 v.1) :
    ∃ Ys, modif3 nI nO (l.map Prod.fst) = .ok Ys ∧ List.Forall₂ (fun v Y => Contains nO v.2.1 v.2.2 Y) l Ys := by
  have key : ∀ l : List ((Pt nI → ℝ) × Finset (Fin 3 → ℤ) × ((Fin 3 → ℤ) → ℂ)),
      (∀ v ∈ l, IsReal v.2.1 v.2.2 ∧ Resolved nI v.2.1 ∧ Resolved nO v.2.1 ∧ Contains nI v.2.1 v.2.2 v.1) →
      ∀ s : ℕ × ℕ × ℕ → ℂ, (∀ j, (∀ w ∈ writes3dMini (shapeK3 (nI 2, nI 1, nI 0)) (shapeK3 (nO 2, nO 1, nO 0)),
        pyIdx3 (shapeK3 (nO 2, nO 1, nO 0)) w.1 ≠ some j) → s j = 0) →
      ∃ Ys, saveAll (getVar3 nI nO) s (l.map Prod.fst) = .ok Ys ∧
        List.Forall₂ (fun v Y => Contains nO v.2.1 v.2.2 Y) l Ys := by
    intro l
    induction l with
    | nil => exact fun _ s _ => ⟨[], rfl, .nil⟩
    | cons v l ih =>
      intro hl s hs
      obtain ⟨⟨hr, h1, h2, h3⟩, hl'⟩ := List.forall_mem_cons.1 hl
      obtain ⟨o, ho, hsame⟩ := C24_mini3d_even (shapeK3 (nI 2, nI 1, nI 0)) (shapeK3 (nO 2, nO 1, nO 0)) (hI 0) (hO 0)
        (hI 1) (hO 1) eI eO eI' eO' (r2c3 nI v.1)
      have hfill : fill3dMini (shapeK3 (nI 2, nI 1, nI 0)) (shapeK3 (nO 2, nO 1, nO 0)) (r2c3 nI v.1) s = .ok o := by
        rw [← ho]; exact assign_congr _ _ _ _ _ _ hs
      obtain ⟨Ys, e1, e2⟩ := ih hl' o (fun j hj => assign_other _ _ _ _ _ _ ho j hj)
      refine ⟨c2r3 nO o :: Ys, ?_, .cons ?_ e2⟩
      · simp only [List.map_cons, saveAll, getVar3, hfill, e1]
      · exact c2r3_eq nO hO _ _ hr h2 o fun i => out3_eq nI nO hI _ _ h1 v.1 h3 o hsame i
  exact key l hl _ fun _ _ => rfl

/-- C79: two files with the same function have the same values at the points which are at the same place. -/
theorem C79_same_values {D : Type*} [Fintype D] [DecidableEq D] (n n' : D → ℕ) (hn : ∀ d, 0 < n d)
    (hn' : ∀ d, 0 < n' d) (S : Finset (D → ℤ)) (a : (D → ℤ) → ℂ) (X : Pt n → ℝ) (Y : Pt n' → ℝ)
    (hX : Contains n S a X) (hY : Contains n' S a Y) (j : Pt n) (j' : Pt n') (h : SamePlace n n' j j') :
    Y j' = X j := by
  have : (Y j' : ℂ) = X j := by
    rw [hX, hY, gridVal, gridVal]
    refine sum_congr rfl fun k _ => ?_
    rw [chi, chi]
    congr 3
    refine sum_congr rfl fun d _ => ?_
    have h0 : (n d : ℂ) ≠ 0 := by exact_mod_cast (hn d).ne'
    have h0' : (n' d : ℂ) ≠ 0 := by exact_mod_cast (hn' d).ne'
    have := h d
    have : ((j d : ℕ) : ℂ) * n' d = (j' d : ℕ) * n d := by exact_mod_cast this
    field_simp
    linear_combination (-(k d : ℂ)) * this
  exact_mod_cast this

/-- C79: the mean values of the variables are the same in the two files (mode zero). -/
theorem C79_mean {D : Type*} [Fintype D] [DecidableEq D] (n n' : D → ℕ) (hn : ∀ d, 0 < n d)
    (hn' : ∀ d, 0 < n' d) (S : Finset (D → ℤ)) (a : (D → ℤ) → ℂ) (hs : Resolved n S) (hs' : Resolved n' S)
    (X : Pt n → ℝ) (Y : Pt n' → ℝ) (hX : Contains n S a X) (hY : Contains n' S a Y) :
    (∑ j, Y j) / ∏ d, (n' d : ℝ) = (∑ j, X j) / ∏ d, (n d : ℝ) := by
  have key : ∀ (n : D → ℕ), (∀ d, 0 < n d) → Resolved n S → ∀ X : Pt n → ℝ, Contains n S a X →
      (((∑ j, X j) / ∏ d, (n d : ℝ) : ℝ) : ℂ) = if (0 : D → ℤ) ∈ S then a 0 else 0 := by
    intro n hn hs X hX
    have h1 := fft_gridVal n hn S a 0
    have h2 : fftCoef n (gridVal n S a) 0 = (((∑ j, X j) / ∏ d, (n d : ℝ) : ℝ) : ℂ) := by
      have hc : ∀ j : Pt n, chi n (-0) j = 1 := fun j => by simp [chi]
      rw [fftCoef]
      push_cast
      congr 1
      exact sum_congr rfl fun j _ => by rw [hc, mul_one, hX]
    rw [← h2, h1]
    by_cases h0 : (0 : D → ℤ) ∈ S
    · rw [if_pos h0, sum_eq_single 0]
      · simp
      · intro p hp hne
        refine if_neg fun h => hne (funext fun d => ?_)
        have := h d
        simp only [Pi.zero_apply, sub_zero] at this
        have h3 := hs p hp d
        exact dvd_small this (by have := abs_nonneg (p d); omega)
      · intro h; exact absurd h0 h
    · rw [if_neg h0]
      refine sum_eq_zero fun p hp => if_neg fun h => h0 ?_
      have : p = 0 := funext fun d => by
        have := h d
        simp only [Pi.zero_apply, sub_zero] at this
        have h3 := hs p hp d
        exact dvd_small this (by have := abs_nonneg (p d); omega)
      exact this ▸ hp
  have := (key n' hn' hs' Y hY).trans (key n hn hs X hX).symm
  exact_mod_cast this

/-- The hypotheses are met: `cos(2π x / Lx)` on grids of 4 × 4 and 6 × 8 points. -/
example : ∃ X : Pt (![4, 4] : Fin 2 → ℕ) → ℝ,
    IsReal {![0, 1], ![0, -1]} (fun _ => (1 / 2 : ℂ)) ∧
    Resolved (![4, 4] : Fin 2 → ℕ) {![0, 1], ![0, -1]} ∧ Resolved (![6, 8] : Fin 2 → ℕ) {![0, 1], ![0, -1]} ∧
    Contains ![4, 4] {![0, 1], ![0, -1]} (fun _ => (1 / 2 : ℂ)) X := by
  have hr : IsReal ({![0, 1], ![0, -1]} : Finset (Fin 2 → ℤ)) (fun _ => (1 / 2 : ℂ)) := by
    refine ⟨by decide, fun k _ => ?_⟩
    rw [map_div₀, map_one, Complex.conj_ofNat]
  have hs : Resolved (![4, 4] : Fin 2 → ℕ) {![0, 1], ![0, -1]} := by
    intro k hk d; fin_cases d <;> (revert k; decide)
  refine ⟨fun j => (gridVal ![4, 4] {![0, 1], ![0, -1]} (fun _ => (1 / 2 : ℂ)) j).re, hr, hs, ?_, fun j => ?_⟩
  · intro k hk d; fin_cases d <;> (revert k; decide)
  · have := backward ![4, 4] 1 {![0, 1], ![0, -1]} (fun _ => (1 / 2 : ℂ)) hr hs {![0, 1]} (fun _ => 1)
      (fun i k => i = k) (fun i => chi _ i j) (fun _ => 1 / 2) j (by
        rintro i hi k - rfl
        rw [Finset.mem_singleton.1 hi]; exact ⟨rfl, rfl⟩) (by decide) (by
        intro i hi
        rw [Finset.mem_singleton.1 hi, Finset.sum_pair (by decide), if_pos rfl, if_neg (by decide), add_zero])
    simp only [← this, Complex.ofReal_re]

/-- C79, finding: a mode at the Nyquist wavenumber is not conserved: from 2 to 4 points along x, the field
`(-1)^j` becomes `2 (1, 0, -1, 0)`: its values at the common points are doubled. -/
theorem C79_nyquist_violated :
    ∃ (X : Pt (![2, 2] : Fin 2 → ℕ) → ℝ) (Y : Pt (![2, 4] : Fin 2 → ℕ) → ℝ),
      modif2 ![2, 2] ![2, 4] [X] = .ok [Y] ∧ ∃ j j', SamePlace ![2, 2] ![2, 4] j j' ∧ Y j' = 2 * X j ∧ X j = 1 := by
  have hX : ∀ j : Pt (![2, 2] : Fin 2 → ℕ), ((if (j 1 : ℕ) = 0 then 1 else -1 : ℝ) : ℂ)
      = gridVal ![2, 2] {![0, 1]} (fun _ => 1) j := by
    intro j
    have h1 : (j 1 : ℕ) < 2 := (j 1).2
    rw [gridVal, sum_singleton, one_mul, chi, Fin.sum_univ_two]
    rcases (show (j 1 : ℕ) = 0 ∨ (j 1 : ℕ) = 1 by omega) with h | h
    · rw [h]; simp
    · rw [h]
      simp only [Matrix.cons_val_zero, Matrix.cons_val_one, one_ne_zero, if_false]
      push_cast
      rw [show (2 : ℂ) * Real.pi * Complex.I * (0 * ((j 0 : ℕ) : ℂ) / 2 + 1 * 1 / 2) = Real.pi * Complex.I by ring,
        Complex.exp_pi_mul_I]
  have hpos : ∀ d, 0 < (![2, 2] : Fin 2 → ℕ) d := by decide
  have hc : ∀ i : ℕ × ℕ, r2c2 ![2, 2] (fun j => if (j 1 : ℕ) = 0 then 1 else -1) i
      = if (2 : ℤ) ∣ 0 - i.1 ∧ (2 : ℤ) ∣ 1 - i.2 then 1 else 0 := by
    intro i
    rw [r2c2, show (fun j : Pt (![2, 2] : Fin 2 → ℕ) => ((if (j 1 : ℕ) = 0 then 1 else -1 : ℝ) : ℂ)) = _ from funext hX,
      fft_gridVal _ hpos, sum_singleton]
    have e : (∀ d, (((![2, 2] : Fin 2 → ℕ) d : ℕ) : ℤ) ∣ (![0, 1] : Fin 2 → ℤ) d - (![(i.1 : ℤ), i.2] : Fin 2 → ℤ) d)
        ↔ (2 : ℤ) ∣ 0 - i.1 ∧ (2 : ℤ) ∣ 1 - i.2 := by
      rw [Fin.forall_fin_two]; rfl
    simp only [e]
  obtain ⟨o, ho, hs⟩ := C24_2d_even (shapeK2 2 2) (shapeK2 4 2) (by decide) (by decide) (by decide) (by decide)
    (r2c2 ![2, 2] (fun j => if (j 1 : ℕ) = 0 then 1 else -1))
  refine ⟨fun j => if (j 1 : ℕ) = 0 then 1 else -1, c2r2 ![2, 4] o, ?_, fun d => ⟨0, by fin_cases d <;> decide⟩,
    fun d => ⟨0, by fin_cases d <;> decide⟩, ?_, ?_, ?_⟩
  · rw [modif2, saveAll, getVar2]
    have : fill2d (shapeK2 ((![2, 2] : Fin 2 → ℕ) 1) ((![2, 2] : Fin 2 → ℕ) 0))
      (shapeK2 ((![2, 4] : Fin 2 → ℕ) 1) ((![2, 4] : Fin 2 → ℕ) 0))
      (r2c2 ![2, 2] (fun j => if (j 1 : ℕ) = 0 then 1 else -1)) (fun _ => 0) = .ok o := ho
    rw [this]
    rfl
  · intro d; simp
  · have hh : ∀ i0 : ℕ, i0 < 2 → Holds 2 i0 i0 := by
      intro i0 h0
      rw [holds_iff]; omega
    have v : ∀ i0 i1 : ℕ, i0 < 2 → i1 < 2 → o (i0, i1) = if i0 = 0 ∧ i1 = 1 then 1 else 0 := by
      intro i0 i1 h0 h1
      have := (hs i0 i1 i0 i1 (hh i0 ‹_›)
        ⟨by simp only [shapeK2]; omega, rfl⟩).1 i0 i1 (hh i0 ‹_›)
        ⟨by simp only [shapeK2]; omega, rfl⟩
      rw [this, hc]
      refine if_congr (by simp only; omega) rfl rfl
    have v2 : ∀ i0 : ℕ, i0 < 2 → o (i0, 2) = 0 := by
      intro i0 h0
      refine (hs i0 2 i0 2 (hh i0 ‹_›)
        ⟨by simp only [shapeK2]; omega, rfl⟩).2 ?_
      rintro ⟨i, i1, -, h1, h2⟩
      simp only [shapeK2] at h1
      omega
    have hchi : ∀ k, chi (![2, 4] : Fin 2 → ℕ) k (fun d => ⟨0, by fin_cases d <;> decide⟩) = 1 := by
      intro k; simp [chi]
    rw [c2r2]
    simp only [hchi, mul_one, sum_product, Matrix.cons_val_zero, Matrix.cons_val_one, sum_range_succ, sum_range_zero]
    simp [v, v2, weight]
  · simp

/-- C79: the new files of different resolutions are in different directories. -/
theorem C79_directories (s s' : List ℕ) (h : dirName s = dirName s') : s = s' := by
  have hx : ∀ n : ℕ, 'x' ∉ Nat.toDigits 10 n := fun n hm => by
    have := Nat.isDigit_of_mem_toDigits (by norm_num) (by norm_num) hm
    simp at this
  have hinj : ∀ a b : ℕ, Nat.toDigits 10 a = Nat.toDigits 10 b → a = b := fun a b e => by
    rw [← Nat.ofDigitChars_ten_toDigits (n := a), e, Nat.ofDigitChars_ten_toDigits]
  have htw : ∀ (p r : List Char), 'x' ∉ p → (p ++ 'x' :: r).takeWhile (· ≠ 'x') = p ∧
      (p ++ 'x' :: r).dropWhile (· ≠ 'x') = 'x' :: r := by
    intro p r hp
    have h1 : ∀ c ∈ p, decide (c ≠ 'x') = true := fun c hc => by
      simp only [decide_eq_true_eq]; rintro rfl; exact hp hc
    rw [List.takeWhile_append_of_pos h1, List.dropWhile_append_of_pos h1]
    simp
  have key : ∀ s s' : List ℕ, ((s.map fun n => Nat.toDigits 10 n).intersperse ['x']).flatten
      = ((s'.map fun n => Nat.toDigits 10 n).intersperse ['x']).flatten → s = s' := by
    have e1 : ∀ (a : ℕ) (s : List ℕ), ((((a :: s).map fun n => Nat.toDigits 10 n).intersperse ['x']).flatten) =
        Nat.toDigits 10 a ++ if s = [] then [] else
          'x' :: ((s.map fun n => Nat.toDigits 10 n).intersperse ['x']).flatten := by
      intro a s
      cases s with
      | nil => simp
      | cons b s => simp
    have e2 : ∀ (a : ℕ) (r : List Char), Nat.toDigits 10 a ++ r ≠ [] := fun a r e =>
      Nat.toDigits_ne_nil (List.append_eq_nil_iff.1 e).1
    intro s
    induction s with
    | nil =>
      intro s' h
      cases s' with
      | nil => rfl
      | cons b s' => rw [e1] at h; exact absurd h.symm (e2 _ _)
    | cons a s ih =>
      intro s' h
      cases s' with
      | nil => rw [e1] at h; exact absurd h (e2 _ _)
      | cons b s' =>
        rw [e1, e1] at h
        by_cases hs : s = [] <;> by_cases hs' : s' = []
        · rw [if_pos hs, if_pos hs', List.append_nil, List.append_nil] at h
          rw [hinj _ _ h, hs, hs']
        · rw [if_pos hs, if_neg hs', List.append_nil] at h
          exact absurd (h ▸ by simp : 'x' ∈ Nat.toDigits 10 a) (hx a)
        · rw [if_neg hs, if_pos hs', List.append_nil] at h
          exact absurd (h ▸ by simp : 'x' ∈ Nat.toDigits 10 b) (hx b)
        · rw [if_neg hs, if_neg hs'] at h
          have h1 := congrArg (List.takeWhile (· ≠ 'x')) h
          have h2 := congrArg (List.dropWhile (· ≠ 'x')) h
          rw [(htw _ _ (hx _)).1, (htw _ _ (hx _)).1] at h1
          rw [(htw _ _ (hx _)).2, (htw _ _ (hx _)).2] at h2
          rw [hinj _ _ h1, ih s' (List.cons.inj h2).2]
  exact key s s' (List.append_cancel_left h)

example : dirName [48, 24, 12] = "State_phys_48x24x12".toList ∧ newSize (3 / 2) 32 = 48 ∧ newSize (1 / 3) 32 = 10 := by
  refine ⟨by decide +kernel, by rw [newSize, if_pos (by norm_num)]; norm_num [Int.floor_eq_iff],
    by rw [newSize, if_pos (by norm_num)]; rw [Int.floor_eq_iff]; norm_num⟩

end

end Verif.ModifResol
