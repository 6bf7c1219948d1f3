import Verif.InitFields.Lemmas

/-!
# C64: the other types of initial fields
-/

namespace Verif.InitFields

open Verif.Fourier Verif.Energy Verif.Vectors Verif.Forcing Finset

set_option linter.unusedSectionVars false

noncomputable section

/-! ### Constant -/

/-- A uniform field is the inverse transform of one mode. -/
theorem fft_const {D : Type} [Fintype D] [DecidableEq D] {n : D → ℕ} (hn : ∀ d, 0 < n d) {S : Finset (D → ℤ)}
    (hD : Distinct n S) (h0 : (0 : D → ℤ) ∈ S) (c : ℝ) {k : D → ℤ} (hk : k ∈ S) :
    fftCoef n (fun _ => (c : ℂ)) k = if k = 0 then (c : ℂ) else 0 := by
  have : (fun _ : Pt n => (c : ℂ)) = gridVal n S (fun k => if k = 0 then (c : ℂ) else 0) := by
    funext j
    simp [gridVal, h0, chi]
  rw [this, fft_grid hn hD _ hk]

/-- C64, type "constant", solvers with the base state class: the physical state and the spectral state describe the
same uniform field. -/
theorem C64_constant_partial {D : Type} [Fintype D] [DecidableEq D] {n : D → ℕ} (hn : ∀ d, 0 < n d)
    {S : Finset (D → ℤ)} (hD : Distinct n S) (h0 : (0 : D → ℤ) ∈ S) (value : ℝ) (j : Pt n) :
    (constantBase n value).1 j = value ∧ gridVal n S (constantBase n value).2 j = value := by
  refine ⟨rfl, ?_⟩
  have : gridVal n S (constantBase n value).2 j = gridVal n S (fun k => if k = 0 then (value : ℂ) else 0) j :=
    Finset.sum_congr rfl fun k hk => by simp only [constantBase, fft_const hn hD h0 value hk]
  rw [this]
  simp [gridVal, h0, chi]

/-- C64, finding: in ns2d, the type "constant" with a non-zero value gives a physical state which is not the one of the
spectral state: the velocity computed from the spectral state is zero. -/
theorem C64_constant_violated {n : Fin 2 → ℕ} (hn : ∀ d, 0 < n d) {S : Finset (Fin 2 → ℤ)} (hD : Distinct n S)
    (h0 : (0 : Fin 2 → ℤ) ∈ S) (δ : Fin 2 → ℝ) {value : ℝ} (hv : value ≠ 0) (j : Pt n) :
    stateVel2 n S δ (constantNs2d n value).2.2.2 j = (0, 0) ∧
    ((constantNs2d n value).1 j, (constantNs2d n value).2.1 j) ≠ (0, 0) := by
  have h : ∀ k ∈ S, ux2 δ (constantNs2d n value).2.2.2 k = 0 ∧ uy2 δ (constantNs2d n value).2.2.2 k = 0 := by
    intro k hk
    have e : (constantNs2d n value).2.2.2 k = _ := fft_const hn hD h0 value hk
    simp only [ux2, uy2, e, vecFromRot]
    by_cases hk0 : k = 0
    · subst hk0; simp
    · simp [hk0]
  constructor
  · refine Prod.ext ?_ ?_
    · have : gridVal n S (ux2 δ (constantNs2d n value).2.2.2) j = 0 :=
        Finset.sum_eq_zero fun k hk => by rw [(h k hk).1, zero_mul]
      simp [stateVel2, this]
    · have : gridVal n S (uy2 δ (constantNs2d n value).2.2.2) j = 0 :=
        Finset.sum_eq_zero fun k hk => by rw [(h k hk).2, zero_mul]
      simp [stateVel2, this]
  · simpa [constantNs2d] using hv

/-! ### ad1d -/

/-- C64, ad1d, type "gaussian": the spectral state is the transform of the physical one. -/
theorem C64_ad1d_gaussian (n : Fin 1 → ℕ) (lx : ℝ) (old : State1 n) (k : Fin 1 → ℤ) :
    (initGaussian n lx old).spect k = fftCoef n (fun j => ((initGaussian n lx old).phys j : ℂ)) k := rfl

/-- C64, finding: ad1d, type "cos", with the pseudo-spectral solver: the spectral state, from which the time stepping
starts, is left as it was, and is not the transform of the physical one, whose first mode is 1/2. -/
theorem C64_ad1d_cos_violated {n : Fin 1 → ℕ} (hn : 3 ≤ n 0) {lx : ℝ} (hl : 0 < lx) (old : State1 n) :
    (initCos n lx old).spect = old.spect ∧
    fftCoef n (fun j => ((initCos n lx old).phys j : ℂ)) (fun _ => 1) = 1 / 2 := by
  refine ⟨rfl, ?_⟩
  have hn' : ∀ d, 0 < n d := by intro d; rw [Subsingleton.elim d 0]; omega
  set S : Finset (Fin 1 → ℤ) := {fun _ => 1, fun _ => -1} with hS
  have hne : (fun _ => 1 : Fin 1 → ℤ) ≠ fun _ => -1 := by
    intro h; have := congrFun h 0; simp at this
  have hD : Distinct n S := by
    intro k hk l hl' h
    simp only [hS, mem_insert, mem_singleton] at hk hl'
    have h0 := h 0
    rcases hk with rfl | rfl <;> rcases hl' with rfl | rfl
    · rfl
    · exfalso
      obtain ⟨c, hc⟩ := h0
      have : (3 : ℤ) ≤ n 0 := by exact_mod_cast hn
      simp at hc
      rcases lt_trichotomy c 0 with h | h | h
      · nlinarith
      · subst h; simp at hc
      · nlinarith
    · exfalso
      obtain ⟨c, hc⟩ := h0
      have : (3 : ℤ) ≤ n 0 := by exact_mod_cast hn
      simp at hc
      rcases lt_trichotomy c 0 with h | h | h
      · nlinarith
      · subst h; simp at hc
      · nlinarith
    · rfl
  have e : (fun j => ((initCos n lx old).phys j : ℂ)) = gridVal n S (fun _ => 1 / 2) := by
    funext j
    have harg : 2 * Real.pi * (lx * (j 0 : ℕ) / n 0) / lx = 2 * Real.pi * (j 0 : ℕ) / n 0 := by field_simp
    rw [gridVal, hS, Finset.sum_pair hne]
    simp only [initCos, harg, Complex.ofReal_cos, Complex.cos, chi, Fin.sum_univ_one]
    push_cast
    have a1 : (2 * Real.pi * Complex.I * (1 * ((j 0 : ℕ) : ℂ) / (n 0 : ℂ)) : ℂ)
        = 2 * Real.pi * ((j 0 : ℕ) : ℂ) / (n 0 : ℂ) * Complex.I := by ring
    have a2 : (2 * Real.pi * Complex.I * (-1 * ((j 0 : ℕ) : ℂ) / (n 0 : ℂ)) : ℂ)
        = -(2 * Real.pi * ((j 0 : ℕ) : ℂ) / (n 0 : ℂ)) * Complex.I := by ring
    rw [a1, a2]; ring
  rw [e, fft_grid hn' hD _ (by simp [hS])]

/-! ### Jet and dipole -/

/-- C64, jet: the vorticity is antisymmetric with respect to the middle of the domain, and has no mean. -/
theorem C64_jet (n : Fin 2 → ℕ) (δ : Fin 2 → ℝ) (ly y : ℝ) : jet ly (ly - y) = -jet ly y ∧ jetFft n δ ly 0 = 0 := by
  constructor
  · have ev : ∀ s t : ℝ, s = -t → Real.exp (-((s / 0.5) ^ 2)) = Real.exp (-((t / 0.5) ^ 2)) := by
      intro s t h; rw [h]; congr 1; ring
    simp only [jet]
    rw [ev (ly - y - ly / 2 + ly / 2 / 2) (y - ly / 2 - ly / 2 / 2) (by ring),
      ev (ly - y - ly / 2 - ly / 2 / 2) (y - ly / 2 + ly / 2 / 2) (by ring),
      ev (ly - y - ly / 2 + ly / 2 / 2 + ly) (y - ly / 2 - ly / 2 / 2 - ly) (by ring),
      ev (ly - y - ly / 2 - ly / 2 / 2 + ly) (y - ly / 2 + ly / 2 / 2 - ly) (by ring),
      ev (ly - y - ly / 2 + ly / 2 / 2 - ly) (y - ly / 2 - ly / 2 / 2 + ly) (by ring),
      ev (ly - y - ly / 2 - ly / 2 / 2 - ly) (y - ly / 2 + ly / 2 / 2 + ly) (by ring)]
    ring
  · simp [jetFft, knorm2]

/-- The jet is not zero: for example its value at `y = Ly / 4`, for a large domain. -/
example : 0 < jet 40 10 := by
  simp only [jet]
  norm_num
  have h1 : Real.exp (-1600) < Real.exp 0 := Real.exp_lt_exp.mpr (by norm_num)
  have h2 : 0 < Real.exp (-6400) := Real.exp_pos _
  have h3 : Real.exp (-14400) ≤ Real.exp (-6400) := Real.exp_le_exp.mpr (by norm_num)
  have h4 : Real.exp (-1600) ≤ Real.exp (-1) := Real.exp_le_exp.mpr (by norm_num)
  have h5 : Real.exp (-1) < 1 / 2 := by
    rw [Real.exp_neg, inv_lt_comm₀ (Real.exp_pos 1) (by norm_num)]
    have := Real.add_one_lt_exp (show (1 : ℝ) ≠ 0 by norm_num)
    norm_num; linarith
  linarith

/-- C64, dipole: the vorticity is antisymmetric with respect to the centre of the domain. -/
theorem C64_dipole (lx ly x y : ℝ) : dipole lx ly (lx - x) (ly - y) = -dipole lx ly x y := by
  have img : ∀ ip jp : ℤ, dipoleImage lx ly (lx - x) (ly - y) ip jp = -dipoleImage lx ly x y (-ip) (-jp) := by
    intro ip jp
    have odd : ∀ X Y b : ℝ, wz2LO (-X) (-Y) b = -wz2LO X Y b := by
      intro X Y b
      simp only [wz2LO]
      rw [show (-X) ^ 2 + (-Y - b / 2) ^ 2 = X ^ 2 + (Y + b / 2) ^ 2 by ring,
        show (-X) ^ 2 + (-Y + b / 2) ^ 2 = X ^ 2 + (Y - b / 2) ^ 2 by ring]
      ring
    simp only [dipoleImage]
    rw [← odd]
    congr 1 <;> push_cast <;> ring
  have s : ∀ f : ℤ → ℝ, ∑ i ∈ ({-1, 0, 1} : Finset ℤ), f i = f (-1) + f 0 + f 1 := by
    intro f
    rw [Finset.sum_insert (by decide), Finset.sum_insert (by decide), Finset.sum_singleton]; ring
  simp only [dipole, s, img]
  norm_num
  ring

/-! ### sw1l -/

/-- The displacement of the type "wave" on the grid. -/
theorem wave_grid {n : Fin 2 → ℕ} {S : Finset (Fin 2 → ℤ)} {ikx : ℤ} (etaMax : ℝ) (j : Pt n) :
    ifftHalf n S (waveEta ikx etaMax) j =
      if (![ikx, 0] ∈ S) ∧ 0 ≤ ikx then
        (if ikx = 0 then etaMax else 2 * etaMax * Real.cos (2 * Real.pi * ikx * (j 0 : ℕ) / n 0))
      else 0 := by
  have hk : ∀ k : Fin 2 → ℤ, (k 0 = ikx ∧ k 1 = 0) ↔ k = ![ikx, 0] := by
    intro k
    constructor
    · rintro ⟨h0, h1⟩; funext d; fin_cases d <;> simp [h0, h1]
    · rintro rfl; simp
  have : ∀ k, (if k 0 = 0 then 1 else 2) * waveEta ikx etaMax k * chi n k j
      = if k = ![ikx, 0] then (if ikx = 0 then 1 else 2) * (etaMax : ℂ) * chi n ![ikx, 0] j else 0 := by
    intro k
    simp only [waveEta, hk]
    by_cases h : k = ![ikx, 0]
    · subst h
      rw [if_pos rfl, if_pos rfl]; rfl
    · simp [h]
  have hm : ![ikx, 0] ∈ S.filter (fun k => 0 ≤ k 0) ↔ (![ikx, 0] ∈ S ∧ 0 ≤ ikx) := by simp
  simp only [ifftHalf, this, Finset.sum_ite_eq', hm]
  by_cases hc : ![ikx, 0] ∈ S ∧ 0 ≤ ikx
  · rw [if_pos hc, if_pos hc]
    have hchi : chi n ![ikx, 0] j = Complex.exp (((2 * Real.pi * ikx * (j 0 : ℕ) / n 0 : ℝ) : ℂ) * Complex.I) := by
      simp only [chi, Fin.sum_univ_two]
      congr 1
      simp
      ring
    by_cases h0 : ikx = 0
    · subst h0; rw [if_pos rfl, if_pos rfl, hchi]; simp
    · rw [if_neg h0, if_neg h0, hchi]
      have : (2 : ℂ) * (etaMax : ℂ) = ((2 * etaMax : ℝ) : ℂ) := by push_cast; rfl
      rw [this, Complex.re_ofReal_mul, Complex.exp_ofReal_mul_I_re]
  · rw [if_neg hc, if_neg hc]; simp

/-- C64, sw1l, type "wave", for a kept mode `0 < ikx`: the displacement is a cosine in `x` with `ikx` wavelengths in the
domain, maximum at `x = 0`. -/
theorem C64_wave_partial {n : Fin 2 → ℕ} {S : Finset (Fin 2 → ℤ)} {ikx : ℤ} (h : 0 < ikx) (hS : ![ikx, 0] ∈ S)
    (etaMax : ℝ) (j : Pt n) : ∃ A, ifftHalf n S (waveEta ikx etaMax) j
      = A * Real.cos (2 * Real.pi * ikx * (j 0 : ℕ) / n 0) ∧ A = 2 * etaMax := by
  refine ⟨2 * etaMax, ?_, rfl⟩
  rw [wave_grid, if_pos ⟨hS, h.le⟩, if_neg h.ne']

/-- C64, finding: the maximum of the displacement is `2 eta_max`, not `eta_max`; a negative or truncated `ikx` gives
silently a fluid at rest; `ikx = 0` gives a uniform displacement. -/
theorem C64_wave_violated {n : Fin 2 → ℕ} [∀ d, NeZero (n d)] {S : Finset (Fin 2 → ℤ)} {ikx : ℤ} {etaMax : ℝ}
    (he : 0 < etaMax) :
    (0 < ikx → ![ikx, 0] ∈ S → ifftHalf n S (waveEta ikx etaMax) 0 = 2 * etaMax ∧ etaMax < 2 * etaMax) ∧
    (ikx < 0 ∨ ![ikx, 0] ∉ S → ∀ j : Pt n, ifftHalf n S (waveEta ikx etaMax) j = 0) ∧
    (![(0 : ℤ), 0] ∈ S → ∀ j : Pt n, ifftHalf n S (waveEta 0 etaMax) j = etaMax) := by
  refine ⟨fun h hS => ⟨?_, by linarith⟩, fun h j => ?_, fun h j => ?_⟩
  · rw [wave_grid, if_pos ⟨hS, h.le⟩, if_neg h.ne']; simp
  · rw [wave_grid, if_neg]
    rintro ⟨h1, h2⟩
    rcases h with h | h
    · omega
    · exact h h1
  · rw [wave_grid, if_pos ⟨h, le_rfl⟩, if_pos rfl]

/-- The sum of the signs. -/
theorem plusMinus_even (m : ℕ) : (plusMinus (2 * m)).sum = 0 := by
  induction m with
  | zero => rfl
  | succ m ih =>
    have : plusMinus (2 * (m + 1)) = plusMinus (2 * m) ++ [-1, 1] := by
      simp only [plusMinus, show 2 * (m + 1) = 2 * m + 1 + 1 by ring, List.range_succ, List.map_append, List.map_cons,
        List.map_nil, List.append_assoc, List.cons_append, List.nil_append]
      rw [if_pos (by omega), if_neg (by omega)]
    rw [this, List.sum_append, ih]; simp

/-- C64, sw1l, grid of vortices: an odd number is refused; for an even number there are as many vortices of each sign
for every shuffle. -/
theorem C64_vortex_signs (nVort : ℕ) :
    (nVort % 2 = 1 → ∀ lx ly sd om signs x y, vortexGrid lx ly nVort sd om signs x y = .error "ValueError") ∧
    (nVort % 2 = 0 → ∀ signs, List.Perm signs (plusMinus (nVort * nVort)) →
      signs.length = nVort * nVort ∧ (∀ s ∈ signs, s = 1 ∨ s = -1) ∧ signs.sum = 0) := by
  constructor
  · intro h lx ly sd om signs x y
    simp [vortexGrid, h]
  · intro h signs hp
    refine ⟨by rw [hp.length_eq]; simp [plusMinus], fun s hs => ?_, ?_⟩
    · have := hp.mem_iff.mp hs
      simp only [plusMinus, List.mem_map] at this
      obtain ⟨i, _, rfl⟩ := this
      split <;> simp
    · rw [hp.sum_eq]
      obtain ⟨m, hm⟩ : ∃ m, nVort = 2 * m := ⟨nVort / 2, by omega⟩
      rw [show nVort * nVort = 2 * (m * nVort) by rw [hm]; ring]
      exact plusMinus_even _

/-- C64, sw1l, grid of vortices, with the default standard deviation: at the centre of each of the `n_vort²` cells, the
vorticity is ±`omega_max` with the sign of the shuffled list, up to `n_vort² exp(-72)`. -/
theorem C64_vortex_grid {lx ly : ℝ} (hx : 0 < lx) (hy : 0 < ly) {nVort : ℕ} (h2 : nVort % 2 = 0) (om : ℝ)
    (signs : List ℝ) (hp : List.Perm signs (plusMinus (nVort * nVort))) {i0 j0 : ℕ} (hi : i0 < nVort)
    (hj : j0 < nVort) :
    ∃ w, vortexGrid lx ly nVort none om signs ((i0 + 1 / 2) * (lx / nVort)) ((j0 + 1 / 2) * (ly / nVort)) = .ok w ∧
      |w - signs.getD (i0 * nVort + j0) 0 * om| ≤ nVort ^ 2 * (|om| * Real.exp (-72)) := by
  have hn : (0 : ℝ) < nVort := by exact_mod_cast (by omega : 0 < nVort)
  have hs1 : ∀ m, |signs.getD m 0| ≤ 1 := by
    intro m
    rcases Nat.lt_or_ge m signs.length with h | h
    · rw [List.getD_eq_getElem?_getD, List.getElem?_eq_getElem h, Option.getD_some]
      rcases ((C64_vortex_signs nVort).2 h2 signs hp).2.1 _ (List.getElem_mem h) with e | e <;> rw [e] <;> simp
    · rw [List.getD_eq_getElem?_getD, List.getElem?_eq_none h]; simp
  set dx := lx / nVort with hdx
  set dy := ly / nVort with hdy
  have hdx0 : 0 < dx := by positivity
  have hdy0 : 0 < dy := by positivity
  set s := min dx dy / 12 with hs
  have hs0 : 0 < s := by have := lt_min hdx0 hdy0; positivity
  set T : ℕ → ℕ → ℝ := fun i j => signs.getD (i * nVort + j) 0 * om *
      Real.exp (-(((i0 + 1 / 2) * dx - (i * lx / nVort + dx / 2)) ^ 2
        + ((j0 + 1 / 2) * dy - (j * ly / nVort + dy / 2)) ^ 2) / (2 * s ^ 2)) with hT
  refine ⟨∑ i ∈ range nVort, ∑ j ∈ range nVort, T i j, ?_, ?_⟩
  · simp only [vortexGrid, h2, Option.getD_none]
    rw [if_neg (by simp)]
  have ax : ∀ i : ℕ, (i0 + 1 / 2) * dx - (i * lx / nVort + dx / 2) = ((i0 : ℝ) - i) * dx := by
    intro i; rw [hdx]; ring
  have ay : ∀ j : ℕ, (j0 + 1 / 2) * dy - (j * ly / nVort + dy / 2) = ((j0 : ℝ) - j) * dy := by
    intro j; rw [hdy]; ring
  have T0 : T i0 j0 = signs.getD (i0 * nVort + j0) 0 * om := by
    simp only [hT, ax, ay]; simp
  have sq1 : ∀ a b : ℕ, a ≠ b → (1 : ℝ) ≤ ((a : ℝ) - b) ^ 2 := by
    intro a b h
    have : (1 : ℤ) ≤ ((a : ℤ) - b) ^ 2 := by
      have : (a : ℤ) - b ≠ 0 := by omega
      have := sq_pos_of_ne_zero this
      omega
    exact_mod_cast this
  have bnd : ∀ i j, (i, j) ≠ (i0, j0) → |T i j| ≤ |om| * Real.exp (-72) := by
    intro i j hne
    simp only [hT, ax, ay, abs_mul, Real.abs_exp]
    have hm : min dx dy ^ 2 ≤ (((i0 : ℝ) - i) * dx) ^ 2 + (((j0 : ℝ) - j) * dy) ^ 2 := by
      have m1 : min dx dy ^ 2 ≤ dx ^ 2 := pow_le_pow_left₀ (lt_min hdx0 hdy0).le (min_le_left _ _) 2
      have m2 : min dx dy ^ 2 ≤ dy ^ 2 := pow_le_pow_left₀ (lt_min hdx0 hdy0).le (min_le_right _ _) 2
      have p1 : 0 ≤ (((i0 : ℝ) - i) * dx) ^ 2 := sq_nonneg _
      have p2 : 0 ≤ (((j0 : ℝ) - j) * dy) ^ 2 := sq_nonneg _
      by_cases h : i0 = i
      · have hj' : j0 ≠ j := by rintro rfl; exact hne (by rw [h])
        have := mul_le_mul_of_nonneg_right (sq1 j0 j hj') (sq_nonneg dy)
        rw [mul_pow]
        rw [mul_pow ((j0 : ℝ) - j)]
        rw [mul_pow] at p1
        linarith
      · have := mul_le_mul_of_nonneg_right (sq1 i0 i h) (sq_nonneg dx)
        rw [mul_pow]
        linarith
    have he : Real.exp (-((((i0 : ℝ) - i) * dx) ^ 2 + (((j0 : ℝ) - j) * dy) ^ 2) / (2 * s ^ 2))
        ≤ Real.exp (-72) := by
      apply Real.exp_le_exp.mpr
      rw [div_le_iff₀ (by positivity)]
      have : 72 * (2 * s ^ 2) = min dx dy ^ 2 := by rw [hs]; ring
      linarith
    have := hs1 (i * nVort + j)
    calc |signs.getD (i * nVort + j) 0| * |om| * _ ≤ 1 * |om| * Real.exp (-72) := by
          gcongr
      _ = _ := by ring
  have hsum : ∑ i ∈ range nVort, ∑ j ∈ range nVort, T i j
      = ∑ p ∈ (range nVort ×ˢ range nVort), T p.1 p.2 := by rw [Finset.sum_product]
  have hmem : (i0, j0) ∈ (range nVort ×ˢ range nVort) := by simp [hi, hj]
  rw [hsum, ← Finset.add_sum_erase _ _ hmem]
  simp only [T0, add_sub_cancel_left]
  refine le_trans (Finset.abs_sum_le_sum_abs _ _) ?_
  refine le_trans (Finset.sum_le_sum fun p hp' => bnd p.1 p.2 (Finset.ne_of_mem_erase hp')) ?_
  rw [Finset.sum_const, nsmul_eq_mul]
  have hc : (((range nVort ×ˢ range nVort).erase (i0, j0)).card : ℝ) ≤ (nVort : ℝ) ^ 2 := by
    have := Finset.card_erase_le (s := range nVort ×ˢ range nVort) (a := (i0, j0))
    rw [Finset.card_product, Finset.card_range] at this
    have h3 : (((range nVort ×ˢ range nVort).erase (i0, j0)).card : ℝ) ≤ ((nVort * nVort : ℕ) : ℝ) := by
      exact_mod_cast this
    push_cast at h3
    nlinarith
  exact mul_le_mul_of_nonneg_right hc (by positivity)

example : (4 : ℕ) % 2 = 0 ∧ List.Perm (plusMinus (4 * 4)).reverse (plusMinus (4 * 4)) ∧ 1 < 4 ∧ 3 < 4 :=
  ⟨rfl, List.reverse_perm _, by norm_num, by norm_num⟩

/-! ### ns2d.strat, linear mode -/

theorem mem_linearCells {nk0 nk1 : ℕ} {im : ℕ × ℕ} {delta : ℕ} {p : ℕ × ℕ} :
    p ∈ linearCells nk0 nk1 im delta ↔ (p.1 < nk1 ∧ p.2 < nk0) ∧
      im.1 ≤ p.2 ∧ p.2 + 1 ≤ im.1 + delta ∧ im.2 ≤ p.1 ∧ p.1 + 1 ≤ im.2 + delta := by
  obtain ⟨r, c⟩ := p
  simp [linearCells]

/-- C64, ns2d.strat, "linear_mode", for a block of modes in the first `min(nkx, nky)` ones: the modes
`[ikx, ikx + delta) × [iky, iky + delta)` have the amplitude `amplitude N²`, the others are zero. Missing: the other
modes of the arrays, see `C64_linear_mode_violated`. -/
theorem C64_linear_mode_partial {nky nkx ikx iky delta : ℕ} (hx : ikx + delta ≤ min nkx nky)
    (hy : iky + delta ≤ min nkx nky) (amplitude N : ℝ) :
    ∃ f, linearMode nky nkx (ikx, iky) delta amplitude N = .ok f ∧ ∀ ky kx, ky < nky → kx < nkx →
      f (ky, kx) = if ikx ≤ kx ∧ kx < ikx + delta ∧ iky ≤ ky ∧ ky < iky + delta then amplitude * N ^ 2 else 0 := by
  have h1 := le_min_iff.mp hx
  have h2 := le_min_iff.mp hy
  refine ⟨_, by
    simp only [linearMode]
    rw [if_pos]
    simp only [List.all_eq_true, decide_eq_true_eq]
    intro p hp
    have := mem_linearCells.mp hp
    constructor
    · dsimp only at this; omega
    · dsimp only at this; omega, ?_⟩
  intro ky kx hky hkx
  have e : (ky, kx) ∈ linearCells nky nkx (ikx, iky) delta
      ↔ (ikx ≤ kx ∧ kx < ikx + delta ∧ iky ≤ ky ∧ ky < iky + delta) := by
    rw [mem_linearCells]; dsimp only; omega
  simp only [e]
  split <;> simp

example : ∃ f, linearMode 8 5 (2, 1) 2 3 1 = .ok f ∧ f (1, 2) = 3 ∧ f (3, 2) = 0 ∧ f (1, 4) = 0 := by
  obtain ⟨f, hf, h⟩ := C64_linear_mode_partial (nky := 8) (nkx := 5) (ikx := 2) (iky := 1) (delta := 2)
    (by norm_num) (by norm_num) 3 1
  exact ⟨f, hf, by rw [h 1 2 (by norm_num) (by norm_num)]; norm_num,
    by rw [h 3 2 (by norm_num) (by norm_num)]; norm_num, by rw [h 1 4 (by norm_num) (by norm_num)]; norm_num⟩

/-- C64, finding: the indices are transposed: a mode of the arrays with `nky ≤ ikx` (domain longer in `x`) or
`nkx ≤ iky` gives silently zero fields. -/
theorem C64_linear_mode_violated {nky nkx ikx iky : ℕ} (delta : ℕ) (h : nky ≤ ikx ∨ nkx ≤ iky) (amplitude N : ℝ) :
    ∃ f, linearMode nky nkx (ikx, iky) delta amplitude N = .ok f ∧ ∀ p, f p = 0 := by
  have hem : linearCells nky nkx (ikx, iky) delta = [] := by
    rw [List.eq_nil_iff_forall_not_mem]
    intro p hp
    have := mem_linearCells.mp hp
    dsimp only at this
    omega
  refine ⟨_, by simp only [linearMode, hem]; rw [if_pos (by simp)], fun p => by simp⟩

/-- Such modes exist: `nkx = 17`, `nky = 8`, mode `(10, 2)`. -/
example : 8 ≤ 10 ∧ 10 < 17 ∧ 2 < 8 := by norm_num

/-! ### From a file -/

theorem checkAxes_ok {params : String → Option ℝ} {oper : List (String × ℝ)} :
    ∀ {axes : List String}, checkAxes params oper axes = .ok → ∀ r ∈ axes,
      (∃ v, oper.lookup ("n" ++ r) = some v ∧ params ("n" ++ r) = some v) ∧
      ∀ l, oper.lookup ("L" ++ r) = some l → params ("L" ++ r) = some l
  | [], _, _, hr => by simp at hr
  | a :: as, h, r, hr => by
    simp only [checkAxes] at h
    split at h
    · simp at h
    · rename_i nr hnr
      split at h
      · simp at h
      · rename_i hp
        have hp' : params ("n" ++ a) = some nr := not_not.mp hp
        split at h
        · rename_i hl
          rcases List.mem_cons.mp hr with rfl | hr'
          · exact ⟨⟨nr, hnr, hp'⟩, fun l hl' => by rw [hl] at hl'; simp at hl'⟩
          · exact checkAxes_ok h r hr'
        · rename_i lr hlr
          split at h
          · simp at h
          · rename_i hq
            rcases List.mem_cons.mp hr with rfl | hr'
            · exact ⟨⟨nr, hnr, hp'⟩, fun l hl' => by
                rw [hlr] at hl'; rw [← Option.some.inj hl']; exact not_not.mp hq⟩
            · exact checkAxes_ok h r hr'

theorem checkLegacy_ok {params : String → Option ℝ} {oper : List (String × ℝ)} (h : checkLegacy params oper = .ok ()) :
    ∀ r ∈ ["nx", "ny", "Lx", "Ly"], ∃ v, oper.lookup r = some v ∧ params r = some v := by
  simp only [checkLegacy] at h
  split at h
  · rename_i nx ny lx ly h1 h2 h3 h4
    split at h
    · simp at h
    · rename_i hn
      push Not at hn
      intro r hr
      simp only [List.mem_cons, List.not_mem_nil, or_false] at hr
      rcases hr with rfl | rfl | rfl | rfl
      · exact ⟨_, h1, hn.1⟩
      · exact ⟨_, h2, hn.2.1⟩
      · exact ⟨_, h3, hn.2.2.1⟩
      · exact ⟨_, h4, hn.2.2.2⟩
  · simp at h

/-- C64, type "from_file", for a file with the names of the axes and the number of points of each of them: if the
initialisation succeeds the numbers of points, and the lengths of the domain given in the file, are the ones of the
simulation; the state is the one of the file (zero for the variables which are not in the file), as well as the time
and the iteration (0 if not in the file). -/
theorem C64_from_file_partial {A : Type} (zero : A) (params : String → Option ℝ) (needed : List String)
    (f : StateFile A) (s s' : SimState A) {axes : List String} (ha : f.axes = some axes)
    (hn : ∀ r ∈ axes, ∃ v, f.oper.lookup ("n" ++ r) = some v) (h : fromFile zero params needed f s = .ok s') :
    (∀ r ∈ axes, (∃ v, f.oper.lookup ("n" ++ r) = some v ∧ params ("n" ++ r) = some v) ∧
      ∀ l, f.oper.lookup ("L" ++ r) = some l → params ("L" ++ r) = some l) ∧
    (∀ k ∈ needed, (∀ a, f.arrays.lookup k = some a → s'.arrays k = a) ∧
      (f.arrays.lookup k = none → s'.arrays k = zero)) ∧
    s'.t = f.time ∧ (∀ i, f.it = some i → s'.it = i) ∧ (f.it = none → s'.it = 0) := by
  have nokey : ∀ as : List String, (∀ r ∈ as, ∃ v, f.oper.lookup ("n" ++ r) = some v) →
      checkAxes params f.oper as ≠ .keyError := by
    intro as
    induction as with
    | nil => simp [checkAxes]
    | cons a as ih =>
      intro hh
      obtain ⟨v, hv⟩ := hh a (by simp)
      have := ih fun r hr => hh r (by simp [hr])
      simp only [checkAxes, hv]
      split
      · simp
      · split
        · exact this
        · split
          · simp
          · exact this
  simp only [fromFile] at h
  split at h
  · simp at h
  · rename_i hc
    simp only [Except.ok.injEq] at h
    subst h
    refine ⟨?_, ?_, rfl, fun i hi => by simp [hi], fun hi => by simp [hi]⟩
    · simp only [checkFile, ha] at hc
      split at hc
      · rename_i hok; exact checkAxes_ok hok
      · simp at hc
      · rename_i hk; exact absurd hk (nokey axes hn)
    · intro k hk
      constructor
      · intro a ha'; simp [hk, ha']
      · intro ha'; simp [hk, ha']

/-- A file which matches, and one which does not. -/
example : ∃ s' : SimState ℕ, fromFile 0 (fun k => if k = "nx" then some 4 else if k = "Lx" then some 2 else none)
    ["ux", "uy"] ⟨some ["x"], [("nx", 4), ("Lx", 2)], [("ux", 7)], 3, none⟩ ⟨fun _ => 9, 0, 5⟩ = .ok s' ∧
    s'.arrays "ux" = 7 ∧ s'.arrays "uy" = 0 ∧ s'.t = 3 ∧ s'.it = 0 := by
  have hc : checkFile (fun k => if k = "nx" then some 4 else if k = "Lx" then some 2 else none)
      (⟨some ["x"], [("nx", 4), ("Lx", 2)], [("ux", 7)], 3, none⟩ : StateFile ℕ) = .ok () := by
    simp [checkFile, checkAxes, List.lookup]
  refine ⟨_, by rw [fromFile, hc], ?_⟩
  simp [List.lookup]

/-- C64: for such a file, if a number of points differs, or a length given in the file, ValueError is raised and the
state is not modified. -/
theorem C64_from_file_mismatch {A : Type} (zero : A) (params : String → Option ℝ) (needed : List String)
    (f : StateFile A) (s : SimState A) {axes : List String} (ha : f.axes = some axes)
    (hn : ∀ r ∈ axes, ∃ v, f.oper.lookup ("n" ++ r) = some v) {r : String} (hr : r ∈ axes) {v : ℝ}
    (h : (f.oper.lookup ("n" ++ r) = some v ∧ params ("n" ++ r) ≠ some v) ∨
      (f.oper.lookup ("L" ++ r) = some v ∧ params ("L" ++ r) ≠ some v)) :
    fromFile zero params needed f s = .error "ValueError" := by
  have key : checkAxes params f.oper axes = .valueError := by
    induction axes generalizing f with
    | nil => simp at hr
    | cons a as ih =>
      obtain ⟨w, hw⟩ := hn a (by simp)
      simp only [checkAxes, hw]
      by_cases hp : params ("n" ++ a) = some w
      · rw [if_neg (not_not.mpr hp)]
        have hrest : r ∈ as → checkAxes params f.oper as = .valueError := fun hr' =>
          ih { f with axes := some as } rfl (fun q hq => hn q (by simp [hq])) hr' h
        rcases List.mem_cons.mp hr with rfl | hr'
        · rcases h with ⟨h1, h2⟩ | ⟨h1, h2⟩
          · rw [hw] at h1; rw [← Option.some.inj h1] at h2; exact absurd hp h2
          · simp only [h1, ne_eq, h2, not_false_eq_true, if_true]
        · split
          · exact hrest hr'
          · split
            · rfl
            · exact hrest hr'
      · rw [if_pos hp]
  simp [fromFile, checkFile, ha, key]

/-- C64, finding: for a file without the names of the axes only `nx`, `ny`, `Lx`, `Ly` are compared: a state with
another `nz` or `Lz` is accepted. -/
theorem C64_from_file_violated {A : Type} (zero a : A) (s : SimState A) :
    ∃ (params : String → Option ℝ) (f : StateFile A), f.oper.lookup "nz" = some 16 ∧ params "nz" = some 32 ∧
      f.oper.lookup "Lz" = some 1 ∧ params "Lz" = some 5 ∧
      ∃ s', fromFile zero params ["vx"] f s = .ok s' ∧ s'.arrays "vx" = a := by
  refine ⟨fun k => if k = "nz" then some 32 else if k = "Lz" then some 5 else some 8,
    ⟨none, [("nx", 8), ("ny", 8), ("Lx", 8), ("Ly", 8), ("nz", 16), ("Lz", 1)], [("vx", a)], 0, none⟩,
    by simp [List.lookup], by simp, by simp [List.lookup], by simp, ?_⟩
  have hc : checkFile (fun k => if k = "nz" then some 32 else if k = "Lz" then some 5 else some 8)
      (⟨none, [("nx", 8), ("ny", 8), ("Lx", 8), ("Ly", 8), ("nz", 16), ("Lz", 1)], [("vx", a)], 0, none⟩ :
        StateFile A) = .ok () := by
    simp [checkFile, checkLegacy, List.lookup]
  refine ⟨_, by rw [fromFile, hc], ?_⟩
  simp [List.lookup]

/-! ### Selection -/

/-- C64: the type has to be one of the available ones; the state is said initialised except for the type "in_script",
or if `modif_after_init` is asked. -/
theorem C64_selection (available : List String) (type : String) (modif : Bool) :
    (type ∉ available → isInitialized available type modif = .error "ValueError") ∧
    (type ∈ available → ∃ b, isInitialized available type modif = .ok b ∧
      (b = true ↔ type ≠ "in_script" ∧ modif = false)) := by
  constructor
  · intro h; simp [isInitialized, h]
  · intro h
    simp only [isInitialized, h, not_true_eq_false, if_false]
    refine ⟨_, rfl, ?_⟩
    split
    · simp_all
    · cases modif <;> simp_all

end

end Verif.InitFields
