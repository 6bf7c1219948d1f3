import Verif.BudgetCurves.Spec
import Mathlib.Analysis.Calculus.Deriv.MeanValue
import Mathlib.Analysis.Calculus.Deriv.Pow
import Mathlib.Tactic.Linarith
import Mathlib.Tactic.FieldSimp
import Mathlib.Tactic.Ring
import Mathlib.Tactic.NormNum

/-! # C100: the curves which check the budgets of energy -/

set_option linter.unusedSectionVars false

namespace Verif.BudgetCurves

noncomputable section

variable {E B : ℝ → ℝ} {d : Means} {K : ℝ}

theorem Records.lt (h : Records E B d) {i j : ℕ} (hij : i < j) (hj : j < d.n) : d.t i < d.t j := by
  induction j with
  | zero => omega
  | succ j ih =>
    rcases Nat.lt_succ_iff_lt_or_eq.1 hij with h' | rfl
    · exact (ih h' (by omega)).trans (h.inc j hj)
    · exact h.inc i hj

theorem Records.le (h : Records E B d) {i j : ℕ} (hij : i ≤ j) (hj : j < d.n) : d.t i ≤ d.t j := by
  rcases hij.eq_or_lt with rfl | h'
  · exact le_rfl
  · exact (h.lt h' hj).le

/-- The slope between two records is the value of the budget at a time between them. -/
theorem Records.slope (h : Records E B d) {i j : ℕ} (hij : i < j) (hj : j < d.n) :
    ∃ s, d.t i < s ∧ s < d.t j ∧ (d.E j - d.E i) / (d.t j - d.t i) = B s := by
  have hl : ∀ t, d.t i ≤ t → t ≤ d.t j → HasDerivAt E (B t) t := fun t h1 h2 =>
    h.law t ((h.le (Nat.zero_le i) (by omega)).trans h1) (h2.trans (h.le (by omega) (by omega)))
  obtain ⟨s, hs, e⟩ := exists_hasDerivAt_eq_slope E B (h.lt hij hj)
    (fun t ht => (hl t ht.1 ht.2).continuousAt.continuousWithinAt) fun t ht => hl t ht.1.le ht.2.le
  refine ⟨s, hs.1, hs.2, ?_⟩
  rw [h.energy j hj, h.energy i (by omega), e]

theorem Records.slope_near (h : Records E B d) (hK : SlowlyVarying K B) {i j : ℕ} (hij : i < j) (hj : j < d.n) {t : ℝ} (h1 : d.t i ≤ t)
    (h2 : t ≤ d.t j) : |(d.E j - d.E i) / (d.t j - d.t i) - B t| ≤ K * (d.t j - d.t i) := by
  obtain ⟨s, hs1, hs2, e⟩ := h.slope hij hj
  have hK0 : 0 ≤ K := by
    have := (abs_nonneg _).trans (hK 1 0)
    norm_num at this
    exact this
  rw [e]
  refine (hK s t).trans (mul_le_mul_of_nonneg_left ?_ hK0)
  rw [abs_le]
  constructor <;> linarith

/-- The spacing of the records around the record `i`. -/
def spacing (d : Means) (i : ℕ) : ℝ :=
  if i = 0 then d.t 1 - d.t 0
  else if i = d.n - 1 then d.t (d.n - 1) - d.t (d.n - 2)
  else max (d.t i - d.t (i - 1)) (d.t (i + 1) - d.t i)

/-- The formula of NumPy is the mean of the slopes on the two sides, the closest record having the largest weight. -/
theorem gradient_interior {h1 h2 : ℝ} (p1 : 0 < h1) (p2 : 0 < h2) (a b c : ℝ) :
    -h2 / (h1 * (h1 + h2)) * a + (h2 - h1) / (h1 * h2) * b + h1 / (h2 * (h1 + h2)) * c
      = (h2 * ((b - a) / h1) + h1 * ((c - b) / h2)) / (h1 + h2) := by
  have := p1.ne'
  have := p2.ne'
  have := (add_pos p1 p2).ne'
  field_simp
  ring

/-- C100 (ns2d, and ns3d and ns3d.strat): `plot_dt_energy` and `plot_dt_E` work as soon as there are two records, and their two curves are
drawn at the times of the records; when the budget varies slowly, their distance at a record is at most proportional to the spacing. -/
theorem C100_curves (h : Records E B d) (hK : SlowlyVarying K B) (hn : 2 ≤ d.n) :
    ∃ c c', plotDtEnergy d = .ok (c, c') ∧ c.n = d.n ∧ c'.n = d.n ∧ c.x = d.t ∧ c'.x = d.t ∧
      ∀ i < d.n, c'.y i = B (d.t i) ∧ |c.y i - c'.y i| ≤ K * spacing d i := by
  have hn' : ¬d.n < 2 := by omega
  refine ⟨_, _, by rw [plotDtEnergy, gradient, if_neg hn'], rfl, rfl, rfl, rfl, fun i hi => ⟨h.budget i hi, ?_⟩⟩
  simp only [h.budget i hi, spacing]
  by_cases h0 : i = 0
  · subst h0
    simp only [if_true]
    exact h.slope_near hK (by omega) (by omega) le_rfl (h.inc 0 (by omega)).le
  simp only [h0, if_false]
  by_cases h1 : i = d.n - 1
  · subst h1
    simp only [if_true]
    exact h.slope_near hK (by omega) (by omega) (h.le (by omega) (by omega)) le_rfl
  simp only [h1, if_false]
  have hi1 : i - 1 + 1 = i := by omega
  have p1 : 0 < d.t i - d.t (i - 1) := by
    have := h.inc (i - 1) (by omega)
    rw [hi1] at this
    linarith
  have p2 : 0 < d.t (i + 1) - d.t i := by linarith [h.inc i (by omega)]
  rw [gradient_interior p1 p2]
  have e1 := h.slope_near hK (i := i - 1) (j := i) (by omega) (by omega) (h.le (by omega) hi) le_rfl
  have e2 := h.slope_near hK (i := i) (j := i + 1) (by omega) (by omega) le_rfl (h.inc i (by omega)).le
  generalize d.t i - d.t (i - 1) = h1 at *
  generalize d.t (i + 1) - d.t i = h2 at *
  generalize (d.E i - d.E (i - 1)) / h1 = q1 at *
  generalize (d.E (i + 1) - d.E i) / h2 = q2 at *
  have hK0 : 0 ≤ K := by
    have := (abs_nonneg _).trans e1
    by_contra hc
    nlinarith
  have ps := add_pos p1 p2
  have e : (h2 * q1 + h1 * q2) / (h1 + h2) - B (d.t i) = (h2 * (q1 - B (d.t i)) + h1 * (q2 - B (d.t i))) / (h1 + h2) := by
    field_simp
    ring
  rw [e, abs_div, abs_of_pos ps, div_le_iff₀ ps]
  refine (abs_add_le _ _).trans ?_
  rw [abs_mul, abs_mul, abs_of_pos p1, abs_of_pos p2]
  have m1 : h1 ≤ max h1 h2 := le_max_left _ _
  have m2 : h2 ≤ max h1 h2 := le_max_right _ _
  have a1 : h2 * |q1 - B (d.t i)| ≤ h2 * (K * max h1 h2) :=
    mul_le_mul_of_nonneg_left (e1.trans (mul_le_mul_of_nonneg_left m1 hK0)) p2.le
  have a2 : h1 * |q2 - B (d.t i)| ≤ h1 * (K * max h1 h2) :=
    mul_le_mul_of_nonneg_left (e2.trans (mul_le_mul_of_nonneg_left m2 hK0)) p1.le
  linarith

/-- C100 (second order): when the budget is a linear function of the time, the two curves of `plot_dt_energy` and `plot_dt_E` are equal at
all the records but the first and the last one, whatever the spacings. -/
theorem C100_exact (h : Records E B d) {a b : ℝ} (hB : ∀ t, B t = a + b * t) (hE : ∀ t, E t = E 0 + a * t + b * t ^ 2 / 2) {c c' : Curve}
    (hp : plotDtEnergy d = .ok (c, c')) {i : ℕ} (h0 : 0 < i) (h1 : i + 1 < d.n) : c.y i = c'.y i := by
  have hn' : ¬d.n < 2 := by omega
  rw [plotDtEnergy, gradient, if_neg hn'] at hp
  cases hp
  have hi0 : i ≠ 0 := by omega
  have hi1 : i ≠ d.n - 1 := by omega
  have hi2 : i - 1 + 1 = i := by omega
  have p1 : 0 < d.t i - d.t (i - 1) := by
    have := h.inc (i - 1) (by omega)
    rw [hi2] at this
    linarith
  have p2 : 0 < d.t (i + 1) - d.t i := by linarith [h.inc i h1]
  simp only [hi0, hi1, if_false]
  rw [gradient_interior p1 p2, h.budget i (by omega), hB, h.energy i (by omega), h.energy (i - 1) (by omega), h.energy (i + 1) h1, hE (d.t i),
    hE (d.t (i - 1)), hE (d.t (i + 1))]
  have ps := (add_pos p1 p2).ne'
  have := p1.ne'
  have := p2.ne'
  have e1 : (E 0 + a * d.t i + b * d.t i ^ 2 / 2 - (E 0 + a * d.t (i - 1) + b * d.t (i - 1) ^ 2 / 2)) / (d.t i - d.t (i - 1))
      = a + b * (d.t i + d.t (i - 1)) / 2 := by
    rw [div_eq_iff (by assumption)]
    ring
  have e2 : (E 0 + a * d.t (i + 1) + b * d.t (i + 1) ^ 2 / 2 - (E 0 + a * d.t i + b * d.t i ^ 2 / 2)) / (d.t (i + 1) - d.t i)
      = a + b * (d.t (i + 1) + d.t i) / 2 := by
    rw [div_eq_iff (by assumption)]
    ring
  rw [e1, e2, div_eq_iff ps]
  ring

/-- C100, `plot_dt_energy` needs two records. -/
theorem C100_two_records (d : Means) : (∃ r, plotDtEnergy d = .ok r) ↔ 2 ≤ d.n := by
  unfold plotDtEnergy gradient
  by_cases hn : d.n < 2
  · simp only [hn, if_true]
    constructor
    · rintro ⟨r, hr⟩
      cases hr
    · omega
  · simp only [hn, if_false]
    exact ⟨fun _ => by omega, fun _ => ⟨_, rfl⟩⟩

/-- C100 (enstrophy, with a forcing): the same curves for the enstrophy. -/
theorem C100_enstrophy_partial (hP : d.P.isSome = true) : plotDtEnstrophy d = plotDtEnergy d := by
  unfold plotDtEnstrophy plotDtEnergy
  obtain ⟨P, hP⟩ := Option.isSome_iff_exists.1 hP
  cases gradient d.n d.E d.t with
  | error e => rfl
  | ok g => simp only [hP]

/-- C100, what is not right: `plot_dt_enstrophy` fails for all the simulations without forcing (an unbound local variable). -/
theorem C100_enstrophy_violated (hn : 2 ≤ d.n) (hP : d.P = none) : plotDtEnstrophy d = .error .unboundLocal := by
  have hn' : ¬d.n < 2 := by omega
  simp only [plotDtEnstrophy, gradient, if_neg hn', hP]

/-- C100 (plate2d): with `with_dtE`, the curve which should be zero is at most proportional to the spacing. -/
theorem C100_plate (h : Records E B d) (hK : SlowlyVarying K B) (hn : 2 ≤ d.n) :
    ∃ c, plotPlate d = .ok c ∧ c.n = d.n ∧ c.x = d.t ∧ ∀ i < d.n, |c.y i| ≤ 2 * K * spacing d i := by
  have hn' : ¬d.n < 2 := by omega
  refine ⟨_, by rw [plotPlate, dtEPlate, if_neg hn'], rfl, rfl, fun i hi => ?_⟩
  have hb := h.budget i hi
  have key : ∀ g : ℝ, d.residual g i = g - B (d.t i) := by
    intro g
    rw [← hb, Means.budget, Means.residual]
    cases d.P with
    | none => simp
    | some P => simp only; ring
  simp only [key, spacing]
  have hK0 : 0 ≤ K := by
    have := (abs_nonneg _).trans (hK 1 0)
    norm_num at this
    exact this
  by_cases h1 : i = d.n - 1
  · subst h1
    have h0 : d.n - 1 ≠ 0 := by omega
    simp only [if_true, h0, if_false]
    have := h.slope_near hK (i := d.n - 2) (j := d.n - 1) (by omega) (by omega) (h.le (by omega) (by omega)) le_rfl
    have : 0 ≤ K * (d.t (d.n - 1) - d.t (d.n - 2)) := (abs_nonneg _).trans this
    linarith
  simp only [h1, if_false]
  by_cases h0 : i = 0
  · subst h0
    simp only [if_true]
    have := h.slope_near hK (i := 0) (j := 1) (by omega) (by omega) le_rfl (h.inc 0 (by omega)).le
    have : 0 ≤ K * (d.t 1 - d.t 0) := (abs_nonneg _).trans this
    linarith
  simp only [h0, if_false]
  refine (h.slope_near hK (i := i - 1) (j := i + 1) (by omega) (by omega) (h.le (by omega) hi) (h.inc i (by omega)).le).trans ?_
  have m1 := le_max_left (d.t i - d.t (i - 1)) (d.t (i + 1) - d.t i)
  have m2 := le_max_right (d.t i - d.t (i - 1)) (d.t (i + 1) - d.t i)
  nlinarith

/-- C100 (plate2d): with `with_dtE`, two records are needed; otherwise `IndexError`. -/
theorem C100_plate_two_records (d : Means) :
    ((∃ c, plotPlate d = .ok c) ↔ 2 ≤ d.n) ∧ (d.n < 2 → plotPlate d = .error .indexError) := by
  unfold plotPlate dtEPlate
  by_cases hn : d.n < 2
  · simp only [hn, if_true]
    refine ⟨⟨?_, by omega⟩, fun _ => trivial⟩
    rintro ⟨r, hr⟩
    cases hr
  · simp only [hn, if_false]
    exact ⟨⟨fun _ => by omega, fun _ => ⟨_, rfl⟩⟩, fun h => absurd h (by simp)⟩

/-- C100 (ns2d.strat), what is right: the points of the derivative are at the middles of the intervals, where they are close to the
budget. -/
theorem C100_strat_partial (h : Records E B d) (hK : SlowlyVarying K B) {i : ℕ} (hi : i + 1 < d.n) :
    (plotDtEnergyStrat d).1.x i = (d.t i + d.t (i + 1)) / 2 ∧
      |(plotDtEnergyStrat d).1.y i - B ((plotDtEnergyStrat d).1.x i)| ≤ K * (d.t (i + 1) - d.t i) := by
  have := h.inc i hi
  refine ⟨by simp only [plotDtEnergyStrat]; ring, h.slope_near hK (by omega) hi ?_ ?_⟩ <;> simp only [plotDtEnergyStrat] <;> linarith

/-- C100 (ns2d.strat), what is not right: the budget of the record `i + 1` is drawn half an interval too late, at the middle of the
interval which begins at this record. So when the budget is `a + b t`, the two curves differ by `b` times half of the spacing at each of
their common abscissae, although the derivative is exact. -/
theorem C100_strat_violated (h : Records E B d) {a b : ℝ} (hB : ∀ t, B t = a + b * t) (hE : ∀ t, E t = E 0 + a * t + b * t ^ 2 / 2) {i : ℕ}
    (hi : i + 2 < d.n) :
    (plotDtEnergyStrat d).2.x i = (plotDtEnergyStrat d).1.x (i + 1) ∧
      (plotDtEnergyStrat d).1.y (i + 1) = B ((plotDtEnergyStrat d).1.x (i + 1)) ∧
      (plotDtEnergyStrat d).1.y (i + 1) - (plotDtEnergyStrat d).2.y i = b * (d.t (i + 2) - d.t (i + 1)) / 2 := by
  have p := h.inc (i + 1) hi
  have hlt : i + 1 + 1 < d.n := hi
  have e : (d.E (i + 1 + 1) - d.E (i + 1)) / (d.t (i + 1 + 1) - d.t (i + 1)) = a + b * ((d.t (i + 1 + 1) + d.t (i + 1)) / 2) := by
    rw [h.energy (i + 1 + 1) hi, h.energy (i + 1) (by omega), hE (d.t (i + 1 + 1)), hE (d.t (i + 1)), div_eq_iff (by linarith)]
    ring
  refine ⟨?_, ?_, ?_⟩
  · simp only [plotDtEnergyStrat, hlt, if_true]
    ring
  · simp only [plotDtEnergyStrat, hB]
    exact e
  · simp only [plotDtEnergyStrat]
    rw [e, h.budget (i + 1) (by omega), hB]
    ring

/-- C100 (sw1l): the curve of `plot_rates` is close to the absolute value of the derivative. -/
theorem C100_rates (h : Records E B d) (hK : SlowlyVarying K B) (hn : 2 ≤ d.n) :
    ∃ c m, rateOf d.n d.t d.E = .ok (c, m) ∧ c.n = d.n ∧ c.x = d.t ∧ (∀ i < d.n, |c.y i - abs (B (d.t i))| ≤ 2 * K * spacing d i) ∧
      m * d.n = ∑ i : Fin d.n, c.y i := by
  have hn' : ¬d.n < 2 := by omega
  refine ⟨_, _, by rw [rateOf, gradient1, if_neg hn', gradient1, if_neg hn'], rfl, rfl, fun i hi => ?_, ?_⟩
  · have hK0 : 0 ≤ K := by
      have := (abs_nonneg _).trans (hK 1 0)
      norm_num at this
      exact this
    simp only [spacing]
    refine (abs_abs_sub_abs_le_abs_sub _ _).trans ?_
    by_cases h0 : i = 0
    · subst h0
      simp only [if_true]
      have := h.slope_near hK (i := 0) (j := 1) (by omega) (by omega) le_rfl (h.inc 0 (by omega)).le
      have : 0 ≤ K * (d.t 1 - d.t 0) := (abs_nonneg _).trans this
      linarith
    simp only [h0, if_false]
    by_cases h1 : i = d.n - 1
    · subst h1
      simp only [if_true]
      have := h.slope_near hK (i := d.n - 2) (j := d.n - 1) (by omega) (by omega) (h.le (by omega) (by omega)) le_rfl
      have : 0 ≤ K * (d.t (d.n - 1) - d.t (d.n - 2)) := (abs_nonneg _).trans this
      linarith
    simp only [h1, if_false]
    rw [div_div_div_cancel_right₀ two_ne_zero]
    refine (h.slope_near hK (i := i - 1) (j := i + 1) (by omega) (by omega) (h.le (by omega) hi) (h.inc i (by omega)).le).trans ?_
    have m1 := le_max_left (d.t i - d.t (i - 1)) (d.t (i + 1) - d.t i)
    have m2 := le_max_right (d.t i - d.t (i - 1)) (d.t (i + 1) - d.t i)
    nlinarith
  · have : (d.n : ℝ) ≠ 0 := by
      have : d.n ≠ 0 := by omega
      exact_mod_cast this
    exact div_mul_cancel₀ _ this

/-- C100 (sw1l), the keys as a list: one curve for each key, in the order; an unknown key raises `KeyError`. -/
theorem C100_rates_keys (n : ℕ) (hn : 2 ≤ n) (t : ℕ → ℝ) (load : List Char → Option (ℕ → ℝ)) (l : List (List Char)) :
    ((∃ r, plotRates n t load (.list l) = .ok r) ↔ ∀ k ∈ l, (load k).isSome = true) ∧
      ∀ r, plotRates n t load (.list l) = .ok r → r.map Except.ok = l.map fun k => match load k with
        | none => .error Err.keyError
        | some E => rateOf n t E := by
  have hn' : ¬n < 2 := by omega
  have hr : ∀ E, ∃ c, rateOf n t E = .ok c := fun E => ⟨_, by rw [rateOf, gradient1, if_neg hn', gradient1, if_neg hn']⟩
  unfold plotRates Keys.iter
  simp only
  generalize hf : (fun k => match load k with
    | none => Except.error Err.keyError
    | some E => rateOf n t E) = f
  have hfk : ∀ k, (∃ c, f k = .ok c) ↔ (load k).isSome = true := by
    intro k
    rw [← hf]
    cases hl : load k with
    | none => simp [hl]
    | some E => simp only [hl, Option.isSome_some, iff_true]; exact hr E
  induction l with
  | nil =>
    refine ⟨⟨by simp, fun _ => ⟨[], rfl⟩⟩, fun r e => ?_⟩
    cases e
    rfl
  | cons k l ih =>
    have hc : List.mapM f (k :: l) = match f k with
      | .error e => .error e
      | .ok c => match List.mapM f l with
        | .error e => .error e
        | .ok r => .ok (c :: r) := by
      rw [List.mapM_cons]
      cases f k with
      | error e => rfl
      | ok c => cases List.mapM f l <;> rfl
    rw [hc]
    constructor
    · constructor
      · rintro ⟨r, e⟩ k' hk'
        cases hk : f k with
        | error e' => rw [hk] at e; cases e
        | ok c =>
          rw [hk] at e
          cases hl : List.mapM f l with
          | error e' => rw [hl] at e; cases e
          | ok r' =>
            rcases List.mem_cons.1 hk' with rfl | h'
            · exact (hfk k').1 ⟨c, hk⟩
            · exact ih.1.1 ⟨r', hl⟩ k' h'
      · intro h
        obtain ⟨c, hk⟩ := (hfk k).2 (h k List.mem_cons_self)
        obtain ⟨r, hl⟩ := ih.1.2 fun k' h' => h k' (List.mem_cons_of_mem _ h')
        exact ⟨c :: r, by rw [hk, hl]⟩
    · intro r e
      cases hk : f k with
      | error e' => rw [hk] at e; cases e
      | ok c =>
        rw [hk] at e
        cases hl : List.mapM f l with
        | error e' => rw [hl] at e; cases e
        | ok r' =>
          rw [hl] at e
          cases e
          rw [List.map_cons, List.map_cons, ih.2 r' hl, hk]

/-- C100 (sw1l), what is not right: a key given as a string of several characters, as documented (`plot_rates('EK')`), is taken as the
list of its characters: the call raises `KeyError` although the results have this key. -/
theorem C100_rates_string_violated (n : ℕ) (t : ℕ → ℝ) :
    ∃ load : List Char → Option (ℕ → ℝ), (load "EK".toList).isSome = true ∧ (load "E".toList).isSome = true ∧
      ∀ r, plotRates n t load (.str "EK".toList) ≠ .ok r := by
  refine ⟨fun k => if k = "EK".toList ∨ k = "E".toList then some fun _ => 0 else none, by decide +kernel, by decide +kernel, fun r h => ?_⟩
  have e : (Keys.str "EK".toList).iter = [['E'], ['K']] := by rfl
  unfold plotRates at h
  rw [e, List.mapM_cons, List.mapM_cons] at h
  have hE : (['E'] = "EK".toList ∨ ['E'] = "E".toList) := by decide +kernel
  have hKK : ¬(['K'] = "EK".toList ∨ ['K'] = "E".toList) := by decide +kernel
  simp only [hE, hKK, if_true, if_false] at h
  cases hr : rateOf n t (fun _ => 0) with
  | error e => rw [hr] at h; cases h
  | ok c => rw [hr] at h; cases h

/-- C100 (sw1l), what is not right: the number in the legend is the mean of the absolute values, not the average of the time derivative:
for an energy which comes back to its initial value, the average derivative is 0. -/
theorem C100_rates_mean_violated :
    ∃ (t E : ℕ → ℝ) (c : Curve) (m : ℝ), rateOf 3 t E = .ok (c, m) ∧ (E 2 - E 0) / (t 2 - t 0) = 0 ∧ m = 2 / 3 := by
  refine ⟨fun i => i, fun i => if i = 1 then 1 else 0, _, _, rfl, by norm_num, ?_⟩
  have e : ¬((2 : Fin 3) = 0) := by decide
  norm_num [Fin.sum_univ_three, e]

/-- Non-trivial records which meet the hypotheses: the energy `t²`, with times which are not evenly spaced. -/
def exMeans : Means := ⟨4, fun i => i * i, fun i => ((i : ℝ) * i) ^ 2, some fun i => 2 * ((i : ℝ) * i) + 1, fun _ => 1⟩

example : Records (fun t => t ^ 2) (fun t => 2 * t) exMeans ∧ SlowlyVarying 2 (fun t => 2 * t) ∧ 2 ≤ exMeans.n := by
  refine ⟨⟨fun i hi => ?_, fun i _ => rfl, fun i _ => ?_, fun t _ _ => ?_⟩, fun s t => ?_, by decide⟩
  · simp only [exMeans]
    push_cast
    nlinarith [(Nat.cast_nonneg i : (0 : ℝ) ≤ i)]
  · simp only [Means.budget, exMeans]
    ring
  · have := hasDerivAt_pow 2 t
    simpa using this
  · rw [← mul_sub, abs_mul]
    norm_num

end

end Verif.BudgetCurves
