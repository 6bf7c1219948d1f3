import Verif.Models0d.Model
import Mathlib.Analysis.Calculus.MeanValue
import Mathlib.Tactic.NormNum

/-! # C42: 0d models -/

namespace Verif.Models0d

noncomputable section

/-! ### Lorenz -/

/-- C42: for the Lorenz model, when the simulation can be created, the tendencies vanish exactly at the two
advertised points and at the origin. -/
theorem C42_lorenz_fixed_points {p : Lorenz} (hs : p.sigma ≠ 0) (hb : p.beta ≠ 0)
    {P Q : ℝ × ℝ × ℝ} (h : p.init = .ok (P, Q)) (s : ℝ × ℝ × ℝ) :
    p.tend s = 0 ↔ s = 0 ∨ s = P ∨ s = Q := by
  obtain ⟨X, Y, Z⟩ := s
  simp only [Lorenz.init, pySqrt] at h
  split at h
  · simp at h
  · rename_i x hx
    split at hx
    · simp at hx
    · rename_i hneg
      simp only [Except.ok.injEq] at hx h
      have h0 : 0 ≤ p.beta * (p.rho - 1) := not_lt.mp hneg
      have hsq : x ^ 2 = p.beta * (p.rho - 1) := by rw [← hx, Real.sq_sqrt h0]
      simp only [Prod.mk.injEq] at h
      obtain ⟨rfl, rfl⟩ := h
      simp only [Lorenz.tend, Prod.mk.injEq, Prod.mk_eq_zero]
      constructor
      · rintro ⟨e1, e2, e3⟩
        have hY : Y = X := by
          have := (mul_eq_zero.mp e1).resolve_left hs
          linarith
        subst hY
        by_cases hX : Y = 0
        · subst hX
          left
          refine ⟨rfl, rfl, ?_⟩
          have : p.beta * Z = 0 := by linarith
          exact (mul_eq_zero.mp this).resolve_left hb
        · right
          have hZ : Z = p.rho - 1 := by
            have : Y * (p.rho - 1 - Z) = 0 := by linear_combination e2
            have := (mul_eq_zero.mp this).resolve_left hX
            linarith
          have hxx : (Y - x) * (Y + x) = 0 := by
            rw [hZ] at e3
            linear_combination e3 - hsq
          rcases mul_eq_zero.mp hxx with h | h
          · exact .inl ⟨by linarith, by linarith, hZ⟩
          · exact .inr ⟨by linarith, by linarith, hZ⟩
      · rintro (⟨rfl, rfl, rfl⟩ | ⟨rfl, rfl, rfl⟩ | ⟨rfl, rfl, rfl⟩)
        · simp
        · refine ⟨by ring, by ring, by linear_combination hsq⟩
        · refine ⟨by ring, by ring, by linear_combination hsq⟩

/-- With the default parameters the simulation is created and the two points are different and not zero. -/
example : ∃ P Q, Lorenz.default.init = .ok (P, Q) ∧ P ≠ Q ∧ P ≠ 0 := by
  have h : ¬ (8 / 3 * (28 - 1) : ℝ) < 0 := by norm_num
  set x := √(8 / 3 * (28 - 1) : ℝ) with hx
  refine ⟨(x, x, 28 - 1), (-x, -x, 28 - 1),
    ?_, ?_, ?_⟩
  · have h1 : pySqrt (8 / 3 * (28 - 1)) = .ok x := by rw [pySqrt, if_neg h]
    show (match pySqrt (8 / 3 * (28 - 1)) with
      | .error e => Except.error e
      | .ok x => Except.ok ((x, x, (28 - 1 : ℝ)), (-x, -x, (28 - 1 : ℝ)))) = _
    rw [h1]
  · intro he
    have h1 := (Prod.mk.inj he).1
    have : (0 : ℝ) < x := Real.sqrt_pos.mpr (by norm_num)
    linarith
  · intro he
    have h1 : (28 - 1 : ℝ) = 0 := congrArg (fun s : ℝ × ℝ × ℝ => s.2.2) he
    norm_num at h1

/-- C42, finding: for `beta > 0` and `rho < 1` (only the origin is a fixed point, the solutions of the Lorenz
equations exist and decay), the simulation cannot be created: the constructor raises an error. -/
theorem C42_lorenz_rho_violated {p : Lorenz} (hb : 0 < p.beta) (hr : p.rho < 1) :
    p.init = .error "ValueError" := by
  have : p.beta * (p.rho - 1) < 0 := mul_neg_of_pos_of_neg hb (by linarith)
  simp only [Lorenz.init, pySqrt, if_pos this]

/-! ### Lotka-Volterra -/

/-- C42: the tendencies of the predator-prey model vanish exactly at the advertised point and at the
origin. -/
theorem C42_lotka_fixed_points {p : Lotka} (hA : p.A ≠ 0) (hB : p.B ≠ 0) (hC : p.C ≠ 0) (hD : p.D ≠ 0)
    (s : ℝ × ℝ) : p.tend s = 0 ↔ s = 0 ∨ s = p.fixed := by
  obtain ⟨X, Y⟩ := s
  simp only [Lotka.tend, Lotka.fixed, Prod.mk_eq_zero, Prod.mk.injEq]
  constructor
  · rintro ⟨e1, e2⟩
    by_cases hX : X = 0
    · subst hX
      left
      refine ⟨rfl, ?_⟩
      have : p.C * Y = 0 := by linarith
      exact (mul_eq_zero.mp this).resolve_left hC
    · right
      have hY : p.A - p.B * Y = 0 := by
        have : X * (p.A - p.B * Y) = 0 := by linear_combination e1
        exact (mul_eq_zero.mp this).resolve_left hX
      have hY' : Y = p.A / p.B := by field_simp; linarith
      have hY0 : Y ≠ 0 := by rw [hY']; exact div_ne_zero hA hB
      refine ⟨?_, hY'⟩
      have : Y * (p.D * X - p.C) = 0 := by linear_combination e2
      have := (mul_eq_zero.mp this).resolve_left hY0
      field_simp
      linarith
  · rintro (⟨rfl, rfl⟩ | ⟨rfl, rfl⟩)
    · simp
    · constructor <;> field_simp <;> ring

/-- The default parameters meet the hypotheses. -/
example : Lotka.default.A ≠ 0 ∧ Lotka.default.B ≠ 0 ∧ Lotka.default.C ≠ 0 ∧ Lotka.default.D ≠ 0 ∧
    Lotka.default.fixed = (2, 1) := by
  norm_num [Lotka.default, Lotka.fixed]

/-- C42: the potential is constant along the exact solutions with positive populations. -/
theorem C42_lotka_potential (p : Lotka) {X Y : ℝ → ℝ} (hX : ∀ t, 0 < X t) (hY : ∀ t, 0 < Y t)
    (dX : ∀ t, HasDerivAt X (p.tend (X t, Y t)).1 t) (dY : ∀ t, HasDerivAt Y (p.tend (X t, Y t)).2 t)
    (t t' : ℝ) : p.potential (X t, Y t) = p.potential (X t', Y t') := by
  have hd : ∀ t, HasDerivAt (fun t => p.potential (X t, Y t)) 0 t := by
    intro t
    have h1 := ((dX t).log (hX t).ne').const_mul p.C
    have h2 := (dX t).const_mul p.D
    have h3 := ((dY t).log (hY t).ne').const_mul p.A
    have h4 := (dY t).const_mul p.B
    refine (((h1.fun_sub h2).fun_add h3).fun_sub h4).congr_deriv ?_
    have := (hX t).ne'
    have := (hY t).ne'
    simp only [Lotka.tend]
    field_simp
    ring
  exact is_const_of_deriv_eq_zero (fun t => (hd t).differentiableAt) (fun t => (hd t).deriv) t t'

/-- Without interactions the populations are exponentials: a solution which is not constant. -/
example : let p : Lotka := ⟨1, 0, 2, 0⟩
    ∃ X Y : ℝ → ℝ, (∀ t, 0 < X t) ∧ (∀ t, 0 < Y t) ∧ (∀ t, HasDerivAt X (p.tend (X t, Y t)).1 t) ∧
      (∀ t, HasDerivAt Y (p.tend (X t, Y t)).2 t) ∧ X 0 ≠ X 1 := by
  refine ⟨fun t => Real.exp t, fun t => Real.exp (-2 * t), fun t => Real.exp_pos _,
    fun t => Real.exp_pos _, fun t => ?_, fun t => ?_, ?_⟩
  · exact (Real.hasDerivAt_exp t).congr_deriv (by simp [Lotka.tend])
  · have h := ((hasDerivAt_id t).const_mul (-2)).exp
    exact h.congr_deriv (by simp [Lotka.tend]; ring)
  · intro h
    exact zero_ne_one (Real.exp_injective h)

/-- At the advertised fixed point the constant populations are a solution, with interactions. -/
example : let p := Lotka.default
    (∀ t : ℝ, HasDerivAt (fun _ => p.fixed.1) (p.tend p.fixed).1 t) ∧
      (∀ t : ℝ, HasDerivAt (fun _ => p.fixed.2) (p.tend p.fixed).2 t) := by
  have h : Lotka.default.tend Lotka.default.fixed = 0 :=
    (C42_lotka_fixed_points (by norm_num [Lotka.default]) (by norm_num [Lotka.default])
      (by norm_num [Lotka.default]) (by norm_num [Lotka.default]) _).mpr (.inr rfl)
  simp only [h]
  exact ⟨fun t => hasDerivAt_const t _, fun t => hasDerivAt_const t _⟩

/-- C42: the potential has its maximum, among positive populations, at the advertised fixed point only:
a solution which starts elsewhere never reaches it. -/
theorem C42_lotka_potential_max {p : Lotka} (hA : 0 < p.A) (hB : 0 < p.B) (hC : 0 < p.C) (hD : 0 < p.D)
    {X Y : ℝ} (hX : 0 < X) (hY : 0 < Y) (hne : (X, Y) ≠ p.fixed) :
    p.potential (X, Y) < p.potential p.fixed := by
  have key : ∀ {c d x : ℝ}, 0 < c → 0 < d → 0 < x →
      c * Real.log x - d * x ≤ c * Real.log (c / d) - d * (c / d) ∧
      (x ≠ c / d → c * Real.log x - d * x < c * Real.log (c / d) - d * (c / d)) := by
    intro c d x hc hd hx
    have hcd : 0 < c / d := by positivity
    have hq : 0 < x / (c / d) := by positivity
    have e : Real.log x = Real.log (c / d) + Real.log (x / (c / d)) := by
      rw [← Real.log_mul hcd.ne' hq.ne']; congr 1; field_simp
    have e2 : d * x = c * (x / (c / d)) := by field_simp
    have e3 : d * (c / d) = c := by field_simp
    constructor
    · have := Real.log_le_sub_one_of_pos hq
      rw [e, e2, e3]
      nlinarith
    · intro hxne
      have : x / (c / d) ≠ 1 := by
        intro h; exact hxne ((div_eq_one_iff_eq hcd.ne').mp h)
      have := Real.log_lt_sub_one_of_pos hq this
      rw [e, e2, e3]
      nlinarith
  obtain ⟨a1, a2⟩ := key hC hD hX
  obtain ⟨b1, b2⟩ := key hA hB hY
  simp only [Lotka.potential, Lotka.fixed]
  by_cases hx : X = p.C / p.D
  · have hy : Y ≠ p.A / p.B := fun hy => hne (by rw [Lotka.fixed, ← hx, ← hy])
    have := b2 hy
    linarith
  · have := a2 hx
    linarith

/-! ### Printed variation of the potential -/

/-- C42: the printed potentials are the ones of the states; the printed variation is the variation since
the beginning. Missing: it should be the variation since the previous print. -/
theorem C42_print_partial (v0 : ℝ) (vs : List ℝ) :
    (Printer.init v0).run vs = vs.map fun v => (v, v - v0) := by
  have h : ∀ (o : Printer), o.potential_tmp = v0 → o.run vs = vs.map fun v => (v, v - v0) := by
    induction vs with
    | nil => intro o _; rfl
    | cons v vs ih =>
      intro o ho
      simp only [Printer.run, Printer.print, List.map_cons, ho]
      rw [ih _ rfl]
  exact h _ rfl

/-- The couples expected: each value with its variation since the previous one. -/
def variations (prev : ℝ) : List ℝ → List (ℝ × ℝ)
  | [] => []
  | v :: vs => (v, v - prev) :: variations v vs

/-- C42, finding: the variation printed is not the one since the previous print (an attribute is misspelt:
`potential_tmp` is read and `potential_temp` is written), as soon as the potential is not back at its initial
value at the first of two prints. -/
theorem C42_print_violated (v0 v1 v2 : ℝ) (vs : List ℝ) (h : v1 ≠ v0) :
    (Printer.init v0).run (v1 :: v2 :: vs) ≠ variations v0 (v1 :: v2 :: vs) := by
  rw [C42_print_partial]
  intro hc
  simp only [List.map_cons, variations, List.cons.injEq, Prod.mk.injEq, true_and] at hc
  exact h (by linarith [hc.1])

/-! ### Loading the file -/

theorem load_spec (recs : List Rec) (tail : List Line) (ht : tail.filterMap potOf = [])
    (hlast : (tail.filterMap itOf).length ≤ 1) (hne : recs ≠ []) :
    load (recs.flatMap Rec.lines ++ tail) = .ok (if recs.length + (tail.filterMap itOf).length = 1
      then recs else recs.take (recs.length + (tail.filterMap itOf).length - 1)) := by
  have hT : (recs.flatMap Rec.lines).filterMap itOf = recs.map fun r => (r.it, r.t, r.deltat) := by
    induction recs with
    | nil => rfl
    | cons r rs ih =>
      by_cases h : rs = []
      · subst h; rfl
      · rw [List.flatMap_cons, List.filterMap_append, ih h]
        rfl
  have hP : (recs.flatMap Rec.lines).filterMap potOf = recs.map fun r => (r.P, r.deltaP) := by
    clear hT
    induction recs with
    | nil => rfl
    | cons r rs ih =>
      by_cases h : rs = []
      · subst h; rfl
      · rw [List.flatMap_cons, List.filterMap_append, ih h]
        rfl
  have hX : (recs.flatMap Rec.lines).filterMap xyOf = recs.map fun r => (r.X, r.Y) := by
    clear hT hP
    induction recs with
    | nil => rfl
    | cons r rs ih =>
      by_cases h : rs = []
      · subst h; rfl
      · rw [List.flatMap_cons, List.filterMap_append, ih h]
        rfl
  have hlen : 0 < recs.length := List.length_pos_iff.mpr hne
  -- number of loaded records
  set m := (tail.filterMap itOf).length with hm
  set nt := if recs.length + m > 1 then recs.length + m - 1 else recs.length + m with hnt
  have hntle : nt ≤ recs.length := by rw [hnt]; split <;> omega
  have hres : (if recs.length + m = 1 then recs else recs.take (recs.length + m - 1))
      = recs.take nt := by
    rw [hnt]
    by_cases h1 : recs.length + m = 1
    · rw [if_pos h1, if_neg (by omega), List.take_of_length_le (by omega)]
    · rw [if_neg h1, if_pos (by omega)]
  rw [hres]
  have hbody : load (recs.flatMap Rec.lines ++ tail) = (List.range nt).mapM (recAt
      (recs.map (fun r => (r.it, r.t, r.deltat)) ++ tail.filterMap itOf)
      (recs.map (fun r => (r.P, r.deltaP)))
      (recs.map (fun r => (r.X, r.Y)) ++ tail.filterMap xyOf)) := by
    simp only [load, List.filterMap_append, hT, hP, hX, ht, List.append_nil, List.length_append,
      List.length_map, ← hm, ← hnt]
  rw [hbody]
  have hmap : ∀ l : List ℕ, (∀ i ∈ l, i < recs.length) → l.mapM (recAt
      (recs.map (fun r => (r.it, r.t, r.deltat)) ++ tail.filterMap itOf)
      (recs.map (fun r => (r.P, r.deltaP)))
      (recs.map (fun r => (r.X, r.Y)) ++ tail.filterMap xyOf)) = .ok (l.filterMap fun i => recs[i]?) := by
    intro l
    induction l with
    | nil => intro _; rfl
    | cons i l ih =>
      intro hl
      have hi : i < recs.length := hl i (by simp)
      rw [List.mapM_cons, ih fun j hj => hl j (by simp [hj])]
      simp only [recAt]
      rw [List.getElem?_append_left (by simpa using hi), List.getElem?_append_left (by simpa using hi)]
      simp [List.getElem?_map, List.getElem?_eq_getElem hi, bind, Except.bind, pure, Except.pure]
  rw [hmap _ (fun i hi => lt_of_lt_of_le (List.mem_range.mp hi) hntle)]
  congr 1
  clear hmap hbody hres hnt
  clear_value nt
  clear hm hT hP hX
  induction nt with
  | zero => simp
  | succ j ih =>
    rw [List.range_succ, List.filterMap_append, ih (by omega), List.take_add_one]
    simp [List.getElem?_eq_getElem (show j < recs.length by omega)]

/-- C42: the file of a run, possibly stopped while writing the last record: `load` returns exactly the
records which precede the last one (all of them when there is only one complete record). -/
theorem C42_load (recs : List Rec) (r : Rec) :
    load ((recs ++ [r]).flatMap Rec.lines) = .ok (if recs = [] then [r] else recs) ∧
    (recs ≠ [] → ∀ m, 1 ≤ m → m ≤ 2 →
      load (recs.flatMap Rec.lines ++ r.lines.take m) = .ok recs) := by
  constructor
  · have h := load_spec (recs ++ [r]) [] rfl (by simp) (by simp)
    rw [List.append_nil] at h
    rw [h]
    congr 1
    by_cases hr : recs = []
    · subst hr; rfl
    · have : 0 < recs.length := List.length_pos_iff.mpr hr
      rw [if_neg (by simp; omega), if_neg hr]
      simp
  · intro hr m h1 h2
    have hlen : 0 < recs.length := List.length_pos_iff.mpr hr
    have hm : m = 1 ∨ m = 2 := by omega
    rcases hm with rfl | rfl
    · have h := load_spec recs (r.lines.take 1) rfl (by simp [Rec.lines, itOf]) hr
      rw [h]
      have e : (List.filterMap itOf (List.take 1 r.lines)).length = 1 := by simp [Rec.lines, itOf]
      rw [e, if_neg (by omega)]
      simp
    · have h := load_spec recs (r.lines.take 2) rfl (by simp [Rec.lines, itOf]) hr
      rw [h]
      have e : (List.filterMap itOf (List.take 2 r.lines)).length = 1 := by simp [Rec.lines, itOf]
      rw [e, if_neg (by omega)]
      simp

/-- C42, finding: `load` drops the last record of the file of a simulation which ended normally. -/
theorem C42_load_violated (recs : List Rec) (r : Rec) (h : recs ≠ []) :
    load ((recs ++ [r]).flatMap Rec.lines) ≠ .ok (recs ++ [r]) := by
  rw [(C42_load recs r).1, if_neg h]
  intro hc
  have := congrArg List.length (Except.ok.inj hc)
  simp at this

/-- A file with two records. -/
example (r r' : Rec) : load ([r, r'].flatMap Rec.lines) = .ok [r] := by
  have := (C42_load [r] r').1
  simpa using this

end

end Verif.Models0d
