import Verif.Galilean.Props

/-! # C104: with a finite time step -/

namespace Verif.Galilean

open Verif.Fourier Verif.Energy Verif.Galerkin Verif.EndToEnd Verif.Convergence Verif.Schemes Finset

noncomputable section

/-- The modes -1, 0 and 1. -/
def three : Finset (Unit → ℤ) := {fun _ => -1, 0, fun _ => 1}

/-- The velocity `U + cos x`. -/
def wave (U : ℝ) : Unit → Fld Unit := fun _ k => (if k () = 1 ∨ k () = -1 then 1 / 2 else 0) + if k = 0 then (U : ℂ) else 0

theorem one_mem : (fun _ => 1 : Unit → ℤ) ∈ three := by simp [three]

theorem small : ∀ k ∈ three, 3 * |k ()| < (4 : ℕ) := by
  intro k hk
  simp only [three, mem_insert, mem_singleton] at hk
  rcases hk with rfl | rfl | rfl <;> simp

theorem advect_wave (U : ℝ) : advect three (fun _ => 1) (fun _ => wave U ()) (wave U ()) (fun _ => 1) = Complex.I * U / 2 := by
  have h0 : (0 : Unit → ℤ) ∈ three := by simp [three]
  have e : wave U () = boost (fun _ => 1) (fun _ => U) U 0 (wave 0 ()) := by
    funext k
    simp [wave, boost, phase_time_zero]
  have hz : advect three (fun _ => 1) (fun _ => wave 0 ()) (wave 0 ()) (fun _ => 1) = 0 := by
    simp only [advect, Finset.univ_unique, sum_singleton, exactProduct]
    refine sum_eq_zero fun p hp => sum_eq_zero fun q hq => ?_
    split_ifs with h
    · have h' : p () + q () = 1 := congrFun h ()
      simp only [three, mem_insert, mem_singleton] at hp hq
      rcases hp with rfl | rfl | rfl <;> rcases hq with rfl | rfl | rfl <;> simp [wave, pd] at h' ⊢
    · rfl
  rw [e, advect_boost h0 (fun _ => 1) (fun _ => U) U 0 (fun _ => wave 0 ()) (wave 0 ()) one_mem, hz, phase_time_zero]
  simp [along, wave]
  ring

/-- The coefficient of the mode 1 after one step `h` of the scheme of Euler, for burgers1d without viscosity, from `U + cos x`. -/
def after (U h : ℝ) (ps pa pb : ℕ → Arr (Unit × three)) (heap : Heap (Unit × three)) (g1 g2 : Arr (Unit × three)) (cfl : Bool) : ℂ :=
  fields three (states .Euler (onArrays three (tendBurgers false 4 three 1)) (freqDiss three (fun _ => 1) ⟨0, 0, 0, 0⟩)
    (truncated three three) ps pa pb heap g1 g2 cfl (array three (wave U)) (fun _ => h) 1) () fun _ => 1

theorem after_eq (U : ℝ) {h : ℝ} (hh : 0 < h) (ps pa pb : ℕ → Arr (Unit × three)) (heap : Heap (Unit × three))
    (g1 g2 : Arr (Unit × three)) (cfl : Bool) :
    after U h ps pa pb heap g1 g2 cfl = (1 - Complex.I * (U * h)) / 2 := by
  rw [after, states, simulation_succ _ _ _ _ _ _ _ _ _ _ _ _ _ (fun _ => hh) (fun _ _ => rfl), form_euler]
  have hs := states_zero .Euler (onArrays three (tendBurgers false 4 three 1)) (freqDiss three (fun _ => 1) ⟨0, 0, 0, 0⟩)
    (truncated three three) ps pa pb heap g1 g2 cfl (array three (wave U)) (fun _ => h)
  rw [states] at hs
  rw [hs]
  have hf : expLin (freqDiss three (fun _ => 1) ⟨0, 0, 0, 0⟩ : Arr (Unit × three)) (h : ℂ) = 1 := by
    funext i
    simp [expLin, freqDiss, Dissip.fd]
  have hkept := burgers_kept (by norm_num) small one_mem
  have hN := (C57_burgers (nx := 4) (by norm_num) (burgers_noAlias small) 1 (wave U ()) hkept).1
  have hfl : fields three (array three (wave U)) = wave U := by
    funext v k
    simp only [fields, array]
    split_ifs with hk
    · rfl
    · have : k () ≠ 1 ∧ k () ≠ -1 ∧ k ≠ 0 := by
        simp only [three, mem_insert, mem_singleton, not_or] at hk
        exact ⟨fun e => hk.2.2 (funext fun _ => e), fun e => hk.1 (funext fun _ => e), hk.2.1⟩
      simp [wave, this]
  rw [hf, one_mul]
  simp only [fields, one_mem, dif_pos]
  have ht : truncated (V := Unit) three three ((), ⟨fun _ => 1, one_mem⟩) = false := by simp [truncated, one_mem]
  rw [ht]
  simp only [Bool.false_eq_true, if_false, Pi.add_apply, Pi.smul_apply, onArrays, hfl]
  simp only [array, tendBurgers, Bool.false_eq_true, if_false, hN, advect_wave]
  have : (fun _ => 1 : Unit → ℤ) ≠ 0 := fun e => one_ne_zero (congrFun e ())
  simp [wave, this]
  ring

/-- C104 (finding) Reading: with a given time step, the simulation with a uniform velocity is the simulation without it, translated.
With the scheme of Euler, the amplitude of a wave, which a translation does not change, is changed by a uniform velocity, whatever it
is: only the limit is invariant. -/
theorem C104_finite_step_violated {U h : ℝ} (hU : U ≠ 0) (hh : 0 < h) (ps pa pb : ℕ → Arr (Unit × three))
    (heap : Heap (Unit × three)) (g1 g2 : Arr (Unit × three)) (cfl : Bool) :
    ‖after 0 h ps pa pb heap g1 g2 cfl‖ < ‖after U h ps pa pb heap g1 g2 cfl‖ := by
  rw [after_eq _ hh, after_eq _ hh]
  have e : ∀ x : ℝ, ‖(1 - Complex.I * (x : ℂ)) / 2‖ = √(1 + x ^ 2) / 2 := by
    intro x
    rw [norm_div, Complex.norm_def, Complex.normSq_apply]
    congr 2
    · simp
      ring
    · norm_num
  have e0 := e (0 * h)
  have e1 := e (U * h)
  push_cast at e0 e1
  rw [e1]
  simp only [Complex.ofReal_zero, zero_mul] at e0 ⊢
  rw [e0]
  have hp : 0 < (U * h) ^ 2 := by positivity
  have : √(1 + (0 : ℝ) ^ 2) < √(1 + (U * h) ^ 2) := Real.sqrt_lt_sqrt (by norm_num) (by nlinarith)
  exact div_lt_div_of_pos_right this two_pos

/-! ### sw1l.modified -/

/-- The fields with uniform values added. -/
def shifted {D V : Type*} [Fintype D] [DecidableEq D] (m : V → ℝ) (u : ℝ → V → Fld D) (t : ℝ) : V → Fld D := fun v k => u t v k + if k = 0 then (m v : ℂ) else 0

theorem pd_shifted {D V : Type*} [Fintype D] [DecidableEq D] (δ : D → ℝ) (d : D) (m : V → ℝ) (u : ℝ → V → Fld D) (t : ℝ) (v : V) :
    pd δ d (shifted m u t v) = pd δ d (u t v) := by
  funext k
  simp only [pd, shifted]
  by_cases h : k = 0
  · subst h
    simp
  · simp [h]

theorem modified_shifted {p : Sw1l.Par} {S : Finset (Fin 2 → ℤ)} (h0 : (0 : Fin 2 → ℤ) ∈ S) {U : Fin 2 → ℝ}
    (hf : p.f * U 0 = 0 ∧ p.f * U 1 = 0) {nu : Dissip.Nu} {F : Fin 3 → Fld (Fin 2)} {T : ℝ}
    {u : ℝ → Fin 3 → Fld (Fin 2)} (h : FlowModified p S nu F T u) : FlowModified p S nu F T (shifted ![U 0, U 1, 0] u) := by
  have hR : ∀ t vx vy, RotationalPart S p.δ (shifted ![U 0, U 1, 0] u t 0) (shifted ![U 0, U 1, 0] u t 1) vx vy →
      RotationalPart S p.δ (u t 0) (u t 1) vx vy := by
    intro t vx vy hr
    simpa only [RotationalPart, pd_shifted] using hr
  have ha : ∀ t w v k, advect S p.δ w (shifted ![U 0, U 1, 0] u t v) k = advect S p.δ w (u t v) k := by
    intro t w v k
    simp only [advect, pd_shifted]
  have hd : ∀ t v k, dissipation p.δ nu (shifted ![U 0, U 1, 0] u t v) k = dissipation p.δ nu (u t v) k := by
    intro t v k
    simp only [dissipation, shifted]
    by_cases hk : k = 0
    · subst hk
      simp
    · simp [hk]
  have hz : ∀ (k : Fin 2 → ℤ) (c : ℝ), p.f * c = 0 → (p.f : ℂ) * (if k = 0 then (c : ℂ) else 0) = 0 := by
    intro k c hc
    split_ifs
    · rw [← Complex.ofReal_mul, hc, Complex.ofReal_zero]
    · ring
  have e0 : ∀ t k, shifted ![U 0, U 1, 0] u t 0 k = u t 0 k + if k = 0 then (U 0 : ℂ) else 0 := fun _ _ => rfl
  have e1 : ∀ t k, shifted ![U 0, U 1, 0] u t 1 k = u t 1 k + if k = 0 then (U 1 : ℂ) else 0 := fun _ _ => rfl
  refine ⟨fun t ht v => ?_, fun t ht vx vy hr k hk => ?_, fun t ht vx vy hr k hk => ?_, fun t ht vx vy hr k hk => ?_⟩
  · refine ⟨fun k hk => ⟨((h.real t ht v).1 k hk).1, ?_⟩, fun k hk => ?_⟩
    · simp only [shifted, ((h.real t ht v).1 k hk).2, map_add, neg_eq_zero]
      split_ifs <;> simp
    · have : k ≠ 0 := fun e => hk (e ▸ h0)
      simp [shifted, (h.real t ht v).2 k hk, this]
  · refine ((h.eqx t ht vx vy (hR t vx vy hr) k hk).add_const (if k = 0 then (U 0 : ℂ) else 0)).congr_deriv ?_
    rw [ha, hd, pd_shifted, e1]
    linear_combination -hz k _ hf.2
  · refine ((h.eqy t ht vx vy (hR t vx vy hr) k hk).add_const (if k = 0 then (U 1 : ℂ) else 0)).congr_deriv ?_
    rw [ha, hd, pd_shifted, e0]
    linear_combination hz k _ hf.1
  · refine ((h.eqeta t ht vx vy (hR t vx vy hr) k hk).add_const (if k = 0 then ((0 : ℝ) : ℂ) else 0)).congr_deriv ?_
    rw [ha, hd, pd_shifted, pd_shifted]

/-- C104 (finding) Reading: as for sw1l, a uniform velocity added to the initial state of sw1l.modified advects the flow. It does not: the
simulations converge to the flow without it, not translated, plus the uniform velocity. -/
theorem C104_sw1l_modified_violated {n : Fin 2 → ℕ} {p : Sw1l.Par} (hp : p.Ok) {S : Finset (Fin 2 → ℤ)} (hn : ∀ d, 0 < n d)
    (hS : NoAlias n S) (h0 : (0 : Fin 2 → ℤ) ∈ S) {U : Fin 2 → ℝ} (hf : p.f * U 0 = 0 ∧ p.f * U 1 = 0) {nu : Dissip.Nu}
    (hnu : Nu.Ok nu) {F : Fin 3 → Fld (Fin 2)} (hF : ∀ v, RealField S (F v)) {u0 : Fin 3 → Fld (Fin 2)}
    (hu0 : ∀ v, RealField S (u0 v)) {T : ℝ} (hT : 0 ≤ T) :
    ∃ u : ℝ → Fin 3 → Fld (Fin 2), u 0 = u0 ∧ SimulationsConverge S p.δ nu (forced F (tendModified p n S)) T u ∧
      SimulationsConverge S p.δ nu (forced F (tendModified p n S)) T (shifted ![U 0, U 1, 0] u) := by
  obtain ⟨u, e0, hu, -, hc⟩ := C87_sw1l_modified hp hn hS hnu hF hu0 hT
  have hm := modified_shifted h0 hf hu
  obtain ⟨w, e1, -, hw, hcw⟩ := C87_sw1l_modified hp hn hS hnu hF (hm.real 0 ⟨le_rfl, hT⟩) hT
  have he : ∀ t ∈ Set.Icc 0 T, w t = shifted ![U 0, U 1, 0] u t := fun t ht => (hw _ rfl hm t ht).symm
  refine ⟨u, e0, hc, ?_⟩
  intro G hG c hcm ps pa pb heap g1 g2 cfl
  have := hcw G hG c hcm ps pa pb heap g1 g2 cfl
  rw [he 0 ⟨le_rfl, hT⟩] at this
  exact converges_congr (fun t ht => by rw [he t ht]) this

/-- A flow of ns3d with a uniform velocity in all the directions. -/
example : ∃ v : ℝ → Fin 3 → Fld (Fin 3), SimulationsConverge3d EndToEnd.box (fun _ => 1) ⟨1, 0, 0, 0⟩ (fun G => project3d G (fun _ => 1) .none false)
    (forced (fun _ _ => 0) (tend3d (fun _ => 4) EndToEnd.box (fun _ => 1) none .none false)) 10 (moving (fun _ => 1) (fun _ => 2) (fun _ => 2) v) := by
  have h0 : (0 : Fin 3 → ℤ) ∈ EndToEnd.box := by simp [EndToEnd.box]
  have hz : Admissible EndToEnd.box (fun _ => 1) .none false (fun _ _ => 0) := by
    rw [C87_admissible_default]
    exact ⟨fun _ => ⟨fun k hk => ⟨box_neg hk, by simp⟩, fun _ _ => rfl⟩, fun k _ => by simp [pd]⟩
  have hv : Admissible EndToEnd.box (fun _ => 1) .none false
      ![fun k => if k ∈ EndToEnd.box ∧ k 0 = 0 ∧ k 1 = 0 then 1 else 0, fun _ => 0, fun _ => 0] := by
    rw [C87_admissible_default]
    constructor
    · intro c
      fin_cases c
      · refine ⟨fun k hk => ⟨box_neg hk, ?_⟩, fun k hk => by simp [hk]⟩
        simp [hk, box_neg hk, apply_ite]
      · exact ⟨fun k hk => ⟨box_neg hk, by simp⟩, fun k _ => rfl⟩
      · exact ⟨fun k hk => ⟨box_neg hk, by simp⟩, fun k _ => rfl⟩
    · intro k hk
      by_cases h : k 0 = 0 <;> simp [pd, h]
  obtain ⟨v, -, -, -, h⟩ := C104_ns3d (n := fun _ => 4) (fun _ => by norm_num) box_noAlias h0 (fun _ => 1) (fun _ => 2) none
    (by simp) .none false ((C104_uniform _ _ _).2 (by simp)) (nu := ⟨1, 0, 0, 0⟩) ⟨by norm_num, le_rfl, le_rfl, rfl⟩ hz
    (fun v k h => absurd rfl h) hv (T := 10) (by norm_num)
  exact ⟨v, h⟩

end

end Verif.Galilean
