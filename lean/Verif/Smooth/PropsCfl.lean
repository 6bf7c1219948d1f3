import Verif.Smooth.Props
import Verif.Symmetry.Cfl
import Verif.ExactFlows.Props

/-! # C112 with time steps chosen by the CFL condition

The time step is changed only if the one of the CFL condition differs by more than 2% (base/time_stepping/base.py 350-354): the time step,
hence the fields, jump when the initial fields cross this limit. -/

set_option linter.unusedSectionVars false

namespace Verif.Smooth

open Verif.Fourier Verif.Vectors Verif.Energy Verif.Schemes Verif.EndToEnd Verif.Symmetry Verif.ExactFlows Finset

noncomputable section

/-- The modes of the example. -/
def exModes : Finset (Fin 2 → ℤ) := {![0, 1], ![0, -1]}

/-- The vorticity `a sin y`, of the velocity `ux = a cos y`. -/
def exShear (a : ℝ) : Unit → Fld (Fin 2) := fun _ k =>
  if k = ![0, 1] then -(a : ℂ) * Complex.I / 2 else if k = ![0, -1] then (a : ℂ) * Complex.I / 2 else 0

/-- The ratio of the largest velocity and of the mesh for `a = 1`. -/
def exRatio : ℝ := ∑ d, peak exModes (fun _ => 4) (fun _ => 1) (vel2 (fun _ => 1) (exShear 1 ()) d) / mesh (fun _ => 4) (fun _ => 1) d

theorem exShear_mul (a : ℝ) (k : Fin 2 → ℤ) : exShear a () k = a * exShear 1 () k := by
  simp only [exShear]
  split_ifs <;> push_cast <;> ring

theorem vel_mul (a : ℝ) (d : Fin 2) (k : Fin 2 → ℤ) :
    vel2 (fun _ => 1) (exShear a ()) d k = a * vel2 (fun _ => 1) (exShear 1 ()) d k := by
  fin_cases d <;> simp [vel2, ux2, uy2, Forcing.vecFromRot, exShear_mul a k] <;> ring

theorem exRatio_mul {a : ℝ} (ha : 0 ≤ a) :
    ∑ d, peak exModes (fun _ => 4) (fun _ => 1) (vel2 (fun _ => 1) (exShear a ()) d) / mesh (fun _ => 4) (fun _ => 1) d = a * exRatio := by
  rw [exRatio, mul_sum]
  refine sum_congr rfl fun d _ => ?_
  rw [peak_of exModes exModes (n := fun _ => 4) (n' := fun _ => 4) (by simp) (δ := fun _ => 1) (δ' := fun _ => 1) (by simp)
    (vel2 (fun _ => 1) (exShear 1 ()) d) (vel2 (fun _ => 1) (exShear a ()) d) (c := a) (Equiv.refl _) (fun j => ?_) ha]
  · ring
  · have : ∀ x, value exModes (fun _ => 1) (vel2 (fun _ => 1) (exShear a ()) d) x
        = a * value exModes (fun _ => 1) (vel2 (fun _ => 1) (exShear 1 ()) d) x := by
      intro x
      simp only [value, mul_sum]
      refine sum_congr rfl fun k _ => ?_
      rw [vel_mul]
      ring
    rw [this, Complex.re_ofReal_mul, abs_mul, abs_of_nonneg ha]
    rfl

theorem exRatio_pos : 0 < exRatio := by
  have hm : ∀ d, 0 < mesh (fun _ : Fin 2 => 4) (fun _ => 1) d := fun d => by
    simp only [mesh]
    have := Real.pi_pos
    positivity
  have h := (maxAbs_phys exModes (n := fun _ => 4) (by simp) (δ := fun _ => 1) (by simp) (vel2 (fun _ => 1) (exShear 1 ()) 0)).2.2
    ⟨0, rfl⟩
  have hne : (![0, 1] : Fin 2 → ℤ) ≠ ![0, -1] := by decide
  have e : value exModes (fun _ => 1) (vel2 (fun _ => 1) (exShear 1 ()) 0) (gridPoint (fun _ => 4) (fun _ => 1) 0) = 1 := by
    rw [value, exModes, sum_pair hne]
    have hne' : (![0, -1] : Fin 2 → ℤ) ≠ ![0, 1] := hne.symm
    simp [gridPoint, vel2, ux2, Forcing.vecFromRot, exShear, hne', Forcing.k2not0]
    have := Complex.I_mul_I
    linear_combination (-1) * this
  simp only [e, Complex.one_re, abs_one] at h
  have h1 := peak_nonneg exModes (n := fun _ => 4) (by simp) (δ := fun _ => 1) (by simp) (vel2 (fun _ => 1) (exShear 1 ()) 1)
  rw [exRatio, Fin.sum_univ_two]
  have := hm 0
  have := hm 1
  have : 0 < peak exModes (fun _ => 4) (fun _ => 1) (vel2 (fun _ => 1) (exShear 1 ()) 0) := lt_of_lt_of_le one_pos h
  positivity

theorem exPick {a : ℝ} (ha : 1 / 2 ≤ a) (h : ℝ) :
    pickNs2d (fun _ => 4) exModes (fun _ => 1) exRatio 2 (exShear a) h = .ok (Cfl.hysteresis h (1 / a)) := by
  have ha' : 0 < a := by linarith
  have hr := exRatio_pos
  rw [pick2_eq (by simp) _ (by simp), exRatio_mul ha'.le, Cfl.fromTmp, Cfl.deltatCFL, if_pos (by positivity)]
  have : exRatio / (a * exRatio) = 1 / a := by field_simp
  rw [this, min_eq_left]
  rw [div_le_iff₀ ha']
  linarith

/-- The run of the example: viscosity 1, any scheme. -/
def exRun (c : Numerics (Fin 2) Unit) (a : ℝ) (dt : ℕ → ℝ) (k : ℕ) : Unit → Fld (Fin 2) :=
  runNs2d (fun _ => 4) exModes exModes (fun _ => 1) 0 ⟨1, 0, 0, 0⟩ (c.withDt dt) noForce (exShear a) k

theorem exRun_one {c : Numerics (Fin 2) Unit} (hc : c.cfl = true) (a : ℝ) {dt : ℕ → ℝ} (hdt : ∀ k, dt k ≠ 0) :
    exRun c a dt 1 () ![0, 1] = -(a * Real.exp (-dt 0) : ℝ) * Complex.I / 2 := by
  rw [exRun, C108_ns2d (A := {k | k 0 = 0}) _ (Subset.refl _) (fun p hp q hq => .inl ?_) ⟨by simp, by simp, by simp, rfl⟩
    ⟨hdt, fun h => by simp [Numerics.withDt, hc] at h⟩ (fun v k h => ?_)]
  · simp [decayed, exShear, Convergence.elapsed, Numerics.withDt, wavenumberSq]
    ring
  · have h1 : p 0 = 0 := hp
    have h2 : q 0 = 0 := hq
    simp [h1, h2]
  · simp only [exShear] at h
    split_ifs at h with h1 h2
    · subst h1; simp [exModes]
    · subst h2; simp [exModes]
    · exact absurd rfl h

theorem exFollows (c : Numerics (Fin 2) Unit) {a : ℝ} (ha : 1 / 2 ≤ a) :
    ∃ dt, Follows (pickNs2d (fun _ => 4) exModes (fun _ => 1) exRatio 2) 1 dt (exRun c a dt) ∧ (∀ k, dt k ≠ 0) ∧
      dt 0 = Cfl.hysteresis (Cfl.hysteresis 1 (1 / a)) (1 / a) := by
  have hp : ∀ (x : Unit → Fld (Fin 2)) (h : ℝ), pickNs2d (fun _ => 4) exModes (fun _ => 1) exRatio 2 x h
      = .ok (Cfl.fromTmp exRatio 2 h (∑ d, peak exModes (fun _ => 4) (fun _ => 1) (vel2 (fun _ => 1) (x ()) d)
        / mesh (fun _ => 4) (fun _ => 1) d)) := fun x h => pick2_eq (by simp) _ (by simp) _ _ _ _
  obtain ⟨dt, hf⟩ := follows_exists (r := exRun c a) (fun dt dt' k h => run_congr _ _ _ _ _ _ c _ _ dt dt' k h)
    (pick := pickNs2d (fun _ => 4) exModes (fun _ => 1) exRatio 2) (fun x h => ⟨_, hp x h⟩) 1
  refine ⟨dt, hf, fun k => ?_, ?_⟩
  · exact (follows_pos exRatio_pos two_pos one_pos hp hf k).ne'
  · obtain ⟨h, h0, hs⟩ := hf
    have e0 : exRun c a dt 0 = exShear a := by
      funext v k
      by_cases hk : k ∈ exModes
      · simp [exRun, runNs2d, run, stepping, Heap.set, Numerics.withDt, fields, array, hk]
      · have : exShear a v k = 0 := by
          simp only [exModes, mem_insert, mem_singleton, not_or] at hk
          simp [exShear, hk]
        simp [exRun, runNs2d, run, fields, hk, this]
    have h1 := hs 0
    rw [e0, exPick ha] at h0
    rw [e0] at h1
    simp only [exPick ha] at h1
    rw [← Except.ok.inj h1, ← Except.ok.inj h0]

/-- With `USE_CFL` the fields are not continuous functions of the initial fields: for a shear flow decaying by viscosity and all the
schemes, initial fields as close as one wants give, after one step, fields which differ by more than a fixed amount. Here the time step of
the CFL condition is at 2% of `deltat0`. -/
theorem C112_cfl_violated : ∃ (n : Fin 2 → ℕ) (S : Finset (Fin 2 → ℤ)) (δ : Fin 2 → ℝ) (nu : Dissip.Nu) (CFL dtMax deltat0 : ℝ)
    (u0 : Unit → Fld (Fin 2)) (ε : ℝ), 0 < ε ∧ 0 < CFL ∧ 0 < deltat0 ∧ deltat0 ≤ dtMax ∧
    ∀ c : Numerics (Fin 2) Unit, c.cfl = true → ∀ η > 0, ∃ u1 : Unit → Fld (Fin 2), (∀ v k, ‖u1 v k - u0 v k‖ < η) ∧ ∃ dt0 dt1,
      Follows (pickNs2d n S δ CFL dtMax) deltat0 dt0 (runNs2d n S S δ 0 nu (c.withDt dt0) noForce u0) ∧
      Follows (pickNs2d n S δ CFL dtMax) deltat0 dt1 (runNs2d n S S δ 0 nu (c.withDt dt1) noForce u1) ∧
      ε ≤ ‖runNs2d n S S δ 0 nu (c.withDt dt1) noForce u1 1 () ![0, 1] - runNs2d n S S δ 0 nu (c.withDt dt0) noForce u0 1 () ![0, 1]‖ := by
  refine ⟨fun _ => 4, exModes, fun _ => 1, ⟨1, 0, 0, 0⟩, exRatio, 2, 1, exShear (98 / 100),
    98 / 100 * (Real.exp (-1) - Real.exp (-(100 / 98))) / 2, ?_, exRatio_pos, one_pos, one_le_two, fun c hc η hη => ?_⟩
  · have : Real.exp (-(100 / 98)) < Real.exp (-1) := Real.exp_lt_exp.2 (by norm_num)
    linarith
  obtain ⟨s, hs0, hs1, hs2⟩ : ∃ s : ℝ, 0 < s ∧ s ≤ η ∧ s ≤ 1 / 4 :=
    ⟨min η (1 / 4), lt_min hη (by norm_num), min_le_left _ _, min_le_right _ _⟩
  obtain ⟨dt0, hf0, hd0, e0⟩ := exFollows c (a := 98 / 100) (by norm_num)
  obtain ⟨dt1, hf1, hd1, e1⟩ := exFollows c (a := 98 / 100 - s) (by linarith)
  refine ⟨exShear (98 / 100 - s), fun v k => ?_, dt0, dt1, hf0, hf1, ?_⟩
  · cases v
    rw [exShear_mul, exShear_mul (98 / 100), ← sub_mul, norm_mul, ← Complex.ofReal_sub, Complex.norm_real, Real.norm_eq_abs,
      show (98 / 100 - s - 98 / 100 : ℝ) = -s by ring, abs_neg, abs_of_pos hs0]
    have : ‖exShear 1 () k‖ ≤ 1 / 2 := by
      simp only [exShear]
      split_ifs <;> norm_num
    nlinarith [norm_nonneg (exShear 1 () k)]
  have t0 : dt0 0 = 1 := by
    rw [e0]
    norm_num [Cfl.hysteresis]
  have ha : (0 : ℝ) < 98 / 100 - s := by linarith
  have t1 : dt1 0 = 1 / (98 / 100 - s) := by
    rw [e1]
    have : |(1 : ℝ) - 1 / (98 / 100 - s)| / (1 / (98 / 100 - s)) > 2 / 100 := by
      rw [abs_of_nonpos (by rw [sub_nonpos, le_div_iff₀ ha]; linarith)]
      rw [gt_iff_lt, lt_div_iff₀ (by positivity)]
      have : 1 / (98 / 100 - s) * (98 / 100 - s) = 1 := one_div_mul_cancel ha.ne'
      have hp : 0 < 1 / (98 / 100 - s) := by positivity
      nlinarith
    have e : Cfl.hysteresis 1 (1 / (98 / 100 - s)) = 1 / (98 / 100 - s) := by rw [Cfl.hysteresis, if_pos this]
    rw [e]
    simp [Cfl.hysteresis]
  have r0 := exRun_one hc (98 / 100) hd0
  have r1 := exRun_one hc (98 / 100 - s) hd1
  simp only [exRun] at r0 r1
  rw [r0, r1, t0, t1]
  have e : (-(((98 / 100 - s) * Real.exp (-(1 / (98 / 100 - s))) : ℝ) : ℂ) * Complex.I / 2
      - -((98 / 100 * Real.exp (-1) : ℝ) : ℂ) * Complex.I / 2)
      = (((98 / 100 * Real.exp (-1) - (98 / 100 - s) * Real.exp (-(1 / (98 / 100 - s)))) / 2 : ℝ) : ℂ) * Complex.I := by
    push_cast
    ring
  rw [e, norm_mul, Complex.norm_I, mul_one, Complex.norm_real, Real.norm_eq_abs]
  refine le_trans ?_ (le_abs_self _)
  have h1 : Real.exp (-(1 / (98 / 100 - s))) ≤ Real.exp (-(100 / 98)) := by
    refine Real.exp_le_exp.2 (neg_le_neg ?_)
    rw [le_div_iff₀ ha]
    linarith
  have h2 := Real.exp_pos (-(1 / (98 / 100 - s)))
  have h3 : (98 / 100 - s) * Real.exp (-(1 / (98 / 100 - s))) ≤ 98 / 100 * Real.exp (-(100 / 98)) :=
    mul_le_mul (by linarith) h1 h2.le (by norm_num)
  linarith

/-- `C112_continuity` and `C112_sensitivity` apply to a run of ns2d with the scheme RK4: the perturbed shear flow. -/
example : ∃ L : ℂ, Filter.Tendsto (fun ε : ℝ =>
    (runNs2d (fun _ => 4) exModes exModes (fun _ => 1) 0 ⟨1, 0, 0, 0⟩
      ⟨.RK4, fun _ _ => 1, fun _ _ => 1, fun _ _ => 1, fun _ _ _ => 0, fun _ _ => 0, fun _ _ => 0, false, fun _ => 1 / 10⟩
      (fun _ _ _ => 0 + ε * 0) (fun v k => exShear 1 v k + ε * exShear 2 v k) 3 () ![0, 1]
      - runNs2d (fun _ => 4) exModes exModes (fun _ => 1) 0 ⟨1, 0, 0, 0⟩
      ⟨.RK4, fun _ _ => 1, fun _ _ => 1, fun _ _ => 1, fun _ _ _ => 0, fun _ _ => 0, fun _ _ => 0, false, fun _ => 1 / 10⟩
      (fun _ _ _ => 0) (exShear 1) 3 () ![0, 1]) / ε) (nhdsWithin 0 {0}ᶜ) (nhds L) :=
  C112_sensitivity (C112_ns2d _ _ _ _ _ _) (fun _ => by norm_num) (fun _ _ => rfl) _ (fun _ _ _ => 0) _ (exShear 2) 3 () _

end

end Verif.Smooth
