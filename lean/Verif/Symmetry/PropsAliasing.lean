import Verif.Symmetry.Props

/-! # C95: with aliasing the runs depend on the origin; the hypotheses are met -/

set_option linter.unusedSectionVars false

namespace Verif.Symmetry

open Verif.Fourier Verif.Vectors Verif.Energy Verif.Galerkin Verif.Schemes Verif.EndToEnd Finset

noncomputable section

/-- A run with one time step of one unit with the scheme Euler. -/
def exNum : Numerics (Fin 2) Unit := ⟨.Euler, fun _ _ => 1, fun _ _ => 1, fun _ _ => 1, fun _ _ _ => 7, fun _ _ => 5, fun _ _ => 3, false, fun _ => 1⟩

def exNu : Dissip.Nu := ⟨0, 0, 0, 0⟩

theorem ex_run (n : Fin 2 → ℕ) (S : Finset (Fin 2 → ℤ)) (δ : Fin 2 → ℝ) (rot : Unit → Fld (Fin 2)) (h : ∀ k, k ∉ S → rot () k = 0)
    {k : Fin 2 → ℤ} (hk : k ∈ S) :
    runNs2d n S S δ 0 exNu exNum (fun _ _ _ => 0) rot 1 () k = rot () k + ns2d n S δ 0 (rot ()) k := by
  have e : fields S (array S rot) = rot := fields_array S fun _ k hk => h k hk
  simp only [runNs2d, run, fields, dif_pos hk, stepping, oneStep3d, Schemes.dealias, set_same, exNum, timeStepRK, euler, tendencies,
    stepEuler, truncated, hk, not_true_eq_false, decide_false, Bool.false_eq_true, if_false, id, onArrays]
  simp only [Coefs.get, Coefs.init, Coefs.compute, Bool.false_eq_true, if_false, freqDiss, Dissip.fd, exNu, gt_iff_lt, lt_irrefl, Pi.mul_apply,
    Pi.add_apply, Pi.smul_apply, smul_eq_mul, set_same, set_other, ne_eq, reduceCtorEq, not_false_eq_true, e, array, forced, tend2d]
  simp

/-- The 3 x 3 modes of a grid without truncation. -/
def exS : Finset (Fin 2 → ℤ) := {![1, 0], ![-1, 0], ![1, 1], ![-1, -1], ![-1, 1], ![1, -1], ![0, 1], ![0, -1], ![0, 0]}

/-- A real field. -/
def exRot : Unit → Fld (Fin 2) := fun _ k => if k = ![1, 0] ∨ k = ![-1, 0] ∨ k = ![1, 1] ∨ k = ![-1, -1] then 1 else 0

theorem ex_product (a b c d : ℂ) (u v : Fld (Fin 2)) (hu : ∀ k, exRot () k = 0 → u k = 0) (hv : ∀ k, exRot () k = 0 → v k = 0)
    (ha : u ![1, 0] = a) (hb : u ![1, 1] = b) (hc : v ![1, 0] = c) (hd : v ![1, 1] = d) :
    gridProduct (fun _ => 3) exS u v ![-1, 1] = a * d + b * c := by
  rw [gridProduct_eq _ fun _ => by norm_num, ← sum_product']
  have hsub : ({(![1, 0], ![1, 1]), (![1, 1], ![1, 0])} : Finset ((Fin 2 → ℤ) × (Fin 2 → ℤ))) ⊆ exS ×ˢ exS := by decide
  rw [← sum_subset hsub]
  · have s1 : Seen (fun _ => 3) ![1, 0] ![1, 1] ![-1, 1] := by decide
    have s2 : Seen (fun _ => 3) ![1, 1] ![1, 0] ![-1, 1] := by decide
    rw [sum_pair (by decide)]
    simp only [s1, s2, if_true, ha, hb, hc, hd]
  · intro x hx hx'
    have key : ∀ x ∈ exS ×ˢ exS, x ∉ ({(![1, 0], ![1, 1]), (![1, 1], ![1, 0])} : Finset ((Fin 2 → ℤ) × (Fin 2 → ℤ))) →
        ¬ Seen (fun _ => 3) x.1 x.2 ![-1, 1] ∨ ¬ (x.1 = ![1, 0] ∨ x.1 = ![-1, 0] ∨ x.1 = ![1, 1] ∨ x.1 = ![-1, -1]) ∨
          ¬ (x.2 = ![1, 0] ∨ x.2 = ![-1, 0] ∨ x.2 = ![1, 1] ∨ x.2 = ![-1, -1]) := by decide
    rcases key x hx hx' with h | h | h
    · rw [if_neg h]
    · rw [hu x.1 (by simp only [exRot, if_neg h]), zero_mul, ite_self]
    · rw [hv x.2 (by simp only [exRot, if_neg h]), mul_zero, ite_self]

theorem ex_tend (w : Fld (Fin 2)) (hw : ∀ k, exRot () k = 0 → w k = 0) :
    ns2d (fun _ => 3) exS (fun _ => 1) 0 w ![-1, 1] = -(1 / 2) * (w ![1, 0] * w ![1, 1]) := by
  have h : (![-1, 1] : Fin 2 → ℤ) ∈ exS := by decide
  have e : ns2d (fun _ => 3) exS (fun _ => 1) 0 w ![-1, 1]
      = -(gridProduct (fun _ => 3) exS (ux2 (fun _ => 1) w) (pd (fun _ => 1) 0 w) ![-1, 1]
        + gridProduct (fun _ => 3) exS (uy2 (fun _ => 1) w) (pd (fun _ => 1) 1 w) ![-1, 1]) := by
    rw [ns2d, if_pos h, gridProduct, gridProduct, ← fft_add, ← fft_neg]
    refine fft_congr _ (fun j => ?_) _
    simp only [computeFrot, if_true, pd_deriv]
    ring
  rw [e, ex_product _ _ _ _ _ _ ?_ ?_ rfl rfl rfl rfl, ex_product _ _ _ _ _ _ ?_ ?_ rfl rfl rfl rfl]
  · simp only [ux2, uy2, pd, Forcing.vecFromRot, Forcing.k2not0]
    norm_num
    have : Complex.I ^ 2 = -1 := Complex.I_sq
    linear_combination (w ![1, 0] * w ![1, 1] / 2) * this
  · intro k hk; simp only [uy2, Forcing.vecFromRot, hw k hk, mul_zero]
  · intro k hk; simp only [pd, hw k hk, mul_zero]
  · intro k hk; simp only [ux2, Forcing.vecFromRot, hw k hk, mul_zero]
  · intro k hk; simp only [pd, hw k hk, mul_zero]

/-- C95 fails without a sufficient truncation (finding): on a 3 x 3 grid with `coef_dealiasing = 1`, the same flow with its origin moved
by half a mesh does not give the same vorticity after one step of ns2d. -/
theorem C95_aliasing_violated :
    runNs2d (fun _ => 3) exS exS (fun _ => 1) 0 exNu exNum (fun _ _ _ => 0)
        (transformed (fun _ => 1) ![Real.pi / 3, 0] (fun _ => 1) exRot) 1
      ≠ transformed (fun _ => 1) ![Real.pi / 3, 0] (fun _ => 1)
        (runNs2d (fun _ => 3) exS exS (fun _ => 1) 0 exNu exNum (fun _ _ _ => 0) exRot 1) := by
  intro h
  have hk : (![-1, 1] : Fin 2 → ℤ) ∈ exS := by decide
  have hout : ∀ k, k ∉ exS → exRot () k = 0 := by
    intro k hk
    have : ¬ (k = ![1, 0] ∨ k = ![-1, 0] ∨ k = ![1, 1] ∨ k = ![-1, -1]) := by
      rintro (h | h | h | h) <;> exact hk (by rw [h]; decide)
    simp only [exRot, if_neg this]
  have h1 := congrFun (congrFun h ()) ![-1, 1]
  have z : exRot () ![-1, 1] = 0 := by simp [exRot]
  have o1 : exRot () ![1, 0] = 1 := by simp [exRot]
  have o2 : exRot () ![1, 1] = 1 := by simp [exRot]
  have ht : ∀ k, transformed (fun _ => 1) ![Real.pi / 3, 0] (fun _ => 1) exRot () k
      = phase (fun _ => 1) ![Real.pi / 3, 0] k * exRot () k := fun k => by simp [transformed, phase]
  rw [ex_run _ _ _ _ (fun k hk => by rw [ht, hout k hk, mul_zero]) hk] at h1
  change _ = ((1 : ℝ) : ℂ) * phase (fun _ => 1) ![Real.pi / 3, 0] ![-1, 1] * _ at h1
  rw [ex_run _ _ _ _ hout hk, ex_tend _ (fun k hk => by rw [ht, hk, mul_zero]), ex_tend _ (fun k hk => hk), ht, ht, ht, z, o1, o2] at h1
  have e3 : phase (fun _ => 1) ![Real.pi / 3, 0] ![1, 0] * phase (fun _ => 1) ![Real.pi / 3, 0] ![1, 1]
      = -phase (fun _ => 1) ![Real.pi / 3, 0] ![-1, 1] := by
    simp only [phase, Fin.sum_univ_two, ← Complex.exp_add]
    rw [← mul_neg_one, ← Complex.exp_pi_mul_I, ← Complex.exp_add]
    congr 1
    simp
    ring
  have hne : phase (fun _ => 1) ![Real.pi / 3, 0] ![-1, 1] ≠ 0 := Complex.exp_ne_zero _
  apply hne
  have h2 : -(1 / 2 : ℂ) * (phase (fun _ => 1) ![Real.pi / 3, 0] ![1, 0] * phase (fun _ => 1) ![Real.pi / 3, 0] ![1, 1])
      = phase (fun _ => 1) ![Real.pi / 3, 0] ![-1, 1] * -(1 / 2) := by
    simpa using h1
  rw [e3] at h2
  linear_combination h2

/-- The modes kept by a truncation with the coefficient 2/3 on a grid 8 x 8. -/
def okS (D : Type*) [Fintype D] [DecidableEq D] : Finset (D → ℤ) := Fintype.piFinset fun _ => Icc (-2) 2

theorem okS_noAlias (D : Type*) [Fintype D] [DecidableEq D] : NoAlias (fun _ : D => 8) (okS D) :=
  noAlias_of_small _ _ fun k hk d => by
    have := mem_Icc.1 (Fintype.mem_piFinset.1 hk d)
    have : |k d| ≤ 2 := abs_le.2 ⟨by linarith [this.1], this.2⟩
    push_cast
    linarith

/-- The hypotheses of the theorems are met: grid, truncation, numerics. -/
example : (∀ d : Fin 2, 0 < (fun _ => 8 : Fin 2 → ℕ) d) ∧ NoAlias (fun _ : Fin 2 => 8) (okS (Fin 2)) ∧ (![1, 2] : Fin 2 → ℤ) ∈ okS (Fin 2) ∧
    NoAlias (fun _ : Fin 3 => 8) (okS (Fin 3)) ∧
    SameNumerics 2 exNum { exNum with dt := fun _ => 2, heap := fun _ _ _ => 0 } ∧ ∀ k, exNum.dt k ≠ 0 := by
  refine ⟨fun _ => by norm_num, okS_noAlias _, ?_, okS_noAlias _, ⟨rfl, rfl, fun _ => by simp [exNum], fun _ _ => ⟨rfl, rfl, rfl⟩⟩,
    fun _ => by simp [exNum]⟩
  simp only [okS, Fintype.mem_piFinset, mem_Icc]
  intro d
  fin_cases d <;> norm_num

end

end Verif.Symmetry
