import Verif.Symmetry.PropsMirror
import Verif.Symmetry.PropsAliasing

/-! # C98: a symmetry which the beta effect breaks; the hypotheses are met -/

set_option linter.unusedSectionVars false

namespace Verif.Symmetry

open Verif.Fourier Verif.Vectors Verif.Energy Verif.Galerkin Verif.Schemes Verif.EndToEnd Finset

noncomputable section

theorem ex_run_beta (n : Fin 2 → ℕ) (S : Finset (Fin 2 → ℤ)) (δ : Fin 2 → ℝ) (beta : ℝ) (rot : Unit → Fld (Fin 2))
    (h : ∀ k, k ∉ S → rot () k = 0) {k : Fin 2 → ℤ} (hk : k ∈ S) :
    runNs2d n S S δ beta exNu exNum (fun _ _ _ => 0) rot 1 () k = rot () k + ns2d n S δ beta (rot ()) k := by
  have e : fields S (array S rot) = rot := fields_array S fun _ k hk => h k hk
  simp only [runNs2d, run, fields, dif_pos hk, stepping, oneStep3d, Schemes.dealias, set_same, exNum, timeStepRK, euler, tendencies,
    stepEuler, truncated, hk, not_true_eq_false, decide_false, Bool.false_eq_true, if_false, id, onArrays]
  simp only [Coefs.get, Coefs.init, Coefs.compute, Bool.false_eq_true, if_false, freqDiss, Dissip.fd, exNu, gt_iff_lt, lt_irrefl, Pi.mul_apply,
    Pi.add_apply, Pi.smul_apply, smul_eq_mul, set_same, set_other, ne_eq, reduceCtorEq, not_false_eq_true, e, array, forced, tend2d]
  simp

/-- The mirror `x → -x`. -/
def exMirror : Sym (Fin 2) := ⟨Equiv.refl _, ![-1, 1], fun d => by fin_cases d <;> rfl⟩

/-- The rotation by a right angle. -/
def exQuarter : Sym (Fin 2) := ⟨Equiv.swap 0 1, ![-1, 1], fun d => by fin_cases d <;> rfl⟩

/-- The exchange of the three axes, and the reflection of the vertical. -/
def exCyclic : Sym (Fin 3) := ⟨finRotate 3, ![1, 1, 1], fun d => by fin_cases d <;> rfl⟩
def exDown : Sym (Fin 3) := ⟨Equiv.refl _, ![1, 1, -1], fun d => by fin_cases d <;> rfl⟩

/-- Two modes. -/
def exPair : Finset (Fin 2 → ℤ) := {![1, 0], ![-1, 0]}

/-- The vorticity `cos x`. -/
def exCos : Unit → Fld (Fin 2) := fun _ k => if k ∈ exPair then 1 / 2 else 0

theorem exPair_noAlias : NoAlias (fun _ : Fin 2 => 4) exPair := ⟨by decide, by unfold Distinct; decide⟩

/-- C98, a hypothesis is necessary: with a beta effect the Rossby waves go to the west, and the run from the mirror image of a flow for
`x → -x` is not the mirror image of the run. -/
theorem C98_beta (beta : ℝ) (hb : beta ≠ 0) :
    runNs2d (fun _ => 4) exPair exPair (fun _ => 1) beta exNu exNum (fun _ _ _ => 0) (imageRot exMirror exCos) 1
      ≠ imageRot exMirror (runNs2d (fun _ => 4) exPair exPair (fun _ => 1) beta exNu exNum (fun _ _ _ => 0) exCos 1) := by
  intro h
  have h1 := congrFun (congrFun h ()) ![1, 0]
  have m1 : (![1, 0] : Fin 2 → ℤ) ∈ exPair := by decide
  have m2 : (![-1, 0] : Fin 2 → ℤ) ∈ exPair := by decide
  have hback : exMirror.back ![1, 0] = ![-1, 0] := by decide
  have hinv : ∀ k, exMirror.back k ∈ exPair ↔ k ∈ exPair := by
    intro k
    have e : exMirror.back k = ![-k 0, k 1] := by funext d; fin_cases d <;> simp [Sym.back, exMirror]
    rw [e]
    simp only [exPair, mem_insert, mem_singleton, funext_iff, Fin.forall_fin_two, Matrix.cons_val_zero, Matrix.cons_val_one,
      Matrix.cons_val_fin_one]
    omega
  have hout : ∀ k, k ∉ exPair → exCos () k = 0 := fun k hk => by simp [exCos, hk]
  have hdet : det2 exMirror = -1 := by decide
  have hx : ∀ (u v : Fld (Fin 2)) k, k ∈ exPair → exactProduct exPair u v k = 0 := by
    intro u v k hk
    simp only [exactProduct]
    refine sum_eq_zero fun p hp => sum_eq_zero fun q hq => ?_
    have : ∀ p ∈ exPair, ∀ q ∈ exPair, ∀ k ∈ exPair, p + q ≠ k := by decide
    rw [if_neg (this p hp q hq k hk)]
  have him : ∀ k, imageRot exMirror exCos () k = -exCos () (exMirror.back k) := fun k => by simp [imageRot, Sym.image, hdet]
  rw [ex_run_beta _ _ _ _ _ (fun k hk => by rw [him, hout _ fun hb => hk ((hinv k).1 hb), neg_zero]) m1] at h1
  simp only [imageRot, Sym.image, hback, id] at h1
  rw [ex_run_beta _ _ _ _ _ hout m2, ns2d_exact (fun _ => by norm_num) exPair_noAlias _ _ _ m1,
    ns2d_exact (fun _ => by norm_num) exPair_noAlias _ _ _ m2, hx _ _ _ m1, hx _ _ _ m1, hx _ _ _ m2, hx _ _ _ m2] at h1
  have c2 : exCos () ![-1, 0] = 1 / 2 := by simp only [exCos, m2, if_true]
  simp only [uy2, Forcing.vecFromRot, Forcing.k2not0, Sym.image, hback, hdet, c2] at h1
  norm_num at h1
  apply hb
  have h2 := congrArg Complex.im h1
  norm_num at h2
  linarith

/-! ### the hypotheses are met -/

theorem okS_fits {D : Type*} [Fintype D] [DecidableEq D] (g : Sym D) : g.Fits (okS D) fun _ => 1 :=
  C98_truncation g (m := fun _ => 2) (fun _ => rfl) fun _ => rfl

/-- The four vortices `cos x + cos y` are unchanged by the rotation, and are changed by `x → -x, rot → -rot`. -/
def exCell : Unit → Fld (Fin 2) := fun _ k => if |k 0| + |k 1| = 1 then 1 else 0

example : NoAlias (fun _ : Fin 2 => 8) (okS (Fin 2)) ∧ exQuarter.Fits (okS (Fin 2)) (fun _ => 1) ∧ SymNumerics exQuarter exNum exNum ∧
    Within (okS (Fin 2)) exCell ∧ imageRot exQuarter exCell = exCell ∧ exCell () ![1, 0] ≠ 0 ∧ imageRot exMirror exCell ≠ exCell := by
  refine ⟨okS_noAlias _, okS_fits _, ⟨rfl, rfl, rfl, fun _ _ => ⟨rfl, rfl, rfl⟩⟩, fun v k hk => ?_, ?_, by simp [exCell], fun h => ?_⟩
  · have : ¬ (|k 0| + |k 1| = 1) := by
      intro h
      apply hk
      have a0 := abs_le.1 (show |k 0| ≤ 2 by linarith [abs_nonneg (k 1)])
      have a1 := abs_le.1 (show |k 1| ≤ 2 by linarith [abs_nonneg (k 0)])
      simp only [okS, Fintype.mem_piFinset, mem_Icc, Fin.forall_fin_two]
      exact ⟨a0, a1⟩
    simp [exCell, this]
  · funext v k
    have hd : det2 exQuarter = 1 := by decide
    have e0 : exQuarter.back k 0 = k 1 := by simp [Sym.back, exQuarter]
    have e1 : exQuarter.back k 1 = -k 0 := by simp [Sym.back, exQuarter]
    simp only [imageRot, Sym.image, hd, exCell, e0, e1, abs_neg, id, add_comm |k 1|]
    simp
  · have h1 := congrFun (congrFun h ()) ![0, 1]
    have hd : det2 exMirror = -1 := by decide
    have e : exMirror.back ![0, 1] = ![0, 1] := by decide
    simp only [imageRot, Sym.image, hd, e, id, exCell] at h1
    norm_num at h1

/-- In three dimensions: the flow `(cos y, cos z, cos x)` is unchanged by the exchange of the axes; the symmetry upside down fits. -/
def exAbc : Fin 3 → Fld (Fin 3) :=
  ![fun k => if |k 1| = 1 ∧ k 0 = 0 ∧ k 2 = 0 then 1 else 0, fun k => if |k 2| = 1 ∧ k 0 = 0 ∧ k 1 = 0 then 1 else 0,
    fun k => if |k 0| = 1 ∧ k 1 = 0 ∧ k 2 = 0 then 1 else 0]

example : exCyclic.Fits (okS (Fin 3)) (fun _ => 1) ∧ imageVel exCyclic exAbc = exAbc ∧ exAbc 0 ![0, 1, 0] ≠ 0 ∧ exCyclic.π 2 ≠ 2 ∧
    exDown.Fits (okS (Fin 3)) (fun _ => 1) ∧ exDown.π 2 = 2 ∧ detH exDown = 1 := by
  refine ⟨okS_fits _, ?_, by simp [exAbc], by decide, okS_fits _, rfl, by decide⟩
  have p0 : exCyclic.π 0 = 1 := by decide
  have p1 : exCyclic.π 1 = 2 := by decide
  have p2 : exCyclic.π 2 = 0 := by decide
  funext v k
  have e0 : exCyclic.back k 1 = k 0 := by
    have := back_apply exCyclic k 0
    rw [p0] at this
    simpa [exCyclic] using this
  have e1 : exCyclic.back k 2 = k 1 := by
    have := back_apply exCyclic k 1
    rw [p1] at this
    simpa [exCyclic] using this
  have e2 : exCyclic.back k 0 = k 2 := by
    have := back_apply exCyclic k 2
    rw [p2] at this
    simpa [exCyclic] using this
  have s : ∀ d, exCyclic.σ d = 1 := by intro d; fin_cases d <;> rfl
  simp only [imageVel, Sym.image, s]
  fin_cases v <;> simp [p0, p1, p2, exAbc, e0, e1, e2, and_comm, and_left_comm, and_assoc]

end

end Verif.Symmetry
