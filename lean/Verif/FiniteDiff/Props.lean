import Verif.FiniteDiff.Lemmas
import Verif.FiniteDiff.Spec
import Verif.FiniteDiff.Analysis
import Mathlib.LinearAlgebra.Matrix.NonsingularInverse
import Mathlib.Analysis.InnerProductSpace.Basic
import Mathlib.Analysis.SpecialFunctions.Trigonometric.Deriv
import Mathlib.Analysis.SpecialFunctions.ExpDeriv
import Mathlib.Analysis.SpecialFunctions.Trigonometric.Basic

/-! # C43: finite-difference operators and Crank-Nicolson time stepping -/

namespace Verif.FiniteDiff

set_option linter.unusedSectionVars false

/-! ### The matrices in one dimension -/

section
variable {K : Type} [Field K] {n : ℕ} [NeZero n]

theorem per_next (a : Fin n → K) (i : Fin n) : per a (i.val + 1) = a (next i) := by
  simp only [per, next]
  congr 2

theorem per_prev (a : Fin n → K) (i : Fin n) : per a (i.val - 1) = a (prev i) := by
  have hn := NeZero.pos n
  simp only [per, prev]
  congr 2
  have : ((i.val : ℤ) - 1) % n = ((i.val + (n - 1) : ℕ) : ℤ) % n := by
    rw [show ((i.val + (n - 1) : ℕ) : ℤ) = (i.val : ℤ) - 1 + n by omega]
    exact (Int.add_emod_right _ _).symm
  rw [this]
  rfl

/-- C43: with at least three points, the operators are created and compute the centred differences on the
periodic grid of step `Lx / nx`. -/
theorem C43_derivatives (hn : 3 ≤ n) (Lx : K) : ∃ o : Oper K n, Oper.init n Lx = .ok o ∧
    o.deltax = Lx / n ∧ (∀ i, o.xs i = i.val * o.deltax) ∧
    (∀ (a : Fin n → K) (i : Fin n),
      o.px.mulVec a i = (per a (i.val + 1) - per a (i.val - 1)) / (2 * o.deltax)) ∧
    (∀ (a : Fin n → K) (i : Fin n),
      o.pxx.mulVec a i = (per a (i.val + 1) - 2 * a i + per a (i.val - 1)) / o.deltax ^ 2) := by
  obtain ⟨o, h1, h2, h3, h4, h5⟩ := init_ok (K := K) hn Lx
  refine ⟨o, h1, h2, fun i => by rw [h3, h2, mul_comm], ?_, ?_⟩
  · intro a i; rw [h4, per_next, per_prev]
  · intro a i; rw [h5, per_next, per_prev]

/-- C43: with one or two points the operators are refused. -/
theorem C43_small_grids_refused {n : ℕ} (hn : n < 3) (Lx : K) :
    Oper.init (K := K) n Lx = .error "ValueError" := by
  have h : diags n (pxDiags (K := K) n) = .error "ValueError" := by
    rw [diags, if_pos]
    have : n = 0 ∨ n = 1 ∨ n = 2 := by omega
    rcases this with rfl | rfl | rfl <;> simp [pxDiags]
  simp only [Oper.init, h]

variable {o : Oper K n} {Lx : K}

theorem oper_eqs (hn : 3 ≤ n) (h : Oper.init n Lx = .ok o) : o.deltax = Lx / n ∧
    (∀ i, o.xs i = Lx / n * i.val) ∧
    (∀ a i, o.px.mulVec a i = (a (next i) - a (prev i)) / (2 * o.deltax)) ∧
    (∀ a i, o.pxx.mulVec a i = (a (next i) - 2 * a i + a (prev i)) / o.deltax ^ 2) := by
  obtain ⟨o', h1, h2, h3, h4, h5⟩ := init_ok (K := K) hn Lx
  rw [h] at h1
  cases h1
  exact ⟨h2, h3, h4, h5⟩

/-- C43: the sum over the grid of each derivative vanishes, and the derivatives of constants vanish. -/
theorem C43_sums (hn : 3 ≤ n) (h : Oper.init n Lx = .ok o) (a : Fin n → K) (c : K) :
    ∑ i, o.px.mulVec a i = 0 ∧ ∑ i, o.pxx.mulVec a i = 0 ∧
    (∀ i, o.px.mulVec (fun _ => c) i = 0) ∧ (∀ i, o.pxx.mulVec (fun _ => c) i = 0) := by
  obtain ⟨_, _, h4, h5⟩ := oper_eqs hn h
  refine ⟨?_, ?_, fun i => by rw [h4]; simp, fun i => by rw [h5]; ring⟩
  · simp only [h4, sub_div, Finset.sum_sub_distrib]
    rw [sum_next (fun i => a i / (2 * o.deltax)), sum_prev (fun i => a i / (2 * o.deltax)), sub_self]
  · simp only [h5, sub_div, add_div, Finset.sum_sub_distrib, Finset.sum_add_distrib]
    rw [sum_next (fun i => a i / o.deltax ^ 2), sum_prev (fun i => a i / o.deltax ^ 2)]
    simp only [mul_div_assoc, ← Finset.mul_sum]
    ring

theorem inner_px (hn : 3 ≤ n) (h : Oper.init n Lx = .ok o) (a b : Fin n → K) :
    ∑ i, b i * o.px.mulVec a i = -∑ i, o.px.mulVec b i * a i := by
  obtain ⟨_, _, h4, h5⟩ := oper_eqs hn h
  have e1 : ∑ i, b i * a (next i) = ∑ i, b (prev i) * a i := by
    rw [← sum_prev (fun i => b i * a (next i))]
    simp only [next_prev]
  have e2 : ∑ i, b i * a (prev i) = ∑ i, b (next i) * a i := by
    rw [← sum_next (fun i => b i * a (prev i))]
    simp only [prev_next]
  have l : ∀ i, b i * o.px.mulVec a i = (b i * a (next i) - b i * a (prev i)) / (2 * o.deltax) := by
    intro i; rw [h4]; ring
  have r : ∀ i, o.px.mulVec b i * a i = (b (next i) * a i - b (prev i) * a i) / (2 * o.deltax) := by
    intro i; rw [h4]; ring
  simp only [l, r, ← Finset.sum_div, Finset.sum_sub_distrib, e1, e2]
  ring

/-- Summation by parts. -/
theorem inner_pxx (hn : 3 ≤ n) (h : Oper.init n Lx = .ok o) (a b : Fin n → K) :
    ∑ i, b i * o.pxx.mulVec a i =
      -∑ i, ((b (next i) - b i) / o.deltax) * ((a (next i) - a i) / o.deltax) := by
  obtain ⟨_, _, h4, h5⟩ := oper_eqs hn h
  have e2 : ∑ i, b i * a (prev i) = ∑ i, b (next i) * a i := by
    rw [← sum_next (fun i => b i * a (prev i))]
    simp only [prev_next]
  have e3 : ∑ i, b (next i) * a (next i) = ∑ i, b i * a i := sum_next (fun i => b i * a i)
  have l : ∀ i, b i * o.pxx.mulVec a i =
      (b i * a (next i) - 2 * (b i * a i) + b i * a (prev i)) / o.deltax ^ 2 := by
    intro i; rw [h5]; ring
  have r : ∀ i, ((b (next i) - b i) / o.deltax) * ((a (next i) - a i) / o.deltax) =
      (b (next i) * a (next i) - b (next i) * a i - b i * a (next i) + b i * a i) / o.deltax ^ 2 := by
    intro i; ring
  simp only [l, r, ← Finset.sum_div, Finset.sum_sub_distrib, Finset.sum_add_distrib, e2, e3,
    ← Finset.mul_sum]
  ring

/-- C43: the first derivative is antisymmetric and the second one is symmetric. -/
theorem C43_symmetry (hn : 3 ≤ n) (h : Oper.init n Lx = .ok o) :
    o.px.transpose = -o.px ∧ o.pxx.transpose = o.pxx := by
  have ent : ∀ (M : Matrix (Fin n) (Fin n) K) (i j : Fin n), M i j =
      ∑ k, (Pi.single i 1 : Fin n → K) k * M.mulVec (Pi.single j 1) k := by
    intro M i j
    simp [Pi.single_apply, Matrix.col]
  constructor
  · ext i j
    rw [Matrix.transpose_apply, Matrix.neg_apply, ent o.px j i, ent o.px i j, inner_px hn h]
    congr 1
    exact Finset.sum_congr rfl fun k _ => mul_comm _ _
  · ext i j
    rw [Matrix.transpose_apply, ent o.pxx j i, ent o.pxx i j, inner_pxx hn h, inner_pxx hn h]
    congr 1
    exact Finset.sum_congr rfl fun k _ => mul_comm _ _

/-- C43: away from the periodic boundary, the first derivative is exact for polynomials of degree 2 and the
second derivative is exact for polynomials of degree 3. -/
theorem C43_polynomials [CharZero K] (hn : 3 ≤ n) (hL : Lx ≠ 0) (h : Oper.init n Lx = .ok o)
    (c0 c1 c2 c3 : K) (i : Fin n) (h0 : 0 < i.val) (h1 : i.val + 1 < n) :
    o.px.mulVec (fun i => c0 + c1 * o.xs i + c2 * o.xs i ^ 2) i = c1 + 2 * c2 * o.xs i ∧
    o.pxx.mulVec (fun i => c0 + c1 * o.xs i + c2 * o.xs i ^ 2 + c3 * o.xs i ^ 3) i
      = 2 * c2 + 6 * c3 * o.xs i := by
  obtain ⟨h2, h3, h4, h5⟩ := oper_eqs hn h
  have hn0 : (n : K) ≠ 0 := Nat.cast_ne_zero.mpr (by omega)
  have hd : o.deltax ≠ 0 := by rw [h2]; exact div_ne_zero hL hn0
  have en : o.xs (next i) = o.xs i + o.deltax := by
    rw [h3, h3, next_val, if_neg (by omega), h2]; push_cast; ring
  have ep : o.xs (prev i) = o.xs i - o.deltax := by
    have : (((i.val - 1 : ℕ)) : K) = i.val - 1 := by
      rw [Nat.cast_sub (by omega)]; simp
    rw [h3, h3, prev_val, if_neg (by omega), h2, this]; ring
  constructor
  · rw [h4, en, ep]; field_simp; ring
  · rw [h5, en, ep]; field_simp; ring

/-- The hypotheses hold for five points. -/
example : ∃ o : Oper ℚ 5, Oper.init 5 (10 : ℚ) = .ok o ∧ o.deltax = 2 ∧
    o.px.mulVec ![0, 4, 16, 36, 64] 2 = 8 ∧ o.pxx.mulVec ![0, 4, 16, 36, 64] 2 = 2 := by
  obtain ⟨o, h1, h2, h3, h4, h5⟩ := C43_derivatives (K := ℚ) (n := 5) (by norm_num) 10
  have hd : o.deltax = 2 := by rw [h2]; norm_num
  refine ⟨o, h1, hd, ?_, ?_⟩
  · rw [h4, hd]
    show ((36 : ℚ) - 4) / (2 * 2) = 8
    norm_num
  · rw [h5, hd]
    show ((36 : ℚ) - 2 * 16 + 4) / 2 ^ 2 = 2
    norm_num

/-- C43: each step conserves the sum over the grid (up to the contribution of the forcing). -/
theorem C43_step_mean (hn : 3 ≤ n) (h : Oper.init n Lx = .ok o) {nu U dt : K}
    {N S S' : Fin n → K} (hs : Step (linOp o nu U) dt N S S') :
    ∑ i, S' i = ∑ i, S i + dt * ∑ i, N i := by
  have hL : ∀ a : Fin n → K, ∑ i, (linOp o nu U).mulVec a i = 0 := by
    intro a
    obtain ⟨h1, h2, _⟩ := C43_sums hn h a 0
    simp only [linOp, Matrix.sub_mulVec, Matrix.smul_mulVec, Pi.sub_apply, Pi.smul_apply, smul_eq_mul,
      Finset.sum_sub_distrib, ← Finset.mul_sum, h1, h2]
    ring
  have := congrArg (fun v : Fin n → K => ∑ i, v i) hs
  simp only [sysMat, rhs, Matrix.sub_mulVec, Matrix.one_mulVec, Matrix.smul_mulVec, Pi.sub_apply,
    Pi.add_apply, Pi.smul_apply, smul_eq_mul, Finset.sum_sub_distrib, Finset.sum_add_distrib,
    ← Finset.mul_sum, hL] at this
  linear_combination this

/-- C43: a step solves `(S' - S) / dt = L (S + S') / 2 + N`. -/
theorem C43_step_equation [CharZero K] {L : Matrix (Fin n) (Fin n) K} {dt : K} (hdt : dt ≠ 0)
    (N S S' : Fin n → K) :
    Step L dt N S S' ↔ ∀ i, (S' i - S i) / dt = (L.mulVec S i + L.mulVec S' i) / 2 + N i := by
  simp only [Step, sysMat, rhs, Matrix.sub_mulVec, Matrix.one_mulVec, Matrix.smul_mulVec]
  rw [funext_iff]
  refine forall_congr' fun i => ?_
  simp only [Pi.sub_apply, Pi.add_apply, Pi.smul_apply, smul_eq_mul]
  constructor
  · intro hh
    field_simp
    linear_combination 2 * hh
  · intro hh
    field_simp at hh
    linear_combination hh / 2

end

/-! ### Stability -/

section
variable {n : ℕ} [NeZero n] {o : Oper ℝ n} {Lx nu U dt : ℝ}

theorem inner_linOp (hn : 3 ≤ n) (h : Oper.init n Lx = .ok o) (a : Fin n → ℝ) :
    ∑ i, a i * (linOp o nu U).mulVec a i = -(nu * ∑ i, ((a (next i) - a i) / o.deltax) ^ 2) := by
  have e1 : ∑ i, a i * o.px.mulVec a i = 0 := by
    have := inner_px hn h a a
    have e : ∑ i, o.px.mulVec a i * a i = ∑ i, a i * o.px.mulVec a i :=
      Finset.sum_congr rfl fun i _ => mul_comm _ _
    rw [e] at this
    linarith
  have e2 := inner_pxx hn h a a
  have : ∀ i, a i * (linOp o nu U).mulVec a i
      = nu * (a i * o.pxx.mulVec a i) - U * (a i * o.px.mulVec a i) := by
    intro i
    simp only [linOp, Matrix.sub_mulVec, Matrix.smul_mulVec, Pi.sub_apply, Pi.smul_apply, smul_eq_mul]
    ring
  simp only [this, Finset.sum_sub_distrib, ← Finset.mul_sum, e1, e2]
  have : ∀ i, (a (next i) - a i) / o.deltax * ((a (next i) - a i) / o.deltax)
      = ((a (next i) - a i) / o.deltax) ^ 2 := fun i => by ring
  simp only [this]
  ring

/-- C43: for every time step and every viscosity which is not negative, the linear system has exactly one
solution: the step never fails. -/
theorem C43_step_solvable (hn : 3 ≤ n) (h : Oper.init n Lx = .ok o) (hnu : 0 ≤ nu) (hdt : 0 ≤ dt)
    (N S : Fin n → ℝ) : ∃! S', Step (linOp o nu U) dt N S S' := by
  have hinj : Function.Injective (sysMat (linOp o nu U) dt).mulVec := by
    intro x y hxy
    have hz : (sysMat (linOp o nu U) dt).mulVec (x - y) = 0 := by
      rw [Matrix.mulVec_sub, sub_eq_zero]; exact hxy
    set z := x - y with hzdef
    have h1 : ∑ i, z i * (sysMat (linOp o nu U) dt).mulVec z i = 0 := by
      rw [hz]; simp
    have h2 : ∀ i, z i * (sysMat (linOp o nu U) dt).mulVec z i
        = z i ^ 2 - dt / 2 * (z i * (linOp o nu U).mulVec z i) := by
      intro i
      simp only [sysMat, Matrix.sub_mulVec, Matrix.one_mulVec, Matrix.smul_mulVec, Pi.sub_apply,
        Pi.smul_apply, smul_eq_mul]
      ring
    simp only [h2, Finset.sum_sub_distrib, ← Finset.mul_sum, inner_linOp hn h] at h1
    have h3 : 0 ≤ nu * ∑ i, ((z (next i) - z i) / o.deltax) ^ 2 :=
      mul_nonneg hnu (Finset.sum_nonneg fun i _ => sq_nonneg _)
    have h4 : ∑ i, z i ^ 2 = 0 := by
      have : 0 ≤ ∑ i, z i ^ 2 := Finset.sum_nonneg fun i _ => sq_nonneg _
      have : 0 ≤ dt / 2 * (nu * ∑ i, ((z (next i) - z i) / o.deltax) ^ 2) :=
        mul_nonneg (by linarith) h3
      linarith
    have h5 : ∀ i, z i = 0 := by
      intro i
      have := (Finset.sum_eq_zero_iff_of_nonneg (fun i _ => sq_nonneg (z i))).mp h4 i (Finset.mem_univ i)
      exact pow_eq_zero_iff (two_ne_zero) |>.mp this
    have h6 : x - y = 0 := funext h5
    exact sub_eq_zero.mp h6
  have hu := Matrix.mulVec_injective_iff_isUnit.mp hinj
  obtain ⟨x, hx⟩ := Matrix.mulVec_surjective_iff_isUnit.mpr hu (rhs (linOp o nu U) dt S N)
  refine ⟨x, hx, ?_⟩
  intro y hy
  exact hinj (hy.trans hx.symm)

/-- C43: energy budget of one step: without forcing the variation of the sum of the squares is exactly the
dissipation of the mean of the two states; it is conserved when there is no viscosity. -/
theorem C43_step_energy (hn : 3 ≤ n) (h : Oper.init n Lx = .ok o)
    {S S' : Fin n → ℝ} (hs : Step (linOp o nu U) dt 0 S S') :
    let m := fun z : ℤ => (per S z + per S' z) / 2
    ∑ i, S' i ^ 2 = ∑ i, S i ^ 2
      - 2 * dt * nu * ∑ i : Fin n, ((m (i.val + 1) - m i.val) / o.deltax) ^ 2 := by
  intro m
  have hm : ∀ i : Fin n, m i.val = (S i + S' i) / 2 := by
    intro i
    have : ∀ a : Fin n → ℝ, per a i.val = a i := by
      intro a
      simp only [per]
      congr 1
      apply Fin.ext
      have := i.isLt
      show ((i.val : ℤ) % n).toNat = i.val
      rw [Int.emod_eq_of_lt (by omega) (by omega)]
      rfl
    simp only [m, this]
  have hm1 : ∀ i : Fin n, m (i.val + 1) = (S (next i) + S' (next i)) / 2 := by
    intro i; simp only [m, per_next]
  simp only [hm, hm1]
  have key := inner_linOp (nu := nu) (U := U) hn h (fun i => (S i + S' i) / 2)
  have hlin : ∀ i, (linOp o nu U).mulVec (fun i => (S i + S' i) / 2) i
      = ((linOp o nu U).mulVec S i + (linOp o nu U).mulVec S' i) / 2 := by
    intro i
    have : (fun i => (S i + S' i) / 2) = (1 / 2 : ℝ) • (S + S') := by
      funext i; simp only [Pi.smul_apply, Pi.add_apply, smul_eq_mul]; ring
    rw [this, Matrix.mulVec_smul, Matrix.mulVec_add]
    simp only [Pi.smul_apply, Pi.add_apply, smul_eq_mul]; ring
  have hstep : ∀ i, S' i - S i = dt * (((linOp o nu U).mulVec S i + (linOp o nu U).mulVec S' i) / 2) := by
    intro i
    have := congrFun hs i
    simp only [sysMat, rhs, Matrix.sub_mulVec, Matrix.one_mulVec, Matrix.smul_mulVec, Pi.sub_apply,
      Pi.add_apply, Pi.smul_apply, smul_eq_mul, Pi.zero_apply] at this
    linear_combination this
  have hsum : ∑ i, S' i ^ 2 - ∑ i, S i ^ 2
      = 2 * dt * ∑ i, (S i + S' i) / 2 * (linOp o nu U).mulVec (fun i => (S i + S' i) / 2) i := by
    rw [← Finset.sum_sub_distrib, Finset.mul_sum]
    refine Finset.sum_congr rfl fun i _ => ?_
    rw [hlin i]
    linear_combination (S i + S' i) * hstep i
  rw [key] at hsum
  linear_combination hsum

/-- The first step of a wave on three points. -/
example : ∃ o : Oper ℝ 3, Oper.init 3 (3 : ℝ) = .ok o ∧ ∃ S', Step (linOp o 1 1) 1 0 ![1, 0, 0] S' ∧
    ∑ i, S' i = 1 ∧ S' ≠ ![1, 0, 0] := by
  obtain ⟨o, h, h2, h3, h4, h5⟩ := init_ok (K := ℝ) (n := 3) (by norm_num) 3
  have hd : o.deltax = 1 := by rw [h2]; norm_num
  obtain ⟨S', hs, _⟩ := C43_step_solvable (U := 1) (n := 3) (by norm_num) h (zero_le_one) (zero_le_one)
    0 ![1, 0, 0]
  refine ⟨o, h, S', hs, ?_, ?_⟩
  · rw [C43_step_mean (n := 3) (by norm_num) h hs]
    simp [Fin.sum_univ_three]
  · rintro rfl
    have e := C43_step_energy (n := 3) (by norm_num) h hs
    simp only [hd] at e
    have : ∑ i : Fin 3, ((((per ![1, 0, 0] ((i.val : ℤ) + 1) : ℝ) + per ![1, 0, 0] ((i.val : ℤ) + 1)) / 2
        - (per ![1, 0, 0] (i.val : ℤ) + per ![1, 0, 0] (i.val : ℤ)) / 2) / 1) ^ 2 = 2 := by
      rw [Fin.sum_univ_three]
      show ((((0 : ℝ) + 0) / 2 - (1 + 1) / 2) / 1) ^ 2 + (((0 + 0) / 2 - (0 + 0) / 2) / 1) ^ 2
        + (((1 + 1) / 2 - (0 + 0) / 2) / 1) ^ 2 = 2
      norm_num
    rw [this] at e
    linarith

/-! ### Accuracy -/

theorem xs_next (hn : 3 ≤ n) (h : Oper.init n Lx = .ok o) {f : ℝ → ℝ} (hf : ∀ x, f (x + Lx) = f x)
    (i : Fin n) : f (o.xs (next i)) = f (o.xs i + o.deltax) ∧ f (o.xs (prev i)) = f (o.xs i - o.deltax) := by
  obtain ⟨h2, h3, h4, h5⟩ := oper_eqs hn h
  have hi := i.isLt
  have hn0 : (n : ℝ) ≠ 0 := Nat.cast_ne_zero.mpr (by omega)
  constructor
  · rw [h3, next_val]
    split
    · rename_i he
      have : (i.val : ℝ) = n - 1 := by
        have : ((i.val + 1 : ℕ) : ℝ) = n := congrArg Nat.cast he
        push_cast at this
        linarith
      rw [h3, h2, this, ← hf]
      congr 1
      push_cast
      field_simp
      ring
    · rw [h3, h2]; congr 1; push_cast; ring
  · rw [h3, prev_val]
    split
    · rename_i he
      have : ((n - 1 : ℕ) : ℝ) = n - 1 := by rw [Nat.cast_sub (by omega)]; simp
      rw [h3, h2, this, he, ← hf (Lx / n * ((0 : ℕ) : ℝ) - Lx / n)]
      congr 1
      push_cast
      field_simp
      ring
    · have : ((i.val - 1 : ℕ) : ℝ) = i.val - 1 := by rw [Nat.cast_sub (by omega)]; simp
      rw [h3, h2, this]; congr 1; ring

/-- C43: the operators approximate the derivatives of every smooth periodic function with an error of second
order in the grid step. -/
theorem C43_accuracy (hn : 3 ≤ n) (hL : 0 < Lx) (h : Oper.init n Lx = .ok o)
    {f f1 f2 f3 f4 : ℝ → ℝ} (hf : ∀ x, f (x + Lx) = f x) (d1 : ∀ x, HasDerivAt f (f1 x) x)
    (d2 : ∀ x, HasDerivAt f1 (f2 x) x) (d3 : ∀ x, HasDerivAt f2 (f3 x) x)
    (d4 : ∀ x, HasDerivAt f3 (f4 x) x) {M3 M4 : ℝ} (hM3 : ∀ x, |f3 x| ≤ M3) (hM4 : ∀ x, |f4 x| ≤ M4)
    (i : Fin n) :
    |o.px.mulVec (fun j => f (o.xs j)) i - f1 (o.xs i)| ≤ M3 / 6 * o.deltax ^ 2 ∧
    |o.pxx.mulVec (fun j => f (o.xs j)) i - f2 (o.xs i)| ≤ M4 / 12 * o.deltax ^ 2 := by
  obtain ⟨h2, h3, h4, h5⟩ := oper_eqs hn h
  have hd : 0 < o.deltax := by
    rw [h2]; exact div_pos hL (Nat.cast_pos.mpr (by omega))
  obtain ⟨en, ep⟩ := xs_next hn h hf i
  constructor
  · rw [h4]
    simp only [en, ep]
    have hb := centred_first d1 d2 d3 hM3 (o.xs i) hd.le
    have e : (f (o.xs i + o.deltax) - f (o.xs i - o.deltax)) / (2 * o.deltax) - f1 (o.xs i)
        = (f (o.xs i + o.deltax) - f (o.xs i - o.deltax) - 2 * o.deltax * f1 (o.xs i)) / (2 * o.deltax) := by
      field_simp
    rw [e, abs_div, abs_of_pos (by linarith : 0 < 2 * o.deltax), div_le_iff₀ (by linarith)]
    refine hb.trans (le_of_eq (by ring))
  · rw [h5]
    simp only [en, ep]
    have hb := centred_second d1 d2 d3 d4 hM4 (o.xs i) hd.le
    have e : (f (o.xs i + o.deltax) - 2 * f (o.xs i) + f (o.xs i - o.deltax)) / o.deltax ^ 2 - f2 (o.xs i)
        = (f (o.xs i + o.deltax) - 2 * f (o.xs i) + f (o.xs i - o.deltax) - o.deltax ^ 2 * f2 (o.xs i))
          / o.deltax ^ 2 := by
      field_simp
    rw [e, abs_div, abs_of_pos (by positivity : 0 < o.deltax ^ 2), div_le_iff₀ (by positivity)]
    refine hb.trans (le_of_eq (by ring))

theorem rms_le {a : Fin n → ℝ} {b : ℝ} (hb : 0 ≤ b) (h : ∀ i, |a i| ≤ b) : rms a ≤ b := by
  have hn0 : (0 : ℝ) < n := Nat.cast_pos.mpr (NeZero.pos n)
  rw [rms]
  refine Real.sqrt_le_iff.mpr ⟨hb, ?_⟩
  rw [div_le_iff₀ hn0]
  calc ∑ i, a i ^ 2 ≤ ∑ _i : Fin n, b ^ 2 :=
        Finset.sum_le_sum fun i _ => by rw [← sq_abs]; exact pow_le_pow_left₀ (abs_nonneg _) (h i) 2
    _ = b ^ 2 * n := by simp [mul_comm]

theorem rms_sq (a : Fin n → ℝ) : rms a ^ 2 * n = ∑ i, a i ^ 2 := by
  have hn0 : (0 : ℝ) < n := Nat.cast_pos.mpr (NeZero.pos n)
  have : 0 ≤ ∑ i, a i ^ 2 := Finset.sum_nonneg fun i _ => sq_nonneg _
  rw [rms, Real.sq_sqrt (by positivity)]
  field_simp

theorem rms_inner (a b : Fin n → ℝ) : ∑ i, a i * b i ≤ rms a * rms b * n := by
  have hn0 : (0 : ℝ) < n := Nat.cast_pos.mpr (NeZero.pos n)
  have ha : 0 ≤ rms a := Real.sqrt_nonneg _
  have hb : 0 ≤ rms b := Real.sqrt_nonneg _
  have h := Finset.sum_mul_sq_le_sq_mul_sq Finset.univ a b
  rw [← rms_sq a, ← rms_sq b] at h
  have : (∑ i, a i * b i) ^ 2 ≤ (rms a * rms b * n) ^ 2 := by
    refine h.trans (le_of_eq (by ring))
  exact le_of_sq_le_sq this (by positivity)
where
  le_of_sq_le_sq {x y : ℝ} (h : x ^ 2 ≤ y ^ 2) (hy : 0 ≤ y) : x ≤ y :=
    (abs_le_of_sq_le_sq' h hy).2

/-- Perturbation of one step. -/
theorem step_error (hn : 3 ≤ n) (h : Oper.init n Lx = .ok o) (hnu : 0 ≤ nu) (hdt : 0 ≤ dt)
    {e e' τ : Fin n → ℝ}
    (he : ∀ i, e' i - e i = dt * (((linOp o nu U).mulVec e i + (linOp o nu U).mulVec e' i) / 2) + dt * τ i) :
    rms e' ≤ rms e + dt * rms τ := by
  have hn0 : (0 : ℝ) < n := Nat.cast_pos.mpr (NeZero.pos n)
  have ha : 0 ≤ rms e := Real.sqrt_nonneg _
  have hb : 0 ≤ rms e' := Real.sqrt_nonneg _
  have hc : 0 ≤ rms τ := Real.sqrt_nonneg _
  have key := inner_linOp (nu := nu) (U := U) hn h (e + e')
  have h3 : 0 ≤ nu * ∑ i, (((e + e') (next i) - (e + e') i) / o.deltax) ^ 2 :=
    mul_nonneg hnu (Finset.sum_nonneg fun i _ => sq_nonneg _)
  have hsum : ∑ i, e' i ^ 2 - ∑ i, e i ^ 2
      = dt / 2 * ∑ i, (e + e') i * (linOp o nu U).mulVec (e + e') i
        + dt * (∑ i, τ i * e i + ∑ i, τ i * e' i) := by
    rw [← Finset.sum_sub_distrib, ← Finset.sum_add_distrib, Finset.mul_sum, Finset.mul_sum,
      ← Finset.sum_add_distrib]
    refine Finset.sum_congr rfl fun i _ => ?_
    rw [Matrix.mulVec_add]
    simp only [Pi.add_apply]
    linear_combination (e i + e' i) * he i
  have i1 := rms_inner τ e
  have i2 := rms_inner τ e'
  rw [key, ← rms_sq e, ← rms_sq e'] at hsum
  have hle : (rms e' ^ 2 - rms e ^ 2) * n ≤ dt * (rms τ * (rms e + rms e')) * n := by
    have h4 : dt / 2 * -(nu * ∑ i, (((e + e') (next i) - (e + e') i) / o.deltax) ^ 2) ≤ 0 :=
      mul_nonpos_of_nonneg_of_nonpos (by linarith) (by linarith)
    have h5 : dt * (∑ i, τ i * e i + ∑ i, τ i * e' i)
        ≤ dt * (rms τ * rms e * n + rms τ * rms e' * n) :=
      mul_le_mul_of_nonneg_left (by linarith) hdt
    nlinarith
  have hle' : (rms e' - rms e) * (rms e + rms e') ≤ dt * rms τ * (rms e + rms e') := by
    have := le_of_mul_le_mul_right hle hn0
    nlinarith
  by_cases hz : rms e + rms e' = 0
  · have : rms e' = 0 := by linarith
    have : 0 ≤ dt * rms τ := mul_nonneg hdt hc
    linarith
  · have hpos : 0 < rms e + rms e' := lt_of_le_of_ne (by linarith) (Ne.symm hz)
    have := le_of_mul_le_mul_right hle' hpos
    linarith

/-- C43: convergence. The numerical solution stays close to every smooth periodic solution of the
advection-diffusion equation: with time steps smaller than `h` (possibly variable), the error at time `t` is
the initial error plus at most `t (C h² + C' dx²)`. -/
theorem C43_convergence (hn : 3 ≤ n) (hL : 0 < Lx) (h : Oper.init n Lx = .ok o) (hnu : 0 ≤ nu)
    (sol : Solution Lx nu U) {M3 M4 T3 : ℝ} (hM3 : ∀ t x, 0 ≤ t → |sol.sxxx t x| ≤ M3)
    (hM4 : ∀ t x, 0 ≤ t → |sol.sxxxx t x| ≤ M4) (hT3 : ∀ t x, 0 ≤ t → |sol.sttt t x| ≤ T3)
    {hmax : ℝ} {dts : ℕ → ℝ} (hdts : ∀ k, 0 ≤ dts k ∧ dts k ≤ hmax) {S : ℕ → Fin n → ℝ}
    (hS : ∀ k, Step (linOp o nu U) (dts k) 0 (S k) (S (k + 1))) (m : ℕ) :
    let t := fun k => ∑ j ∈ Finset.range k, dts j
    rms (fun i => S m i - sol.s (t m) (o.xs i)) ≤ rms (fun i => S 0 i - sol.s 0 (o.xs i))
      + t m * (T3 / 12 * hmax ^ 2 + (|U| * M3 / 6 + nu * M4 / 12) * o.deltax ^ 2) := by
  intro t
  have ht0 : ∀ k, 0 ≤ t k := fun k => Finset.sum_nonneg fun j _ => (hdts j).1
  have hM30 : 0 ≤ M3 := (abs_nonneg _).trans (hM3 0 0 le_rfl)
  have hM40 : 0 ≤ M4 := (abs_nonneg _).trans (hM4 0 0 le_rfl)
  have hT30 : 0 ≤ T3 := (abs_nonneg _).trans (hT3 0 0 le_rfl)
  set B := T3 / 12 * hmax ^ 2 + (|U| * M3 / 6 + nu * M4 / 12) * o.deltax ^ 2 with hB
  have hB0 : 0 ≤ B := by
    have := abs_nonneg U
    positivity
  induction m with
  | zero =>
    show rms (fun i => S 0 i - sol.s (t 0) (o.xs i)) ≤ _
    have : t 0 = 0 := by simp [t]
    rw [this]; linarith
  | succ m ih =>
    have hts : t (m + 1) = t m + dts m := Finset.sum_range_succ _ _
    obtain ⟨hd0, hd1⟩ := hdts m
    by_cases hdz : dts m = 0
    · have hstep : S (m + 1) = S m := by
        have := hS m
        rw [hdz] at this
        simpa [Step, sysMat, rhs] using this
      rw [hts, hdz, add_zero, hstep]
      exact ih
    have hdpos : 0 < dts m := lt_of_le_of_ne hd0 (Ne.symm hdz)
    set L := linOp o nu U with hLdef
    -- the truncation error
    set u := fun i => sol.s (t m) (o.xs i) with hu
    set u' := fun i => sol.s (t (m + 1)) (o.xs i) with hu'
    set τ : Fin n → ℝ := fun i => (L.mulVec u i + L.mulVec u' i) / 2 - (u' i - u i) / dts m with hτ
    have hspace : ∀ tt, 0 ≤ tt → ∀ i, |L.mulVec (fun i => sol.s tt (o.xs i)) i - sol.st tt (o.xs i)|
        ≤ (|U| * M3 / 6 + nu * M4 / 12) * o.deltax ^ 2 := by
      intro tt htt i
      obtain ⟨a1, a2⟩ := C43_accuracy hn hL h (sol.periodic tt) (sol.dx1 tt) (sol.dx2 tt) (sol.dx3 tt)
        (sol.dx4 tt) (fun x => hM3 tt x htt) (fun x => hM4 tt x htt) i
      have eq : L.mulVec (fun i => sol.s tt (o.xs i)) i - sol.st tt (o.xs i)
          = nu * (o.pxx.mulVec (fun i => sol.s tt (o.xs i)) i - sol.sxx tt (o.xs i))
            - U * (o.px.mulVec (fun i => sol.s tt (o.xs i)) i - sol.sx tt (o.xs i)) := by
        simp only [hLdef, linOp, Matrix.sub_mulVec, Matrix.smul_mulVec, Pi.sub_apply, Pi.smul_apply,
          smul_eq_mul]
        linear_combination -sol.equation tt (o.xs i)
      rw [eq]
      refine (abs_sub _ _).trans ?_
      rw [abs_mul, abs_mul, abs_of_nonneg hnu]
      have := mul_le_mul_of_nonneg_left a2 hnu
      have := mul_le_mul_of_nonneg_left a1 (abs_nonneg U)
      nlinarith
    have hτb : rms τ ≤ B := by
      refine rms_le hB0 fun i => ?_
      have s1 := hspace (t m) (ht0 m) i
      have s2 := hspace (t (m + 1)) (ht0 (m + 1)) i
      have tr := trapezoid (f := fun t => sol.s t (o.xs i)) (f1 := fun t => sol.st t (o.xs i))
        (f2 := fun t => sol.stt t (o.xs i)) (f3 := fun t => sol.sttt t (o.xs i)) (t := t m) (M := T3)
        (fun x => sol.dt1 x _) (fun x => sol.dt2 x _) (fun x => sol.dt3 x _)
        (fun x hx => hT3 x _ ((ht0 m).trans hx)) hd0
      rw [← hts] at tr
      have eq : τ i = ((L.mulVec u i - sol.st (t m) (o.xs i))
          + (L.mulVec u' i - sol.st (t (m + 1)) (o.xs i))) / 2
          - (u' i - u i - dts m / 2 * (sol.st (t m) (o.xs i) + sol.st (t (m + 1)) (o.xs i))) / dts m := by
        simp only [hτ]
        field_simp
        ring
      have q1 : |(u' i - u i - dts m / 2 * (sol.st (t m) (o.xs i) + sol.st (t (m + 1)) (o.xs i))) / dts m|
          ≤ T3 / 12 * hmax ^ 2 := by
        rw [abs_div, abs_of_pos hdpos, div_le_iff₀ hdpos]
        refine tr.trans ?_
        have : dts m ^ 2 ≤ hmax ^ 2 := pow_le_pow_left₀ hd0 hd1 2
        have := mul_le_mul_of_nonneg_left this (by positivity : 0 ≤ T3 / 12 * dts m)
        nlinarith
      have q2 : |((L.mulVec u i - sol.st (t m) (o.xs i))
          + (L.mulVec u' i - sol.st (t (m + 1)) (o.xs i))) / 2|
          ≤ (|U| * M3 / 6 + nu * M4 / 12) * o.deltax ^ 2 := by
        rw [abs_div, abs_two, div_le_iff₀ (by norm_num)]
        refine (abs_add_le _ _).trans ?_
        linarith
      rw [eq]
      refine (abs_sub _ _).trans ?_
      rw [hB]
      linarith
    have hstep : ∀ i, S (m + 1) i - S m i = dts m * ((L.mulVec (S m) i + L.mulVec (S (m + 1)) i) / 2) := by
      intro i
      have := congrFun (hS m) i
      simp only [sysMat, rhs, Matrix.sub_mulVec, Matrix.one_mulVec, Matrix.smul_mulVec, Pi.sub_apply,
        Pi.add_apply, Pi.smul_apply, smul_eq_mul, Pi.zero_apply] at this
      linear_combination this
    have he := step_error (U := U) (e := S m - u) (e' := S (m + 1) - u') (τ := τ) hn h hnu hd0 (by
      intro i
      rw [Matrix.mulVec_sub, Matrix.mulVec_sub]
      simp only [Pi.sub_apply, hτ]
      have hc : dts m * ((u' i - u i) / dts m) = u' i - u i := by field_simp
      linear_combination hstep i + hc)
    have h1 : rms (fun i => S (m + 1) i - sol.s (t (m + 1)) (o.xs i)) = rms (S (m + 1) - u') := rfl
    have h2 : rms (fun i => S m i - sol.s (t m) (o.xs i)) = rms (S m - u) := rfl
    rw [h1, hts]
    rw [h2] at ih
    have := mul_le_mul_of_nonneg_left hτb hd0
    nlinarith

end

/-- A damped travelling wave is a solution which meets the hypotheses of the convergence theorem. -/
noncomputable def wave : Solution (2 * Real.pi) 1 1 where
  s t x := Real.exp (-t) * Real.sin (x - t)
  sx t x := Real.exp (-t) * Real.cos (x - t)
  sxx t x := -(Real.exp (-t) * Real.sin (x - t))
  sxxx t x := -(Real.exp (-t) * Real.cos (x - t))
  sxxxx t x := Real.exp (-t) * Real.sin (x - t)
  st t x := Real.exp (-t) * (-Real.sin (x - t) - Real.cos (x - t))
  stt t x := Real.exp (-t) * (2 * Real.cos (x - t))
  sttt t x := Real.exp (-t) * (2 * Real.sin (x - t) - 2 * Real.cos (x - t))
  periodic t x := by
    show Real.exp (-t) * Real.sin (x + 2 * Real.pi - t) = _
    rw [show x + 2 * Real.pi - t = x - t + 2 * Real.pi by ring, Real.sin_add_two_pi]
  dx1 t x := by
    exact (((Real.hasDerivAt_sin _).comp_sub_const x t).const_mul _).congr_deriv (by ring)
  dx2 t x := by
    exact (((Real.hasDerivAt_cos _).comp_sub_const x t).const_mul _).congr_deriv (by ring)
  dx3 t x := by
    exact (((Real.hasDerivAt_sin _).comp_sub_const x t).const_mul _).fun_neg.congr_deriv (by ring)
  dx4 t x := by
    exact (((Real.hasDerivAt_cos _).comp_sub_const x t).const_mul _).fun_neg.congr_deriv (by ring)
  dt1 t x := by
    have h1 := (hasDerivAt_neg t).exp
    have h2 := (Real.hasDerivAt_sin (x - t)).comp_const_sub x t
    exact (h1.fun_mul h2).congr_deriv (by ring)
  dt2 t x := by
    have h1 := (hasDerivAt_neg t).exp
    have h2 := (Real.hasDerivAt_sin (x - t)).comp_const_sub x t
    have h3 := (Real.hasDerivAt_cos (x - t)).comp_const_sub x t
    exact (h1.fun_mul (h2.fun_neg.fun_sub h3)).congr_deriv (by ring)
  dt3 t x := by
    have h1 := (hasDerivAt_neg t).exp
    have h3 := (Real.hasDerivAt_cos (x - t)).comp_const_sub x t
    exact (h1.fun_mul (h3.const_mul 2)).congr_deriv (by ring)
  equation t x := by ring

example : (∀ t x, 0 ≤ t → |wave.sxxx t x| ≤ 1) ∧ (∀ t x, 0 ≤ t → |wave.sxxxx t x| ≤ 1) ∧
    (∀ t x, 0 ≤ t → |wave.sttt t x| ≤ 4) := by
  have he : ∀ t : ℝ, 0 ≤ t → Real.exp (-t) ≤ 1 := fun t ht => Real.exp_le_one_iff.mpr (by linarith)
  have key : ∀ t a b : ℝ, 0 ≤ t → |a| ≤ b → 0 ≤ b → |Real.exp (-t) * a| ≤ b := by
    intro t a b ht ha hb
    rw [abs_mul, abs_of_pos (Real.exp_pos _)]
    calc Real.exp (-t) * |a| ≤ 1 * b :=
          mul_le_mul (he t ht) ha (abs_nonneg _) zero_le_one
      _ = b := one_mul b
  refine ⟨fun t x ht => ?_, fun t x ht => ?_, fun t x ht => ?_⟩
  · show |-(Real.exp (-t) * Real.cos (x - t))| ≤ 1
    rw [abs_neg]
    exact key t _ 1 ht (Real.abs_cos_le_one _) zero_le_one
  · exact key t _ 1 ht (Real.abs_sin_le_one _) zero_le_one
  · refine key t _ 4 ht ?_ (by norm_num)
    have h1 := Real.abs_sin_le_one (x - t)
    have h2 := Real.abs_cos_le_one (x - t)
    rw [abs_le] at h1 h2 ⊢
    constructor <;> linarith [h1.1, h1.2, h2.1, h2.2]

end Verif.FiniteDiff
