import Verif.FiniteDiff.Model
import Mathlib.Tactic.FieldSimp
import Mathlib.Tactic.LinearCombination
import Mathlib.Tactic.Linarith
import Mathlib.Algebra.BigOperators.Fin
import Mathlib.Algebra.BigOperators.Group.Finset.Basic

/-! # Lemmas on the finite-difference matrices -/

namespace Verif.FiniteDiff

set_option linter.unusedSectionVars false

section
variable {K : Type} [Field K] {n : ℕ} [NeZero n]

/-- The next grid point, around the periodic domain. -/
def next (i : Fin n) : Fin n := ⟨(i.val + 1) % n, Nat.mod_lt _ (NeZero.pos n)⟩

/-- The previous grid point, around the periodic domain. -/
def prev (i : Fin n) : Fin n := ⟨(i.val + (n - 1)) % n, Nat.mod_lt _ (NeZero.pos n)⟩

theorem next_val (i : Fin n) : (next i).val = if i.val + 1 = n then 0 else i.val + 1 := by
  have := i.isLt
  simp only [next]
  split
  · rename_i h; rw [h]; exact Nat.mod_self n
  · exact Nat.mod_eq_of_lt (by omega)

theorem prev_val (i : Fin n) : (prev i).val = if i.val = 0 then n - 1 else i.val - 1 := by
  have := i.isLt
  simp only [prev]
  split
  · rename_i h; rw [h, Nat.zero_add]; exact Nat.mod_eq_of_lt (by omega)
  · rw [show i.val + (n - 1) = (i.val - 1) + n by omega, Nat.add_mod_right]
    exact Nat.mod_eq_of_lt (by omega)

theorem next_prev (i : Fin n) : next (prev i) = i := by
  have := i.isLt
  apply Fin.ext
  rw [next_val, prev_val]
  split <;> split <;> omega

theorem prev_next (i : Fin n) : prev (next i) = i := by
  have := i.isLt
  apply Fin.ext
  rw [prev_val, next_val]
  split <;> split <;> omega

/-- The shift of the grid as a permutation. -/
def shift : Fin n ≃ Fin n := ⟨next, prev, prev_next, next_prev⟩

theorem sum_next (f : Fin n → K) : ∑ i, f (next i) = ∑ i, f i := Equiv.sum_comp shift f

theorem sum_prev (f : Fin n → K) : ∑ i, f (prev i) = ∑ i, f i := Equiv.sum_comp shift.symm f

theorem pxDiags_ok (hn : 3 ≤ n) : ∃ M, diags n (pxDiags (K := K) n) = .ok M ∧
    ∀ i j, M i j = (if j = next i then 1 else 0) - (if j = prev i then 1 else 0) := by
  have h1 : ((pxDiags (K := K) n).map Prod.snd).Nodup := by
    simp [pxDiags]; omega
  have h2 : ¬ ((pxDiags (K := K) n).any (fun d => decide ((n : ℤ) ≤ |d.2|))) = true := by
    simp [pxDiags]
    have : |(n : ℤ) - 1| < n ∧ |1 - (n : ℤ)| < n := by
      constructor <;> rw [abs_lt] <;> constructor <;> omega
    omega
  have h3 : diags n (pxDiags (K := K) n) = .ok fun i j =>
      (((pxDiags (K := K) n).filter fun d => decide (d.2 = (j.val : ℤ) - i.val)).map Prod.fst).sum := by
    rw [diags, if_neg (by simpa using h1), if_neg h2]
  refine ⟨_, h3, ?_⟩
  intro i j
  have hi := i.isLt
  have hj := j.isLt
  have e1 : j = next i ↔ (1 : ℤ) = (j.val : ℤ) - i.val ∨ -((n : ℤ) - 1) = (j.val : ℤ) - i.val := by
    rw [Fin.ext_iff, next_val]; split <;> omega
  have e2 : j = prev i ↔ (-1 : ℤ) = (j.val : ℤ) - i.val ∨ ((n : ℤ) - 1) = (j.val : ℤ) - i.val := by
    rw [Fin.ext_iff, prev_val]; split <;> omega
  simp only [e1, e2]
  simp only [pxDiags, List.filter_cons, List.filter_nil]
  generalize (j.val : ℤ) - i.val = d at *
  simp only [decide_eq_true_eq]
  split_ifs <;> first
    | (exfalso; omega)
    | simp

theorem pxxDiags_ok (hn : 3 ≤ n) : ∃ M, diags n (pxxDiags (K := K) n) = .ok M ∧
    ∀ i j, M i j = (if j = next i then 1 else 0) - 2 * (if j = i then 1 else 0)
      + (if j = prev i then 1 else 0) := by
  have h1 : ((pxxDiags (K := K) n).map Prod.snd).Nodup := by
    simp [pxxDiags]; omega
  have h2 : ¬ ((pxxDiags (K := K) n).any (fun d => decide ((n : ℤ) ≤ |d.2|))) = true := by
    simp [pxxDiags]
    have : |(n : ℤ) - 1| < n ∧ |1 - (n : ℤ)| < n := by
      constructor <;> rw [abs_lt] <;> constructor <;> omega
    omega
  have h3 : diags n (pxxDiags (K := K) n) = .ok fun i j =>
      (((pxxDiags (K := K) n).filter fun d => decide (d.2 = (j.val : ℤ) - i.val)).map Prod.fst).sum := by
    rw [diags, if_neg (by simpa using h1), if_neg h2]
  refine ⟨_, h3, ?_⟩
  intro i j
  have hi := i.isLt
  have hj := j.isLt
  have e1 : j = next i ↔ (1 : ℤ) = (j.val : ℤ) - i.val ∨ -((n : ℤ) - 1) = (j.val : ℤ) - i.val := by
    rw [Fin.ext_iff, next_val]; split <;> omega
  have e2 : j = prev i ↔ (-1 : ℤ) = (j.val : ℤ) - i.val ∨ ((n : ℤ) - 1) = (j.val : ℤ) - i.val := by
    rw [Fin.ext_iff, prev_val]; split <;> omega
  have e3 : j = i ↔ (0 : ℤ) = (j.val : ℤ) - i.val := by
    rw [Fin.ext_iff]; omega
  simp only [e1, e2, e3]
  simp only [pxxDiags, List.filter_cons, List.filter_nil]
  generalize (j.val : ℤ) - i.val = d at *
  simp only [decide_eq_true_eq]
  split_ifs <;> first
    | (exfalso; omega)
    | simp

theorem init_ok (hn : 3 ≤ n) (Lx : K) : ∃ o : Oper K n, Oper.init n Lx = .ok o ∧ o.deltax = Lx / n ∧
    (∀ i, o.xs i = Lx / n * i.val) ∧
    (∀ a i, o.px.mulVec a i = (a (next i) - a (prev i)) / (2 * o.deltax)) ∧
    (∀ a i, o.pxx.mulVec a i = (a (next i) - 2 * a i + a (prev i)) / o.deltax ^ 2) := by
  obtain ⟨M, hM, hM'⟩ := pxDiags_ok (K := K) hn
  obtain ⟨M2, hM2, hM2'⟩ := pxxDiags_ok (K := K) hn
  have h3 : Oper.init n Lx = .ok ⟨Lx / n, fun i => Lx / n * i.val, fun i j => M i j / (2 * (Lx / n)),
      fun i j => M2 i j / (Lx / n) ^ 2⟩ := by simp only [Oper.init, hM, hM2]
  refine ⟨_, h3, rfl, fun i => rfl, ?_, ?_⟩
  · intro a i
    simp only [Matrix.mulVec, dotProduct, hM', sub_div, sub_mul, Finset.sum_sub_distrib, ite_div, ite_mul,
      zero_div, zero_mul, Finset.sum_ite_eq', Finset.mem_univ, if_true]
    ring
  · intro a i
    have : ∀ j, ((if j = next i then (1 : K) else 0) - 2 * (if j = i then 1 else 0)
      + (if j = prev i then 1 else 0)) / (Lx / n) ^ 2 * a j =
      (if j = next i then a j / (Lx / n) ^ 2 else 0) - (if j = i then 2 * a j / (Lx / n) ^ 2 else 0)
      + (if j = prev i then a j / (Lx / n) ^ 2 else 0) := by
      intro j; split <;> split <;> split <;> ring
    simp only [Matrix.mulVec, dotProduct, hM2', this, Finset.sum_add_distrib, Finset.sum_sub_distrib,
      Finset.sum_ite_eq', Finset.mem_univ, if_true]
    ring

end

end Verif.FiniteDiff
