import Verif.FiniteDiff.Props

/-! # C43: finite-difference operators in two dimensions -/

namespace Verif.FiniteDiff

set_option linter.unusedSectionVars false

variable {K : Type} [Field K]

/-- The index of the point `(i0, i1)` (line, column) in the flattened array of shape `(ny, nx)`. -/
def flat {nx ny : ℕ} (i0 : Fin ny) (i1 : Fin nx) : Fin (nx * ny) :=
  ⟨i0.val * nx + i1.val, by
    have h0 := i0.isLt
    have h1 := i1.isLt
    calc i0.val * nx + i1.val < i0.val * nx + nx := by omega
      _ = (i0.val + 1) * nx := by ring
      _ ≤ ny * nx := Nat.mul_le_mul_right _ h0
      _ = nx * ny := Nat.mul_comm _ _⟩

section
variable {nx ny : ℕ} [NeZero nx] [NeZero ny]

theorem emod_shift (n : ℕ) [NeZero n] (i : Fin n) : ((i.val : ℤ) + 1) % n = (next i).val ∧
    ((i.val : ℤ) + -1) % n = (prev i).val := by
  have hn := NeZero.pos n
  have hi := i.isLt
  constructor
  · simp only [next]; push_cast; rfl
  · simp only [prev]
    rw [show (i.val : ℤ) + -1 = ((i.val + (n - 1) : ℕ) : ℤ) - n by omega, Int.sub_emod_right]
    rfl

theorem ix_flat (i0 : Fin ny) (i1 : Fin nx) :
    ixShift nx 1 (flat i0 i1).val = (flat i0 (next i1)).val ∧
    ixShift nx (-1) (flat i0 i1).val = (flat i0 (prev i1)).val := by
  have hn := NeZero.pos nx
  have h1 := i1.isLt
  have e1 : (((flat i0 i1).val : ℕ) : ℤ) % nx = i1.val := by
    show ((i0.val * nx + i1.val : ℕ) : ℤ) % nx = i1.val
    push_cast
    rw [Int.add_emod, Int.mul_emod_left, zero_add, Int.emod_emod_of_dvd _ (dvd_refl _)]
    exact Int.emod_eq_of_lt (by omega) (by omega)
  have e0 : (((flat i0 i1).val : ℕ) : ℤ) / nx = i0.val := by
    show ((i0.val * nx + i1.val : ℕ) : ℤ) / nx = i0.val
    push_cast
    rw [add_comm, Int.add_mul_ediv_right _ _ (by omega), Int.ediv_eq_zero_of_lt (by omega) (by omega),
      zero_add]
  obtain ⟨a, b⟩ := emod_shift nx i1
  constructor
  · simp only [ixShift, e0, e1, a]; simp only [flat]; push_cast; rfl
  · simp only [ixShift, e0, e1, b]; simp only [flat]; push_cast; rfl

theorem iy_flat (i0 : Fin ny) (i1 : Fin nx) :
    iyShift nx ny 1 (flat i0 i1).val = (flat (next i0) i1).val ∧
    iyShift nx ny (-1) (flat i0 i1).val = (flat (prev i0) i1).val := by
  have hn := NeZero.pos nx
  have h1 := i1.isLt
  have e1 : (((flat i0 i1).val : ℕ) : ℤ) % nx = i1.val := by
    show ((i0.val * nx + i1.val : ℕ) : ℤ) % nx = i1.val
    push_cast
    rw [Int.add_emod, Int.mul_emod_left, zero_add, Int.emod_emod_of_dvd _ (dvd_refl _)]
    exact Int.emod_eq_of_lt (by omega) (by omega)
  have e0 : (((flat i0 i1).val : ℕ) : ℤ) / nx = i0.val := by
    show ((i0.val * nx + i1.val : ℕ) : ℤ) / nx = i0.val
    push_cast
    rw [add_comm, Int.add_mul_ediv_right _ _ (by omega), Int.ediv_eq_zero_of_lt (by omega) (by omega),
      zero_add]
  obtain ⟨a, b⟩ := emod_shift ny i0
  have hm : ∀ z : ℤ, (z * nx) % (nx * ny) = (z % ny) * nx := by
    intro z
    rw [mul_comm z, Int.mul_emod_mul_of_pos _ _ (by omega), mul_comm]
  constructor
  · simp only [iyShift, e0, e1, hm, a]; simp only [flat]; push_cast; rfl
  · simp only [iyShift, e0, e1, hm, b]; simp only [flat]; push_cast; rfl

theorem coo_mulVec {size : ℕ} (l : List (K × (ℤ → ℤ))) (i : Fin size) (a : Fin size → K)
    (g : (K × (ℤ → ℤ)) → Fin size) (hg : ∀ d ∈ l, d.2 i.val = (g d).val) :
    (coo size l).mulVec a i = (l.map fun d => d.1 * a (g d)).sum := by
  simp only [Matrix.mulVec, dotProduct, coo]
  induction l with
  | nil => simp
  | cons d l ih =>
    rw [List.map_cons, List.sum_cons, ← ih fun d' hd' => hg d' (List.mem_cons_of_mem _ hd')]
    have h : ∀ j, (((d :: l).filter fun d => decide (d.2 i.val = (j.val : ℤ))).map Prod.fst).sum * a j
        = (if j = g d then d.1 * a j else 0)
          + ((l.filter fun d => decide (d.2 i.val = (j.val : ℤ))).map Prod.fst).sum * a j := by
      intro j
      have hd := hg d (List.mem_cons_self ..)
      by_cases hj : j = g d
      · rw [if_pos hj, List.filter_cons_of_pos (by simp [hd, hj]), List.map_cons, List.sum_cons, add_mul]
      · rw [if_neg hj, List.filter_cons_of_neg ?_, zero_add]
        simp only [hd, decide_eq_true_eq, Nat.cast_inj]
        exact fun hh => hj (Fin.ext hh.symm)
    simp only [h, Finset.sum_add_distrib, Finset.sum_ite_eq', Finset.mem_univ, if_true]

/-- C43: the matrices the code builds for two dimensions (if the module imported `sparse`) are the centred
differences along x and along y. Missing: the class cannot be created (`C43_2d_created_violated`) and the
second derivative along y is divided by `dx²` (`C43_2d_pyy_violated`). -/
theorem C43_2d_operators_partial (dx dy : K) (a : Fin (nx * ny) → K) (i0 : Fin ny) (i1 : Fin nx) :
    let at2 : ℤ → ℤ → K := fun z0 z1 => per (fun j0 : Fin ny => per (fun j1 : Fin nx => a (flat j0 j1)) z1) z0
    (px2 nx ny dx).mulVec a (flat i0 i1)
      = (at2 i0.val (i1.val + 1) - at2 i0.val (i1.val - 1)) / (2 * dx) ∧
    (py2 nx ny dy).mulVec a (flat i0 i1)
      = (at2 (i0.val + 1) i1.val - at2 (i0.val - 1) i1.val) / (2 * dy) ∧
    (pxx2 nx ny dx).mulVec a (flat i0 i1) = (at2 i0.val (i1.val + 1) - 2 * at2 i0.val i1.val
      + at2 i0.val (i1.val - 1)) / dx ^ 2 ∧
    (pyy2 nx ny dx).mulVec a (flat i0 i1) = (at2 (i0.val + 1) i1.val - 2 * at2 i0.val i1.val
      + at2 (i0.val - 1) i1.val) / dx ^ 2 := by
  intro at2
  have p0 : ∀ {n : ℕ} [NeZero n] (b : Fin n → K) (i : Fin n), per b i.val = b i := by
    intro n _ b i
    simp only [per]
    congr 1
    apply Fin.ext
    have := i.isLt
    show ((i.val : ℤ) % n).toNat = i.val
    rw [Int.emod_eq_of_lt (by omega) (by omega)]
    rfl
  obtain ⟨x1, x2⟩ := ix_flat i0 i1
  obtain ⟨y1, y2⟩ := iy_flat i0 i1
  simp only [at2, p0, per_next, per_prev]
  refine ⟨?_, ?_, ?_, ?_⟩
  · have h := coo_mulVec [(1 / (2 * dx), ixShift nx 1)] (flat i0 i1) a (fun _ => flat i0 (next i1))
      (by simpa using x1)
    have h' := coo_mulVec [(-1 / (2 * dx), ixShift nx (-1))] (flat i0 i1) a (fun _ => flat i0 (prev i1))
      (by simpa using x2)
    have hs : (px2 nx ny dx) = coo _ [(1 / (2 * dx), ixShift nx 1)]
        + coo _ [(-1 / (2 * dx), ixShift nx (-1))] := coo_two _ _
    rw [hs, Matrix.add_mulVec, Pi.add_apply, h, h']
    simp only [List.map_cons, List.map_nil, List.sum_cons, List.sum_nil]; ring
  · have h := coo_mulVec [(1 / (2 * dy), iyShift nx ny 1)] (flat i0 i1) a (fun _ => flat (next i0) i1)
      (by simpa using y1)
    have h' := coo_mulVec [(-1 / (2 * dy), iyShift nx ny (-1))] (flat i0 i1) a (fun _ => flat (prev i0) i1)
      (by simpa using y2)
    have hs : (py2 nx ny dy) = coo _ [(1 / (2 * dy), iyShift nx ny 1)]
        + coo _ [(-1 / (2 * dy), iyShift nx ny (-1))] := coo_two _ _
    rw [hs, Matrix.add_mulVec, Pi.add_apply, h, h']
    simp only [List.map_cons, List.map_nil, List.sum_cons, List.sum_nil]; ring
  · have h0 := coo_mulVec [(-2 / dx ^ 2, id)] (flat i0 i1) a (fun _ => flat i0 i1) (by simp)
    have h := coo_mulVec [(1 / dx ^ 2, ixShift nx 1)] (flat i0 i1) a (fun _ => flat i0 (next i1))
      (by simpa using x1)
    have h' := coo_mulVec [(1 / dx ^ 2, ixShift nx (-1))] (flat i0 i1) a (fun _ => flat i0 (prev i1))
      (by simpa using x2)
    have hs : (pxx2 nx ny dx) = coo _ [(-2 / dx ^ 2, id)] + (coo _ [(1 / dx ^ 2, ixShift nx 1)]
        + coo _ [(1 / dx ^ 2, ixShift nx (-1))]) := by
      rw [pxx2, coo_cons, coo_two]
    rw [hs, Matrix.add_mulVec, Matrix.add_mulVec, Pi.add_apply, Pi.add_apply, h0, h, h']
    simp only [List.map_cons, List.map_nil, List.sum_cons, List.sum_nil]; ring
  · have h0 := coo_mulVec [(-2 / dx ^ 2, id)] (flat i0 i1) a (fun _ => flat i0 i1) (by simp)
    have h := coo_mulVec [(1 / dx ^ 2, iyShift nx ny 1)] (flat i0 i1) a (fun _ => flat (next i0) i1)
      (by simpa using y1)
    have h' := coo_mulVec [(1 / dx ^ 2, iyShift nx ny (-1))] (flat i0 i1) a (fun _ => flat (prev i0) i1)
      (by simpa using y2)
    have hs : (pyy2 nx ny dx) = coo _ [(-2 / dx ^ 2, id)] + (coo _ [(1 / dx ^ 2, iyShift nx ny 1)]
        + coo _ [(1 / dx ^ 2, iyShift nx ny (-1))]) := by
      rw [pyy2, coo_cons, coo_two]
    rw [hs, Matrix.add_mulVec, Matrix.add_mulVec, Pi.add_apply, Pi.add_apply, h0, h, h']
    simp only [List.map_cons, List.map_nil, List.sum_cons, List.sum_nil]; ring
where
  coo_cons {size : ℕ} (d : K × (ℤ → ℤ)) (l : List (K × (ℤ → ℤ))) :
      coo size (d :: l) = coo size [d] + coo size l := by
    funext i j
    simp only [coo, Matrix.add_apply, List.filter_cons, List.filter_nil]
    split <;> simp
  coo_two {size : ℕ} (d d' : K × (ℤ → ℤ)) : coo size [d, d'] = coo size [d] + coo size [d'] :=
    coo_cons d [d']

end

/-- C43, finding: the two-dimensional operators can never be created: `sparse` is not defined in the module
(no python builtin has this name). -/
theorem C43_2d_created_violated {builtins : List String} (hb : "sparse" ∉ builtins) (nx ny : ℕ) (Lx Ly : K) :
    ∃ e, init2 builtins nx ny Lx Ly = .error e := by
  by_cases h : nx = 0 ∨ ny = 0
  · exact ⟨_, by rw [init2, if_pos h]⟩
  · have hr : resolve localsCreateSparse globals2d builtins "sparse" = .error "NameError" := by
      rw [resolve, if_neg (by decide), if_neg (by decide), if_neg hb]
    exact ⟨"NameError", by rw [init2, if_neg h, hr]⟩

/-- C43, finding: the matrix meant for the second derivative along y is wrong on every grid whose steps
differ: there is an array for which it does not give the centred difference. -/
theorem C43_2d_pyy_violated {nx ny : ℕ} [NeZero nx] [NeZero ny] (hny : 2 ≤ ny) [CharZero K] {dx dy : K}
    (hx : dx ≠ 0) (hy : dy ≠ 0) (hne : dx ^ 2 ≠ dy ^ 2) :
    ∃ (a : Fin (nx * ny) → K) (i0 : Fin ny) (i1 : Fin nx), (pyy2 nx ny dx).mulVec a (flat i0 i1)
      ≠ (a (flat (next i0) i1) - 2 * a (flat i0 i1) + a (flat (prev i0) i1)) / dy ^ 2 := by
  let i0 : Fin ny := ⟨0, NeZero.pos ny⟩
  let i1 : Fin nx := ⟨0, NeZero.pos nx⟩
  refine ⟨Pi.single (flat i0 i1) 1, i0, i1, ?_⟩
  obtain ⟨_, _, _, h⟩ := C43_2d_operators_partial dx dy (Pi.single (flat i0 i1) (1 : K)) i0 i1
  rw [h]
  have q1 : flat (next i0) i1 ≠ flat i0 i1 := by
    intro hh
    have hv := congrArg Fin.val hh
    have : (next i0).val = 1 := by rw [next_val]; simp [i0]; omega
    simp only [flat, this] at hv
    have := NeZero.pos nx
    simp [i0, i1] at hv
    omega
  have q2 : flat (prev i0) i1 ≠ flat i0 i1 := by
    intro hh
    have hv := congrArg Fin.val hh
    have : (prev i0).val = ny - 1 := by rw [prev_val]; simp [i0]
    simp only [flat, this] at hv
    have h1 := NeZero.pos nx
    simp only [i0, i1, zero_mul, add_zero] at hv
    rcases Nat.mul_eq_zero.mp hv with h | h <;> omega
  simp only [per_next, per_prev]
  have p0 : ∀ {n : ℕ} [NeZero n] (b : Fin n → K) (i : Fin n), per b i.val = b i := by
    intro n _ b i
    simp only [per]
    congr 1
    apply Fin.ext
    have := i.isLt
    show ((i.val : ℤ) % n).toNat = i.val
    rw [Int.emod_eq_of_lt (by omega) (by omega)]
    rfl
  simp only [p0, Pi.single_apply, if_neg q1, if_neg q2, if_true]
  intro hh
  apply hne
  rw [div_eq_div_iff (pow_ne_zero 2 hx) (pow_ne_zero 2 hy)] at hh
  have h2 : (2 : K) ≠ 0 := two_ne_zero
  have : (2 : K) * (dx ^ 2 - dy ^ 2) = 0 := by linear_combination hh
  have := (mul_eq_zero.mp this).resolve_left h2
  linear_combination this

/-- C43, finding: the coordinates given with these operators are not the ones of the periodic grid: their
step is not `deltax` and the last point is the first one. -/
theorem C43_2d_grid_violated [CharZero K] {L : K} (hL : L ≠ 0) {n : ℕ} (hn : 2 ≤ n) (i : ℕ) :
    linspace L n (i + 1) - linspace L n i ≠ L / n ∧ linspace L n (n - 1) = L + linspace L n 0 := by
  have h1 : (n : K) ≠ 0 := Nat.cast_ne_zero.mpr (by omega)
  have h2 : (n : K) - 1 ≠ 0 := by
    rw [sub_ne_zero]
    exact_mod_cast (by omega : n ≠ 1)
  constructor
  · simp only [linspace]
    intro h
    push_cast at h
    field_simp at h
    have : (1 : K) = 0 := by linear_combination h
    exact one_ne_zero this
  · simp only [linspace, Nat.cast_zero, mul_zero, zero_div, add_zero]
    rw [Nat.cast_sub (by omega), Nat.cast_one]
    field_simp

/-- With four lines and steps 1 and 2 the hypotheses hold. -/
example : ∃ (a : Fin (4 * 4) → ℚ) (i0 i1 : Fin 4), (pyy2 4 4 (1 : ℚ)).mulVec a (flat i0 i1)
      ≠ (a (flat (next i0) i1) - 2 * a (flat i0 i1) + a (flat (prev i0) i1)) / 2 ^ 2 :=
  C43_2d_pyy_violated (by norm_num) (by norm_num) (by norm_num) (by norm_num)

end Verif.FiniteDiff
