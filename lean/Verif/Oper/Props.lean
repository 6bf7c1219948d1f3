import Verif.Oper.Lemmas
import Verif.Energy.Props2d
import Verif.Energy.Props

/-!
# C91: the grid and the modes removed by the operators
-/

set_option linter.unusedSectionVars false

namespace Verif.Oper

open Verif.Fourier Verif.Schemes Verif.EndToEnd Verif.Convergence Verif.Energy Finset

noncomputable section

variable {cubic2 : (Fin 2 → ℕ) → Set (Fin 2 → ℤ)} {cubic3 : (Fin 3 → ℕ) → Set (Fin 3 → ℤ)}

theorem reinit_ok {D : Type*} [Fintype D] (cubic : Set (D → ℤ)) (p : Params D) (n : D → ℕ) (x : D) :
    (knownShape p.shape → ∃ w, reinitTruncation cubic (deltak p) n x p.coef p.shape = .ok w ∧ ∀ k, k ∈ w ↔ RemovedByShape cubic p n x k) ∧
      (¬knownShape p.shape → reinitTruncation cubic (deltak p) n x p.coef p.shape = .error .wrongShape) := by
  obtain ⟨n0, L, oc, c, shape, ns, nk⟩ := p
  cases shape with
  | none => exact ⟨fun _ => ⟨cubic, rfl, fun k => by simp [RemovedByShape]⟩, fun h => absurd trivial h⟩
  | some s =>
    refine ⟨?_, fun h => ?_⟩
    · rintro (h | h | h)
      all_goals
        change s = _ at h
        subst h
        refine ⟨_, by simp only [reinitTruncation]; first | rfl | simp, fun k => ?_⟩
        simp [RemovedByShape]
    · simp only [knownShape, not_or] at h
      simp [reinitTruncation, h]

/-- C91: in 2D, the operator is created if and only if the numbers of points are integers and the shape of the truncation exists. Then the
parameters are unchanged, and the grid is the one of the parameters (4 × 4 with `ONLY_COARSE_OPER`). -/
theorem C91_created_2d (cubic : (Fin 2 → ℕ) → Set (Fin 2 → ℤ)) (p : Params (Fin 2)) :
    ((∃ o, init2d cubic p = .ok o) ↔ Integers p ∧ knownShape p.shape) ∧
      (¬Integers p → init2d cubic p = .error .notInteger) ∧
      (Integers p → ¬knownShape p.shape → init2d cubic p = .error .wrongShape) ∧
      ∀ o, init2d cubic p = .ok o → o.params = p ∧ (p.onlyCoarse = true → ∀ d, o.n d = 4) ∧
        (p.onlyCoarse = false → ∀ d, 0 ≤ p.n d → (o.n d : ℚ) = p.n d) := by
  have hI : Integers p ↔ p.n 0 = pyInt (p.n 0) ∧ p.n 1 = pyInt (p.n 1) := by
    simp only [Integers, ← pyInt_eq_iff]
    exact Fin.forall_fin_two
  by_cases h : Integers p
  · have hp : ({ p with n := fun d => ((pyInt (p.n d) : ℤ) : ℚ) } : Params (Fin 2)) = p := by
      obtain ⟨n, L, oc, c, shape, ns, nk⟩ := p
      simp only [Params.mk.injEq, and_true]
      funext d
      exact ((pyInt_eq_iff _).2 (h d)).symm
    have hi := hI.1 h
    obtain ⟨h1, h2⟩ := reinit_ok (cubic fun d => if p.onlyCoarse then 4 else (pyInt (p.n d)).toNat) p
      (fun d => if p.onlyCoarse then 4 else (pyInt (p.n d)).toNat) 0
    have key : init2d cubic p = match reinitTruncation (cubic fun d => if p.onlyCoarse then 4 else (pyInt (p.n d)).toNat) (deltak p)
        (fun d => if p.onlyCoarse then 4 else (pyInt (p.n d)).toNat) 0 p.coef p.shape with
        | .error e => .error e
        | .ok w => .ok ⟨fun d => if p.onlyCoarse then 4 else (pyInt (p.n d)).toNat, p, addNoKy0 p (addNoShear2d p w)⟩ := by
      unfold init2d
      rw [if_neg (not_not.2 hi.1), if_neg (not_not.2 hi.2)]
      simp only [hp, pyInt_int]
      split <;> (rename_i hq; rw [hq])
    by_cases hs : knownShape p.shape
    · obtain ⟨w, hw, -⟩ := h1 hs
      rw [hw] at key
      refine ⟨⟨fun _ => ⟨h, hs⟩, fun _ => ⟨_, key⟩⟩, fun h' => absurd h h', fun _ h' => absurd hs h', fun o ho => ?_⟩
      rw [key] at ho
      obtain rfl := Except.ok.inj ho
      refine ⟨rfl, fun hc d => by simp [hc], fun hc d hd => ?_⟩
      simp only [hc, Bool.false_eq_true, if_false]
      obtain ⟨m, hm⟩ := h d
      rw [hm, pyInt_int]
      rw [hm] at hd
      have : 0 ≤ m := by exact_mod_cast hd
      have h2 : ((m.toNat : ℤ) : ℚ) = m := by rw [Int.toNat_of_nonneg this]
      exact_mod_cast h2
    · rw [h2 hs] at key
      refine ⟨⟨fun ⟨o, ho⟩ => by rw [key] at ho; exact absurd ho (by simp), fun h' => absurd h'.2 hs⟩, fun h' => absurd h h',
        fun _ _ => key, fun o ho => by rw [key] at ho; exact absurd ho (by simp)⟩
  · have key : init2d cubic p = .error .notInteger := by
      unfold init2d
      by_cases h0 : p.n 0 ≠ pyInt (p.n 0)
      · rw [if_pos h0]
      · have h1 : p.n 1 ≠ pyInt (p.n 1) := fun h1 => h (hI.2 ⟨not_not.1 h0, h1⟩)
        rw [if_neg h0, if_pos h1]
    refine ⟨⟨fun ⟨o, ho⟩ => by rw [key] at ho; exact absurd ho (by simp), fun h' => absurd h'.1 h⟩, fun _ => key,
      fun h' => absurd h' h, fun o ho => by rw [key] at ho; exact absurd ho (by simp)⟩

/-- C91: the modes removed in 2D: those of the truncation, the modes `kx = 0` with `NO_SHEAR_MODES`, the modes `ky = 0` with `NO_KY0`. -/
theorem C91_removed_2d {p : Params (Fin 2)} (hL : ∀ d, 0 < p.L d) {o : Operator (Fin 2)} (ho : init2d cubic2 p = .ok o) (k : Fin 2 → ℤ) :
    k ∈ o.removed ↔ RemovedByShape (cubic2 o.n) p o.n 0 k ∨ (p.noShear = some true ∧ k 0 = 0) ∨ (p.noKy0 = some true ∧ k 1 = 0) := by
  obtain ⟨c1, -, -, c2⟩ := C91_created_2d cubic2 p
  obtain ⟨h, hs⟩ := c1.1 ⟨o, ho⟩
  have hpar := (c2 o ho).1
  have hn : o.n = fun d => if p.onlyCoarse then 4 else (pyInt (p.n d)).toNat := by
    funext d
    have := ho
    unfold init2d at this
    rw [if_neg (not_not.2 ((pyInt_eq_iff _).2 (h 0))), if_neg (not_not.2 ((pyInt_eq_iff _).2 (h 1)))] at this
    simp only [] at this
    split at this
    · exact absurd this (by simp)
    · obtain rfl := Except.ok.inj this
      simp only [pyInt_int]
  have hp : ({ p with n := fun d => ((pyInt (p.n d) : ℤ) : ℚ) } : Params (Fin 2)) = p := by
    obtain ⟨n, L, oc, c, shape, ns, nk⟩ := p
    simp only [Params.mk.injEq, and_true]
    funext d
    exact ((pyInt_eq_iff _).2 (h d)).symm
  obtain ⟨w, hw, hk⟩ := (reinit_ok (cubic2 o.n) p o.n 0).1 hs
  have hr : o.removed = addNoKy0 p (addNoShear2d p w) := by
    have := ho
    unfold init2d at this
    rw [if_neg (not_not.2 ((pyInt_eq_iff _).2 (h 0))), if_neg (not_not.2 ((pyInt_eq_iff _).2 (h 1)))] at this
    simp only [hp, pyInt_int] at this
    rw [← hn, hw] at this
    rw [← Except.ok.inj this]
  have z : ∀ d, |deltak p d * k d| = 0 ↔ k d = 0 := fun d => by
    rw [abs_eq_zero, mul_eq_zero, or_iff_right (deltak_ne (hL d))]; exact_mod_cast Iff.rfl
  rw [hr, addNoKy0, addNoShear2d]
  by_cases h1 : p.noShear = some true <;> by_cases h2 : p.noKy0 = some true <;>
    simp only [h1, h2, if_true, if_false, Set.mem_union, Set.mem_setOf_eq, z, hk, true_and, false_and, or_false] <;> tauto

/-- C91 (finding): in 3D, the numbers of points are not checked: for 4.9 points, the operator is created with 4 points, and the value of the
parameter is changed. -/
theorem C91_sizes_3d_violated : ∃ (p : Params (Fin 3)) (o : Operator (Fin 3)), init3d (fun _ => ∅) p = .ok o ∧ ¬Integers p ∧
    (∀ d, o.n d = 4) ∧ ∀ d, p.n d = 4.9 ∧ o.params.n d = 4 := by
  refine ⟨⟨fun _ => 4.9, fun _ => 1, false, 1, none, none, none⟩, _, rfl, fun h => ?_, fun d => ?_, fun d => ⟨rfl, ?_⟩⟩
  · obtain ⟨m, hm⟩ := h 0
    have : (49 : ℚ) = 10 * m := by rw [← hm]; norm_num
    have : (49 : ℤ) = 10 * m := by exact_mod_cast this
    omega
  · have : pyInt 4.9 = 4 := by
      rw [pyInt, if_pos (by norm_num)]
      exact Int.floor_eq_iff.2 ⟨by norm_num, by norm_num⟩
    simp only [Bool.false_eq_true, if_false, this, pyInt_int]
    rfl
  · have : pyInt 4.9 = 4 := by
      rw [pyInt, if_pos (by norm_num)]
      exact Int.floor_eq_iff.2 ⟨by norm_num, by norm_num⟩
    simp [this]

/-- C91: in 3D with integer sizes, the operator is created if and only if the shape exists; the parameters are unchanged and the grid is the
one of the parameters. -/
theorem C91_created_3d_partial (cubic : (Fin 3 → ℕ) → Set (Fin 3 → ℤ)) {p : Params (Fin 3)} (h : Integers p) :
    ((∃ o, init3d cubic p = .ok o) ↔ knownShape p.shape) ∧
      ∀ o, init3d cubic p = .ok o → o.params = p ∧ (p.onlyCoarse = true → ∀ d, o.n d = 4) ∧
        (p.onlyCoarse = false → ∀ d, 0 ≤ p.n d → (o.n d : ℚ) = p.n d) := by
  have hp : ({ p with n := fun d => ((pyInt (p.n d) : ℤ) : ℚ) } : Params (Fin 3)) = p := by
    obtain ⟨n, L, oc, c, shape, ns, nk⟩ := p
    simp only [Params.mk.injEq, and_true]
    funext d
    exact ((pyInt_eq_iff _).2 (h d)).symm
  obtain ⟨h1, h2⟩ := reinit_ok (cubic fun d => if p.onlyCoarse then 4 else (pyInt (p.n d)).toNat) p
    (fun d => if p.onlyCoarse then 4 else (pyInt (p.n d)).toNat) 0
  have key : init3d cubic p = match reinitTruncation (cubic fun d => if p.onlyCoarse then 4 else (pyInt (p.n d)).toNat) (deltak p)
      (fun d => if p.onlyCoarse then 4 else (pyInt (p.n d)).toNat) 0 p.coef p.shape with
      | .error e => .error e
      | .ok w => .ok ⟨fun d => if p.onlyCoarse then 4 else (pyInt (p.n d)).toNat, p, addNoShear3d p w⟩ := by
    unfold init3d
    simp only [hp, pyInt_int]
    split <;> (rename_i hq; rw [hq])
  by_cases hs : knownShape p.shape
  · obtain ⟨w, hw, -⟩ := h1 hs
    rw [hw] at key
    refine ⟨⟨fun _ => hs, fun _ => ⟨_, key⟩⟩, fun o ho => ?_⟩
    rw [key] at ho
    obtain rfl := Except.ok.inj ho
    refine ⟨rfl, fun hc d => by simp [hc], fun hc d hd => ?_⟩
    simp only [hc, Bool.false_eq_true, if_false]
    obtain ⟨m, hm⟩ := h d
    rw [hm, pyInt_int]
    rw [hm] at hd
    have : 0 ≤ m := by exact_mod_cast hd
    have h2 : ((m.toNat : ℤ) : ℚ) = m := by rw [Int.toNat_of_nonneg this]
    exact_mod_cast h2
  · rw [h2 hs] at key
    exact ⟨⟨fun ⟨o, ho⟩ => by rw [key] at ho; exact absurd ho (by simp), fun h' => absurd h' hs⟩,
      fun o ho => by rw [key] at ho; exact absurd ho (by simp)⟩

/-- C91: the modes removed in 3D: those of the truncation and, with `NO_SHEAR_MODES`, the modes `kx = ky = 0`. -/
theorem C91_removed_3d {p : Params (Fin 3)} (hL : ∀ d, 0 < p.L d) {o : Operator (Fin 3)} (ho : init3d cubic3 p = .ok o) (k : Fin 3 → ℤ) :
    k ∈ o.removed ↔ RemovedByShape (cubic3 o.n) p o.n 0 k ∨ (p.noShear = some true ∧ k 0 = 0 ∧ k 1 = 0) := by
  have hd : deltak ({ p with n := fun d => ((pyInt (p.n d) : ℤ) : ℚ) } : Params (Fin 3)) = deltak p := rfl
  have ho' := ho
  unfold init3d at ho'
  simp only [hd] at ho'
  split at ho'
  · exact absurd ho' (by simp)
  · rename_i w hw
    obtain rfl := Except.ok.inj ho'
    obtain ⟨h1, h2⟩ := reinit_ok (cubic3 fun d => if p.onlyCoarse then 4 else (pyInt ((pyInt (p.n d) : ℤ) : ℚ)).toNat) p
      (fun d => if p.onlyCoarse then 4 else (pyInt ((pyInt (p.n d) : ℤ) : ℚ)).toNat) 0
    have hs : knownShape p.shape := by
      by_contra hs
      rw [h2 hs] at hw
      exact absurd hw (by simp)
    obtain ⟨w', hw', hk⟩ := h1 hs
    rw [hw'] at hw
    obtain rfl := Except.ok.inj hw
    have z : (deltak p 0 * k 0) ^ 2 + (deltak p 1 * k 1) ^ 2 = 0 ↔ k 0 = 0 ∧ k 1 = 0 := by
      rw [add_eq_zero_iff_of_nonneg (sq_nonneg _) (sq_nonneg _), sq_eq_zero_iff, sq_eq_zero_iff, mul_eq_zero, mul_eq_zero,
        or_iff_right (deltak_ne (hL 0)), or_iff_right (deltak_ne (hL 1))]
      exact_mod_cast Iff.rfl
    simp only [addNoShear3d]
    by_cases h1 : p.noShear = some true
    · simp only [h1, if_true, Set.mem_union, Set.mem_setOf_eq, true_and]
      change (deltak p 0 * k 0) ^ 2 + (deltak p 1 * k 1) ^ 2 = 0 ∨ _ ↔ _
      rw [z, hk]; tauto
    · simp only [h1, if_false, false_and, or_false]
      exact hk k

end

end Verif.Oper
