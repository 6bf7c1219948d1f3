import Verif.Oper.Props
import Verif.Uxuy.PropsRuns

/-!
# C91: the simulations without shear modes
-/

set_option linter.unusedSectionVars false

namespace Verif.Oper

open Verif.Fourier Verif.Schemes Verif.EndToEnd Verif.Convergence Verif.Energy Verif.Vectors Finset

noncomputable section

variable {cubic2 : (Fin 2 → ℕ) → Set (Fin 2 → ℤ)} {cubic3 : (Fin 3 → ℕ) → Set (Fin 3 → ℤ)}

theorem fields_zero {D V : Type*} [DecidableEq (D → ℤ)] {G : Finset (D → ℤ)} {a : Arr (V × G)} {v : V} {k : D → ℤ} (hk : k ∈ G)
    (h : a (v, ⟨k, hk⟩) = 0) : fields G a v k = 0 := by
  simp [fields, hk, h]

/-- C91: with `NO_SHEAR_MODES`, in 2D, the mean over x of each variable of the state is zero at each y, after each time step, whatever the
solver (tendencies with the force, frequencies), the scheme, the time steps and the initial state. -/
theorem C91_no_shear_2d {p : Params (Fin 2)} (hL : ∀ d, 0 < p.L d) (hs : p.noShear = some true) {o : Operator (Fin 2)}
    (ho : init2d cubic2 p = .ok o) {G : Finset (Fin 2 → ℤ)} (hG : ∀ k ∈ G, ∀ d, 2 * |k d| ≤ o.n d) {V : Type*} (sc : Scheme)
    (N : Arr (V × G) → Arr (V × G)) (f : Arr (V × G)) (ps pa pb : ℕ → Arr (V × G)) (heap : Heap (V × G)) (g1 g2 : Arr (V × G)) (cfl : Bool)
    (u0 : Arr (V × G)) (dt : ℕ → ℝ) (k : ℕ) (v : V) (j : Pt o.n) :
    meanAlong 0 (gridVal o.n G (fields G (states sc N f (mask2d true o G) ps pa pb heap g1 g2 cfl u0 dt (k + 1)) v)) j = 0 := by
  refine meanAlong_eq_zero (fun q hq => hG q hq 0) (fun q hq h0 => fields_zero hq ?_) j
  refine states_masked _ _ _ _ _ _ _ _ _ _ _ _ _ _ ?_
  simpa [mask2d] using (C91_removed_2d hL ho q).2 (.inr (.inl ⟨hs, h0⟩))

/-- C91: with `NO_KY0`, in 2D, the mean over y of each variable of the state is zero at each x. -/
theorem C91_no_ky0 {p : Params (Fin 2)} (hL : ∀ d, 0 < p.L d) (hs : p.noKy0 = some true) {o : Operator (Fin 2)}
    (ho : init2d cubic2 p = .ok o) {G : Finset (Fin 2 → ℤ)} (hG : ∀ k ∈ G, ∀ d, 2 * |k d| ≤ o.n d) {V : Type*} (sc : Scheme)
    (N : Arr (V × G) → Arr (V × G)) (f : Arr (V × G)) (ps pa pb : ℕ → Arr (V × G)) (heap : Heap (V × G)) (g1 g2 : Arr (V × G)) (cfl : Bool)
    (u0 : Arr (V × G)) (dt : ℕ → ℝ) (k : ℕ) (v : V) (j : Pt o.n) :
    meanAlong 1 (gridVal o.n G (fields G (states sc N f (mask2d true o G) ps pa pb heap g1 g2 cfl u0 dt (k + 1)) v)) j = 0 := by
  refine meanAlong_eq_zero (fun q hq => hG q hq 1) (fun q hq h0 => fields_zero hq ?_) j
  refine states_masked _ _ _ _ _ _ _ _ _ _ _ _ _ _ ?_
  simpa [mask2d] using (C91_removed_2d hL ho q).2 (.inr (.inr ⟨hs, h0⟩))

/-- C91: the velocity of ns2d (computed from the vorticity) has then no mean over x either. -/
theorem C91_no_shear_velocity {p : Params (Fin 2)} (hL : ∀ d, 0 < p.L d) (hs : p.noShear = some true) {o : Operator (Fin 2)}
    (ho : init2d cubic2 p = .ok o) {G : Finset (Fin 2 → ℤ)} (hG : ∀ k ∈ G, ∀ d, 2 * |k d| ≤ o.n d) {V : Type*} (sc : Scheme)
    (N : Arr (V × G) → Arr (V × G)) (f : Arr (V × G)) (ps pa pb : ℕ → Arr (V × G)) (heap : Heap (V × G)) (g1 g2 : Arr (V × G)) (cfl : Bool)
    (u0 : Arr (V × G)) (dt : ℕ → ℝ) (k : ℕ) (rot : V) (j : Pt o.n) :
    meanAlong 0 (gridVal o.n G (ux2 (deltak p)
        (fields G (states sc N f (mask2d true o G) ps pa pb heap g1 g2 cfl u0 dt (k + 1)) rot))) j = 0 ∧
      meanAlong 0 (gridVal o.n G (uy2 (deltak p)
        (fields G (states sc N f (mask2d true o G) ps pa pb heap g1 g2 cfl u0 dt (k + 1)) rot))) j = 0 := by
  have hz : ∀ q ∈ G, q 0 = 0 → fields G (states sc N f (mask2d true o G) ps pa pb heap g1 g2 cfl u0 dt (k + 1)) rot q = 0 := by
    intro q hq h0
    refine fields_zero hq (states_masked _ _ _ _ _ _ _ _ _ _ _ _ _ _ ?_)
    simpa [mask2d] using (C91_removed_2d hL ho q).2 (.inr (.inl ⟨hs, h0⟩))
  constructor <;> refine meanAlong_eq_zero (fun q hq => hG q hq 0) (fun q hq h0 => ?_) j
  · simp [ux2, Forcing.vecFromRot, hz q hq h0]
  · simp [uy2, Forcing.vecFromRot, hz q hq h0]

/-- C91: with `NO_SHEAR_MODES`, in 3D, the mean over x and y of each variable of the state is zero at each z. -/
theorem C91_no_shear_3d {p : Params (Fin 3)} (hL : ∀ d, 0 < p.L d) (hs : p.noShear = some true) {o : Operator (Fin 3)}
    (ho : init3d cubic3 p = .ok o) {G : Finset (Fin 3 → ℤ)} (hG : ∀ k ∈ G, ∀ d, 2 * |k d| ≤ o.n d) {V : Type*}
    (project : Arr (V × G) → Arr (V × G)) (sc : Scheme)
    (N : Arr (V × G) → Arr (V × G)) (f : Arr (V × G)) (ps pa pb : ℕ → Arr (V × G)) (heap : Heap (V × G)) (g1 g2 : Arr (V × G)) (cfl : Bool)
    (u0 : Arr (V × G)) (dt : ℕ → ℝ) (k : ℕ) (v : V) (j : Pt o.n) :
    meanAlong 0 (fun j => meanAlong 1 (gridVal o.n G (fields G
      ((simulation3d project sc N f (mask3d o G) ps pa pb heap g1 g2 cfl u0 dt (k + 1)).heap .state) v)) j) j = 0 := by
  refine meanAlong2_eq_zero (by decide) (fun q hq => ⟨hG q hq 0, hG q hq 1⟩) (fun q hq h0 h1 => fields_zero hq ?_) j
  refine states3d_masked _ _ _ _ _ _ _ _ _ _ _ _ _ _ _ ?_
  simpa [mask3d] using (C91_removed_3d hL ho q).2 (.inr ⟨hs, h0, h1⟩)

/-- C91: removing these modes keeps the fields real: among the modes of the arrays, the opposite of a mode which is not removed is not
removed. (The truncation of fluidfft is symmetric.) -/
theorem C91_real {p : Params (Fin 2)} (hL : ∀ d, 0 < p.L d) (hc : ∀ n k, k ∈ cubic2 n → -k ∈ cubic2 n) {o : Operator (Fin 2)}
    (ho : init2d cubic2 p = .ok o) {G S : Finset (Fin 2 → ℤ)} (hS : ∀ k, k ∈ S ↔ k ∈ G ∧ k ∉ o.removed) {u : Fld (Fin 2)}
    (hu : RealOn G u) : RealOn S u := by
  have hsym : ∀ k, -k ∈ o.removed → k ∈ o.removed := by
    intro k hk
    have e1 : ∀ δ : Fin 2 → ℝ, ∀ d, (δ d * ((-k) d : ℤ)) ^ 2 = (δ d * (k d : ℤ)) ^ 2 := by intro δ d; push_cast [Pi.neg_apply]; ring
    have e2 : ∀ δ : Fin 2 → ℝ, ∀ d, |δ d * ((-k) d : ℤ)| = |δ d * (k d : ℤ)| := by
      intro δ d; push_cast [Pi.neg_apply]; rw [mul_neg, abs_neg]
    rw [C91_removed_2d hL ho] at hk ⊢
    refine hk.imp ?_ (Or.imp (And.imp_right fun h => by simpa using h) (And.imp_right fun h => by simpa using h))
    refine Or.imp (And.imp_right fun h => by simpa using hc _ _ h) (Or.imp (And.imp_right fun h => ?_) (And.imp_right fun h => ?_))
    · simpa only [keptSpherical, e1] using h
    · simpa only [keptNoMultipleAliases, multipleAliases, e1, e2] using h
  intro k hk
  obtain ⟨h1, h2⟩ := (hS k).1 hk
  exact ⟨(hS _).2 ⟨(hu k h1).1, fun h => h2 (hsym k h)⟩, (hu k h1).2⟩

/-- C91: with the modes removed, the nonlinear terms of ns2d conserve the energy and the enstrophy, for the truncation "spherical" with
`coef_dealiasing <= 2/3` (x being the direction with the smallest largest wavenumber). -/
theorem C91_conservation_2d {p : Params (Fin 2)} (hL : ∀ d, 0 < p.L d) (hsh : p.shape = some "spherical") (hc0 : 0 ≤ p.coef)
    (hc : p.coef ≤ 2 / 3) {o : Operator (Fin 2)} (ho : init2d cubic2 p = .ok o) (hn : ∀ d, 0 < o.n d)
    (hiso : ∀ d, deltak p 0 * o.n 0 ≤ deltak p d * o.n d) {G S : Finset (Fin 2 → ℤ)} (hS : ∀ k, k ∈ S ↔ k ∈ G ∧ k ∉ o.removed)
    (beta : ℝ) {rot : Fld (Fin 2)} (hreal : RealOn G rot) :
    rate S rot (ns2d o.n S (deltak p) beta rot) = 0 ∧ rateEnergy2 S (deltak p) rot (ns2d o.n S (deltak p) beta rot) = 0 := by
  have hδ : ∀ d, 0 < deltak p d := fun d => by unfold deltak; exact div_pos (by positivity) (hL d)
  have hS' : ∀ k ∈ S, keptSpherical (deltak p) o.n 0 p.coef k := by
    intro k hk
    by_contra h
    exact ((hS k).1 hk).2 ((C91_removed_2d hL ho k).2 (.inl (.inr (.inl ⟨hsh, h⟩))))
  -- the shape is "spherical": the truncation of fluidfft is not used
  have hr : RealOn S rot := by
    have hkn := (C91_created_2d cubic2 p).1.1 ⟨o, ho⟩
    obtain ⟨o', ho'⟩ := (C91_created_2d (fun _ => ∅) p).1.2 hkn
    have hrem : ∀ k, k ∈ o'.removed ↔ k ∈ o.removed := by
      intro k
      have hn' : o'.n = o.n := by
        unfold init2d at ho ho'
        rw [if_neg (not_not.2 ((pyInt_eq_iff _).2 (hkn.1 0))), if_neg (not_not.2 ((pyInt_eq_iff _).2 (hkn.1 1)))] at ho ho'
        simp only [] at ho ho'
        split at ho
        · exact absurd ho (by simp)
        · split at ho'
          · exact absurd ho' (by simp)
          · rw [← Except.ok.inj ho, ← Except.ok.inj ho']
      rw [C91_removed_2d hL ho, C91_removed_2d hL ho', hn']
      simp [RemovedByShape, hsh]
    exact C91_real hL (by simp) ho' (fun k => by rw [hS, hrem]) hreal
  exact C38_default_truncation hn hδ hiso hc0 hc hS' beta rot hr

/-- C91 (finding): in 2D, when fluidfft has nothing to truncate (`_has_to_dealiase` is false), `NO_SHEAR_MODES` has no effect: the mean over x
of the state does not change. -/
theorem C91_not_applied_violated : ∃ (p : Params (Fin 2)) (o : Operator (Fin 2)), init2d (fun _ => ∅) p = .ok o ∧ p.noShear = some true ∧
    (∀ d, o.n d = 4) ∧ ∀ (k : ℕ) (j : Pt o.n),
      meanAlong 0 (gridVal o.n {0} (fields {0} (states .Euler (fun _ => 0) 0 (mask2d (V := Unit) false o {0}) (fun _ => 1) (fun _ => 1)
        (fun _ => 1) (fun _ => 0) 0 0 false 1 (fun _ => 1) k) ())) j = 1 := by
  have h4 : pyInt 4 = 4 := by simpa using pyInt_int 4
  set p : Params (Fin 2) := ⟨fun _ => 4, fun _ => 1, false, 1, none, some true, none⟩ with hp
  set o : Operator (Fin 2) := ⟨fun _ => 4, p, addNoKy0 p (addNoShear2d p ∅)⟩ with ho
  refine ⟨p, o, ?_, rfl, fun _ => rfl, fun k j => ?_⟩
  · unfold init2d
    rw [if_neg (by simp [hp, h4]), if_neg (by simp [hp, h4])]
    simp [h4, reinitTruncation, ho, hp]
  · have key : ∀ k, (simulation (ι := Unit × ({0} : Finset (Fin 2 → ℤ))) .Euler (fun _ => 0) 0 (mask2d false o {0}) (fun _ => 1) (fun _ => 1)
        (fun _ => 1) (fun _ => 0) 0 0 false 1 (fun _ => 1) k).heap .state = 1 ∧
        (simulation (ι := Unit × ({0} : Finset (Fin 2 → ℤ))) .Euler (fun _ => 0) 0 (mask2d false o {0}) (fun _ => 1) (fun _ => 1)
        (fun _ => 1) (fun _ => 0) 0 0 false 1 (fun _ => 1) k).coefs = ⟨0, 1, 1, 1, false⟩ := by
      intro k
      induction k with
      | zero =>
        refine ⟨by simp [simulation, Heap.set], ?_⟩
        simp only [simulation, Coefs.init, Coefs.compute, Bool.false_eq_true, if_false, Pi.zero_apply, mul_zero, Complex.exp_zero]
        rfl
      | succ k ih =>
        simp only [simulation, Schemes.oneStep, Coefs.get, ih.2]
        refine ⟨?_, rfl⟩
        funext i
        simp [Schemes.dealias, Heap.set, timeStepRK, euler, stepEuler, tendencies, ih.1, mask2d]
    simp only [states, (key k).1]
    simp [meanAlong, gridVal, fields, chi]

/-! ### the hypotheses can be satisfied -/

/-- 48 x 48 points, no shear modes, spherical truncation. -/
def pEx : Params (Fin 2) := ⟨fun _ => 48, fun _ => 2 * Real.pi, false, 2 / 3, some "spherical", some true, some false⟩

/-- The operator exists, has 48 x 48 points, removes the mode (0, 1) and keeps the mode (1, 0). -/
example : ∃ o, init2d (fun _ => ∅) pEx = .ok o ∧ (∀ d, o.n d = 48) ∧ ![0, 1] ∈ o.removed ∧ ![1, 0] ∉ o.removed ∧
    (∀ d, deltak pEx 0 * o.n 0 ≤ deltak pEx d * o.n d) := by
  have hI : Integers pEx := fun d => ⟨48, by simp [pEx]⟩
  obtain ⟨c1, -, -, c2⟩ := C91_created_2d (fun _ => ∅) pEx
  obtain ⟨o, ho⟩ := c1.2 ⟨hI, .inr (.inl rfl)⟩
  have hn : ∀ d, o.n d = 48 := fun d => by
    have := (c2 o ho).2.2 rfl d (by simp [pEx])
    have h2 : ((o.n d : ℕ) : ℚ) = (48 : ℕ) := by rw [this]; simp [pEx]
    exact_mod_cast h2
  have hL : ∀ d, 0 < pEx.L d := fun d => by simp only [pEx]; positivity
  have hδ : ∀ d, deltak pEx d = 1 := fun d => by
    simp only [deltak, pEx]; exact div_self (by positivity)
  refine ⟨o, ho, hn, (C91_removed_2d hL ho _).2 (.inr (.inl ⟨rfl, rfl⟩)), fun h => ?_, fun d => by simp [hδ, hn]⟩
  rw [C91_removed_2d hL ho] at h
  rcases h with h | h | h
  · simp only [RemovedByShape, pEx] at h
    rcases h with ⟨h, -⟩ | ⟨-, h⟩ | ⟨h, -⟩
    · simp at h
    · change ¬keptSpherical (deltak pEx) o.n 0 (2 / 3) _ at h
      apply h
      simp only [keptSpherical, Fin.sum_univ_two, hδ, hn]
      norm_num
    · simp at h
  · simp at h
  · simp [pEx] at h

end

end Verif.Oper
