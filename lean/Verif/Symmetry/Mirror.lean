import Verif.Symmetry.SpecMirror
import Verif.Symmetry.Lemmas
import Verif.Symmetry.Exact
import Verif.Symmetry.Units
import Mathlib.Tactic

/-! # C98: the tendencies and the symmetries of the box -/

set_option linter.unusedSectionVars false

namespace Verif.Symmetry

open Verif.Fourier Verif.Vectors Verif.Energy Verif.Galerkin Verif.Schemes Verif.EndToEnd Finset

noncomputable section

variable {D V : Type*} [Fintype D] [DecidableEq D]

theorem Sym.unitC (g : Sym D) (d : D) : (g.σ d : ℂ) * g.σ d = 1 := by exact_mod_cast g.unit d
theorem Sym.unitR (g : Sym D) (d : D) : (g.σ d : ℝ) * g.σ d = 1 := by exact_mod_cast g.unit d

theorem back_apply (g : Sym D) (k : D → ℤ) (d : D) : g.back k (g.π d) = g.σ d * k d := by simp [Sym.back]

theorem back_add (g : Sym D) (p q : D → ℤ) : g.back (p + q) = g.back p + g.back q := by
  funext d
  simp only [Sym.back, Pi.add_apply]
  ring

/-- The wavevectors. -/
def backEquiv (g : Sym D) : (D → ℤ) ≃ (D → ℤ) where
  toFun := g.back
  invFun k := fun d => g.σ d * k (g.π d)
  left_inv k := by
    funext d
    change g.σ d * g.back k (g.π d) = k d
    rw [back_apply, ← mul_assoc, g.unit, one_mul]
  right_inv k := by
    funext d
    obtain ⟨e, rfl⟩ := g.π.surjective d
    rw [back_apply, ← mul_assoc, g.unit, one_mul]

theorem back_inj (g : Sym D) {p q : D → ℤ} : g.back p = g.back q ↔ p = q := (backEquiv g).injective.eq_iff

theorem exact_image (g : Sym D) {S : Finset (D → ℤ)} (hS : ∀ k, g.back k ∈ S ↔ k ∈ S) (a b : ℂ) (u v : Fld D) (k : D → ℤ) :
    exactProduct S (fun p => a * u (g.back p)) (fun p => b * v (g.back p)) k = a * b * exactProduct S u v (g.back k) := by
  simp only [exactProduct, mul_sum]
  refine Finset.sum_equiv (backEquiv g) (fun p => (hS p).symm) fun p _ => ?_
  refine Finset.sum_equiv (backEquiv g) (fun q => (hS q).symm) fun q _ => ?_
  change _ = a * b * if g.back p + g.back q = g.back k then u (g.back p) * v (g.back q) else 0
  rw [← back_add]
  by_cases h : p + q = k
  · rw [if_pos h, if_pos (by rw [h])]; ring
  · rw [if_neg h, if_neg fun e => h ((back_inj g).1 e), mul_zero]

theorem exact_congr {S : Finset (D → ℤ)} {u u' v v' : Fld D} (hu : ∀ k ∈ S, u k = u' k) (hv : ∀ k ∈ S, v k = v' k) (k : D → ℤ) :
    exactProduct S u v k = exactProduct S u' v' k := by
  simp only [exactProduct]
  exact sum_congr rfl fun p hp => sum_congr rfl fun q hq => by rw [hu p hp, hv q hq]

theorem pd_image (g : Sym D) {δ : D → ℝ} (hδ : ∀ d, δ (g.π d) = δ d) (a : ℂ) (u : Fld D) (d : D) :
    pd δ d (fun p => a * u (g.back p)) = fun p => a * g.σ d * pd δ (g.π d) u (g.back p) := by
  funext p
  simp only [pd, back_apply, hδ]
  push_cast
  linear_combination (-Complex.I * δ d * p d * a * u (g.back p)) * g.unitC d

theorem advect_image (g : Sym D) {S : Finset (D → ℤ)} {δ : D → ℝ} (h : g.Fits S δ) (u : D → Fld D) (s : ℂ) (a : Fld D) (k : D → ℤ) :
    advect S δ (fun d p => (g.σ d : ℂ) * u (g.π d) (g.back p)) (fun p => s * a (g.back p)) k = s * advect S δ u a (g.back k) := by
  simp only [advect, mul_sum]
  rw [← Equiv.sum_comp g.π fun d => s * exactProduct S (u d) (pd δ d a) (g.back k)]
  refine sum_congr rfl fun d _ => ?_
  rw [pd_image g h.box, exact_image g h.modes]
  linear_combination (s * exactProduct S (u (g.π d)) (pd δ (g.π d) a) (g.back k)) * g.unitC d

theorem waveSq_image (g : Sym D) {δ : D → ℝ} (hδ : ∀ d, δ (g.π d) = δ d) (k : D → ℤ) : waveSq δ (g.back k) = waveSq δ k := by
  simp only [waveSq]
  rw [← Equiv.sum_comp g.π fun d => (δ d * (g.back k d : ℝ)) ^ 2]
  refine sum_congr rfl fun d _ => ?_
  rw [back_apply, hδ]
  push_cast
  linear_combination (δ d * k d) ^ 2 * g.unitR d

/-- The transformation as a map of the modes which are kept. -/
def symMap (g : Sym D) (S : Finset (D → ℤ)) (w : V → V) (a : V → ℤ) : Map V D V D :=
  ⟨fun v k => if k ∈ S then some (w v, g.back k) else none, fun v _ => a v⟩

theorem symMap_app (g : Sym D) (S : Finset (D → ℤ)) (w : V → V) (a : V → ℤ) (u : V → Fld D) (v : V) (k : D → ℤ) :
    (symMap g S w a).app u v k = if k ∈ S then g.image w a u v k else 0 := by
  simp only [Map.app, symMap]
  split <;> rfl

theorem symMap_within (g : Sym D) {S : Finset (D → ℤ)} (hS : ∀ k, g.back k ∈ S ↔ k ∈ S) (w : V → V) (a : V → ℤ) {u : V → Fld D}
    (hu : Within S u) : (symMap g S w a).app u = g.image w a u := by
  funext v k
  rw [symMap_app]
  split
  · rfl
  · rename_i h
    simp only [Sym.image]
    rw [hu _ _ fun hb => h ((hS k).1 hb), mul_zero]

/-- The state has no mode outside of the truncation. -/
theorem run_within {S G : Finset (D → ℤ)} {δ : D → ℝ} {nu : Dissip.Nu} {project : Arr (V × G) → Arr (V × G)} {tend : (V → Fld D) → V → Fld D}
    {c : Numerics D V} {F : ℕ → V → Fld D} {u0 : V → Fld D} (h0 : Within S u0) (k : ℕ) : Within S (run S G δ nu project tend c F u0 k) := by
  intro v q hq
  simp only [run, fields]
  split
  · cases k with
    | zero => simp only [stepping, set_same, array]; exact h0 v q hq
    | succ k => simp [stepping, oneStep3d, Schemes.dealias, set_same, truncated, hq]
  · rfl

theorem run_image (g : Sym D) {S G : Finset (D → ℤ)} (hSG : S ⊆ G) {δ : D → ℝ} (hg : g.Fits S δ) (w : V → V) (a : V → ℤ) {nu : Dissip.Nu}
    {P : (V → Fld D) → V → Fld D} (hP : ∀ u, P ((symMap g S w a).app u) = (symMap g S w a).app (P u))
    {project : Arr (V × G) → Arr (V × G)} (hp : project = onArrays G P)
    {tend : (V → Fld D) → V → Fld D} (ht : ∀ u v, ∀ k ∈ S, tend ((symMap g S w a).app u) v k = g.image w a (tend u) v k)
    (ht0 : ∀ u v, ∀ k ∉ S, tend u v k = 0) {c c' : Numerics D V} (hc : SymNumerics g c c') (hdt : ∀ k, c.dt k ≠ 0)
    {F : ℕ → V → Fld D} (hF : ∀ m, Within S (F m)) {u0 : V → Fld D} (hu0 : Within S u0) (k : ℕ) :
    run S G δ nu project tend c' (fun m => g.image w a (F m)) (g.image w a u0) k = g.image w a (run S G δ nu project tend c F u0 k) := by
  have key := run_map (symMap g S w a) (τ := 1) one_ne_zero (S := S) (S' := S) (G := G) (G' := G) (δ := δ) (δ' := δ) (nu := nu) (nu' := nu)
    (project := project) (project' := project) (P := P) (P' := P) (tend := tend) (tend' := tend) (c := c) (c' := c') (F := F)
    (F' := fun m => g.image w a (F m)) ?_ ?_ ?_ hP hp hp ?_ ?_ hdt ?_ u0 k
  · rwa [symMap_within g hg.modes w a hu0, symMap_within g hg.modes w a (run_within hu0 k)] at key
  · intro v q i hi
    simp only [symMap] at hi
    split at hi
    · rename_i hq
      cases hi
      exact ⟨fun _ => hSG ((hg.modes q).2 hq), fun _ => hSG hq⟩
    · cases hi
  · intro v q i hi
    simp only [symMap] at hi
    split at hi
    · cases hi
      exact (hg.modes q).symm
    · cases hi
  · intro v q i hi
    simp only [symMap] at hi
    split at hi
    · cases hi
      rw [waveSq_image g hg.box, one_mul]
    · cases hi
  · intro u v q
    rw [Complex.ofReal_one, one_mul, symMap_app]
    split
    · exact ht u v q ‹_›
    · exact ht0 _ v q ‹_›
  · refine ⟨hc.1, hc.2.1, by rw [hc.2.2.1]; simp, fun v q i hi j => ?_⟩
    simp only [symMap] at hi
    split at hi
    · cases hi
      exact hc.2.2.2 j q
    · cases hi
  · intro j v q
    rw [Complex.ofReal_one, one_mul, symMap_within g hg.modes w a (hF j)]

/-! ### Two dimensions -/

/-- The velocity. -/
def vel2 (δ : Fin 2 → ℝ) (rot : Fld (Fin 2)) : Fin 2 → Fld (Fin 2) := ![ux2 δ rot, uy2 δ rot]

theorem perm2 (π : Equiv.Perm (Fin 2)) : (π 0 = 0 ∧ π 1 = 1) ∨ (π 0 = 1 ∧ π 1 = 0) := by
  have h : π 0 ≠ π 1 := fun h => absurd (π.injective h) (by decide)
  generalize π 0 = a at *
  generalize π 1 = b at *
  fin_cases a <;> fin_cases b <;> simp_all

theorem vel2_image (g : Sym (Fin 2)) {δ : Fin 2 → ℝ} (hδ : ∀ d, δ (g.π d) = δ d) (rot : Fld (Fin 2)) (d : Fin 2) :
    vel2 δ (fun p => (det2 g : ℂ) * rot (g.back p)) d = fun p => (g.σ d : ℂ) * vel2 δ rot (g.π d) (g.back p) := by
  funext p
  have b0 := back_apply g p 0
  have b1 := back_apply g p 1
  have d0 := hδ 0
  have d1 := hδ 1
  have s0 := g.unitC 0
  have s1 := g.unitC 1
  have hk : Forcing.k2not0 (δ 0 * g.back p 0) (δ 1 * g.back p 1) = Forcing.k2not0 (δ 0 * p 0) (δ 1 * p 1) := by
    have : (δ 0 * (g.back p 0 : ℝ)) ^ 2 + (δ 1 * (g.back p 1 : ℝ)) ^ 2 = (δ 0 * p 0) ^ 2 + (δ 1 * p 1) ^ 2 := by
      have := waveSq_image g hδ p
      simpa [waveSq, Fin.sum_univ_two] using this
    simp only [Forcing.k2not0, this]
  rcases perm2 g.π with ⟨h0, h1⟩ | ⟨h0, h1⟩
  · rw [h0] at b0 d0; rw [h1] at b1 d1
    fin_cases d
    · simp only [vel2, det2, h0, if_true, Fin.zero_eta, Matrix.cons_val_zero, ux2, Forcing.vecFromRot, hk]
      generalize Forcing.k2not0 (δ 0 * (p 0 : ℝ)) (δ 1 * (p 1 : ℝ)) = K
      simp only [b1]
      push_cast
      ring
    · simp only [vel2, det2, h0, h1, if_true, Fin.mk_one, Matrix.cons_val_one, Matrix.cons_val_fin_one, uy2, Forcing.vecFromRot, hk]
      generalize Forcing.k2not0 (δ 0 * (p 0 : ℝ)) (δ 1 * (p 1 : ℝ)) = K
      simp only [b0]
      push_cast
      ring
  · rw [h0] at b0 d0; rw [h1] at b1 d1
    fin_cases d
    · simp only [vel2, det2, h0, one_ne_zero, if_false, Fin.zero_eta, Matrix.cons_val_zero, Matrix.cons_val_one, Matrix.cons_val_fin_one, ux2,
        uy2, Forcing.vecFromRot, hk]
      generalize Forcing.k2not0 (δ 0 * (p 0 : ℝ)) (δ 1 * (p 1 : ℝ)) = K
      simp only [b1, d1]
      push_cast
      ring
    · simp only [vel2, det2, h0, h1, one_ne_zero, if_false, Fin.mk_one, Matrix.cons_val_zero, Matrix.cons_val_one, Matrix.cons_val_fin_one, ux2,
        uy2, Forcing.vecFromRot, hk]
      generalize Forcing.k2not0 (δ 0 * (p 0 : ℝ)) (δ 1 * (p 1 : ℝ)) = K
      simp only [b0, d1]
      push_cast
      ring

theorem advect2 (S : Finset (Fin 2 → ℤ)) (δ : Fin 2 → ℝ) (rot a : Fld (Fin 2)) (k : Fin 2 → ℤ) :
    exactProduct S (ux2 δ rot) (pd δ 0 a) k + exactProduct S (uy2 δ rot) (pd δ 1 a) k = advect S δ (vel2 δ rot) a k := by
  simp [advect, Fin.sum_univ_two, vel2]

theorem advect_congr {S : Finset (D → ℤ)} {δ : D → ℝ} {u u' : D → Fld D} {a a' : Fld D} (hu : ∀ d, ∀ k ∈ S, u d k = u' d k)
    (ha : ∀ k ∈ S, a k = a' k) (k : D → ℤ) : advect S δ u a k = advect S δ u' a' k := by
  simp only [advect]
  refine sum_congr rfl fun d _ => exact_congr (hu d) (fun q hq => ?_) k
  simp only [pd, ha q hq]

theorem vel2_congr {S : Finset (Fin 2 → ℤ)} {δ : Fin 2 → ℝ} {u u' : Fld (Fin 2)} (hu : ∀ k ∈ S, u k = u' k) (d : Fin 2) :
    ∀ k ∈ S, vel2 δ u d k = vel2 δ u' d k := by
  intro k hk
  fin_cases d <;> simp [vel2, ux2, uy2, hu k hk]

theorem adv2_image (g : Sym (Fin 2)) {S : Finset (Fin 2 → ℤ)} {δ : Fin 2 → ℝ} (h : g.Fits S δ) {rot rot' : Fld (Fin 2)}
    (hr : ∀ k ∈ S, rot' k = (det2 g : ℂ) * rot (g.back k)) (s : ℂ) {a a' : Fld (Fin 2)} (ha : ∀ k ∈ S, a' k = s * a (g.back k)) (k : Fin 2 → ℤ) :
    advect S δ (vel2 δ rot') a' k = s * advect S δ (vel2 δ rot) a (g.back k) := by
  rw [← advect_image g h]
  refine advect_congr (fun d q hq => ?_) ha k
  rw [vel2_congr hr d q hq, vel2_image g h.box]

theorem uy2_image (g : Sym (Fin 2)) {S : Finset (Fin 2 → ℤ)} {δ : Fin 2 → ℝ} (h : g.Fits S δ) (h1 : g.π 1 = 1) {rot rot' : Fld (Fin 2)}
    (hr : ∀ k ∈ S, rot' k = (det2 g : ℂ) * rot (g.back k)) {k : Fin 2 → ℤ} (hk : k ∈ S) :
    uy2 δ rot' k = (g.σ 1 : ℂ) * uy2 δ rot (g.back k) := by
  have e1 := vel2_congr (δ := δ) hr 1 k hk
  rw [vel2_image g h.box, h1] at e1
  simpa [vel2] using e1

theorem tend2d_image {n : Fin 2 → ℕ} (hn : ∀ d, 0 < n d) {S : Finset (Fin 2 → ℤ)} (hS : NoAlias n S) (g : Sym (Fin 2)) {δ : Fin 2 → ℝ}
    (hg : g.Fits S δ) {beta : ℝ} (hb : beta = 0 ∨ (g.π 1 = 1 ∧ g.σ 0 = 1)) (u : Unit → Fld (Fin 2)) (v : Unit) (k : Fin 2 → ℤ) (hk : k ∈ S) :
    tend2d n S δ beta ((symMap g S id fun _ => det2 g).app u) v k = imageRot g (tend2d n S δ beta u) v k := by
  have hr : ∀ q ∈ S, (symMap g S id fun _ => det2 g).app u () q = (det2 g : ℂ) * u () (g.back q) := by
    intro q hq
    rw [symMap_app, if_pos hq]; rfl
  simp only [imageRot, Sym.image, tend2d, id]
  rw [ns2d_exact hn hS _ _ _ hk, ns2d_exact hn hS _ _ _ ((hg.modes k).2 hk), advect2, advect2, adv2_image g hg hr _ hr]
  rcases hb with rfl | ⟨h1, h0⟩
  · push_cast; ring
  · rw [uy2_image g hg h1 hr hk]
    have h00 : g.π 0 = 0 := by rcases perm2 g.π with h | h; exacts [h.1, absurd (h1.symm.trans h.2) (by decide)]
    simp only [det2, h0, h00, if_true]
    push_cast
    ring

theorem tendStrat_image {n : Fin 2 → ℕ} (hn : ∀ d, 0 < n d) {S : Finset (Fin 2 → ℤ)} (hS : NoAlias n S) (g : Sym (Fin 2)) {δ : Fin 2 → ℝ}
    (hg : g.Fits S δ) (h1 : g.π 1 = 1) (N : ℝ) (u : Fin 2 → Fld (Fin 2)) (v : Fin 2) (k : Fin 2 → ℤ) (hk : k ∈ S) :
    tendStrat n S δ N ((symMap g S id ![det2 g, g.σ 1]).app u) v k = imageRotB g (tendStrat n S δ N u) v k := by
  have hr : ∀ q ∈ S, (symMap g S id ![det2 g, g.σ 1]).app u 0 q = (det2 g : ℂ) * u 0 (g.back q) := by
    intro q hq
    rw [symMap_app, if_pos hq]; rfl
  have hb : ∀ q ∈ S, (symMap g S id ![det2 g, g.σ 1]).app u 1 q = (g.σ 1 : ℂ) * u 1 (g.back q) := by
    intro q hq
    rw [symMap_app, if_pos hq]; rfl
  have h00 : g.π 0 = 0 := by rcases perm2 g.π with h | h; exacts [h.1, absurd (h1.symm.trans h.2) (by decide)]
  have hk' := (hg.modes k).2 hk
  fin_cases v
  · simp only [imageRotB, Sym.image, tendStrat, id, Fin.zero_eta, if_true, Matrix.cons_val_zero]
    rw [(ns2dStrat_exact hn hS _ _ _ _ hk).1, (ns2dStrat_exact hn hS _ _ _ _ hk').1, advect2, advect2, adv2_image g hg hr _ hr]
    have e : pd δ 0 ((symMap g S id ![det2 g, g.σ 1]).app u 1) k = (det2 g : ℂ) * pd δ 0 (u 1) (g.back k) := by
      have := congrFun (pd_image g hg.box (g.σ 1 : ℂ) (u 1) 0) k
      rw [h00] at this
      rw [show pd δ 0 ((symMap g S id ![det2 g, g.σ 1]).app u 1) k = pd δ 0 (fun p => (g.σ 1 : ℂ) * u 1 (g.back p)) k by
        simp only [pd, hb k hk], this]
      simp only [det2, h00, if_true]
      push_cast
      ring
    rw [e]
    ring
  · simp only [imageRotB, Sym.image, tendStrat, id, Fin.mk_one, one_ne_zero, if_false, Matrix.cons_val_one, Matrix.cons_val_fin_one]
    rw [(ns2dStrat_exact hn hS _ _ _ _ hk).2, (ns2dStrat_exact hn hS _ _ _ _ hk').2, advect2, advect2, adv2_image g hg hr _ hb,
      uy2_image g hg h1 hr hk]
    ring

end

end Verif.Symmetry
