import Verif.Forcing.Spec
import Mathlib.Tactic.Ring
import Mathlib.Tactic.NormNum
import Mathlib.Tactic.Linarith
import Mathlib.Tactic.FieldSimp
import Mathlib.Tactic.Positivity
import Mathlib.Tactic.LinearCombination
import Mathlib.Algebra.BigOperators.Ring.Finset
import Mathlib.Algebra.Order.BigOperators.Group.Finset
import Mathlib.Algebra.BigOperators.Field
import Mathlib.Analysis.SpecialFunctions.Trigonometric.Bounds
import Mathlib.Analysis.Normed.Module.Basic

/-!
# Helper lemmas for the forcings
-/

namespace Verif.Forcing

set_option linter.unusedSectionVars false

variable {ι : Type} [Fintype ι]

theorem norm_add_sq_c (dt : ℝ) (v f : ℂ) :
    ‖v + dt * f‖ ^ 2 = ‖v‖ ^ 2 + 2 * dt * ((starRingEnd ℂ) v * f).re + dt ^ 2 * ‖f‖ ^ 2 := by
  simp only [Complex.sq_norm, Complex.normSq_apply, Complex.add_re, Complex.add_im, Complex.mul_re,
    Complex.mul_im, Complex.ofReal_re, Complex.ofReal_im, Complex.conj_re, Complex.conj_im]
  ring

theorem input_eq (w : ι → ℝ) {dt : ℝ} (hdt : dt ≠ 0) (v f : ι → ℂ) :
    energyInput w dt v f = coefB w v f + coefA w dt f := by
  have : quad w (fun i => v i + dt * f i) - quad w v = dt * (coefB w v f + coefA w dt f) := by
    simp only [quad, coefB, coefA, sumK, ← Finset.sum_sub_distrib, Finset.mul_sum,
      ← Finset.sum_add_distrib]
    refine Finset.sum_congr rfl fun i _ => ?_
    rw [norm_add_sq_c]
    ring
  rw [energyInput, this]
  field_simp

theorem coefA_scale (w : ι → ℝ) (dt c : ℝ) (f : ι → ℂ) :
    coefA w dt (scale c f) = c ^ 2 * coefA w dt f := by
  simp only [coefA, sumK, scale, norm_mul, Complex.norm_real, mul_pow, Real.norm_eq_abs, sq_abs,
    Finset.mul_sum]
  exact Finset.sum_congr rfl fun i _ => by ring

theorem coefB_scale (w : ι → ℝ) (c : ℝ) (v f : ι → ℂ) :
    coefB w v (scale c f) = c * coefB w v f := by
  simp only [coefB, sumK, scale, Finset.mul_sum]
  refine Finset.sum_congr rfl fun i _ => ?_
  rw [← mul_assoc, Complex.re_mul_ofReal]
  ring

theorem input_scale (w : ι → ℝ) {dt : ℝ} (hdt : dt ≠ 0) (c : ℝ) (v f : ι → ℂ) :
    energyInput w dt v (scale c f) = coefA w dt f * c ^ 2 + coefB w v f * c := by
  rw [input_eq w hdt, coefA_scale, coefB_scale]; ring

/-- Every coefficient returned is one of the two roots. -/
theorem coef_is_root {which : String} {r : ℝ × ℝ} {c : ℝ}
    (h : coefNormalization which (some r) = .ok c) : c = r.1 ∨ c = r.2 := by
  obtain ⟨r1, r2⟩ := r
  simp only [coefNormalization] at h
  repeat' split at h
  all_goals (cases h <;> first | exact Or.inl rfl | exact Or.inr rfl)

theorem normalize2nd_ok {which : String} {roots : Option (ℝ × ℝ)} {f g : ι → ℂ}
    (h : normalize2nd which roots f = .ok g) :
    ∃ c, coefNormalization which roots = .ok c ∧ g = scale c f := by
  simp only [normalize2nd] at h
  cases hc : coefNormalization which roots with
  | error e => rw [hc] at h; cases h
  | ok c => rw [hc] at h; cases h; exact ⟨c, rfl, rfl⟩

theorem roots_eq {a b c : ℝ} {r : ℝ × ℝ} (h : NpRoots a b c (some r)) (x : ℝ) :
    a * x ^ 2 + b * x + c = 0 ↔ x = r.1 ∨ x = r.2 := by
  obtain ⟨ha, h⟩ := h
  rw [h x]
  constructor
  · intro h0
    rcases mul_eq_zero.1 h0 with h1 | h1
    · rcases mul_eq_zero.1 h1 with h2 | h2
      · exact absurd h2 ha
      · left; linarith
    · right; linarith
  · rintro (rfl | rfl) <;> simp

/-! ### velocities -/

/-- Inverse of `k^2`, zero for the mean mode. -/
noncomputable def invk2 (kx ky : ℝ) : ℝ := if kx ^ 2 + ky ^ 2 = 0 then 0 else 1 / (kx ^ 2 + ky ^ 2)

theorem vec_inner (kx ky : ℝ) (r s : ℂ) :
    ((starRingEnd ℂ) (vecFromRot kx ky r).1 * (vecFromRot kx ky s).1).re +
      ((starRingEnd ℂ) (vecFromRot kx ky r).2 * (vecFromRot kx ky s).2).re =
    invk2 kx ky * ((starRingEnd ℂ) r * s).re := by
  by_cases h : kx ^ 2 + ky ^ 2 = 0
  · have hx : kx = 0 := by nlinarith [sq_nonneg kx, sq_nonneg ky]
    have hy : ky = 0 := by nlinarith [sq_nonneg kx, sq_nonneg ky]
    simp [vecFromRot, hx, hy, invk2]
  · have e1 : (vecFromRot kx ky r).1 = ((ky / (kx ^ 2 + ky ^ 2) : ℝ) : ℂ) * (Complex.I * r) := by
      simp only [vecFromRot, k2not0, if_neg h]; push_cast; ring
    have e2 : (vecFromRot kx ky r).2 = ((-kx / (kx ^ 2 + ky ^ 2) : ℝ) : ℂ) * (Complex.I * r) := by
      simp only [vecFromRot, k2not0, if_neg h]; push_cast; ring
    have e3 : (vecFromRot kx ky s).1 = ((ky / (kx ^ 2 + ky ^ 2) : ℝ) : ℂ) * (Complex.I * s) := by
      simp only [vecFromRot, k2not0, if_neg h]; push_cast; ring
    have e4 : (vecFromRot kx ky s).2 = ((-kx / (kx ^ 2 + ky ^ 2) : ℝ) : ℂ) * (Complex.I * s) := by
      simp only [vecFromRot, k2not0, if_neg h]; push_cast; ring
    rw [e1, e2, e3, e4, invk2, if_neg h]
    simp only [map_mul, Complex.conj_ofReal, Complex.conj_I, Complex.mul_re, Complex.mul_im,
      Complex.ofReal_re, Complex.ofReal_im, Complex.conj_re, Complex.conj_im, Complex.I_re,
      Complex.I_im, Complex.neg_re, Complex.neg_im]
    field_simp
    ring

theorem vec_norm (kx ky : ℝ) (r : ℂ) :
    ‖(vecFromRot kx ky r).1‖ ^ 2 + ‖(vecFromRot kx ky r).2‖ ^ 2 = invk2 kx ky * ‖r‖ ^ 2 := by
  have h := vec_inner kx ky r r
  have e : ∀ z : ℂ, ((starRingEnd ℂ) z * z).re = ‖z‖ ^ 2 := fun z => by
    rw [mul_comm, Complex.mul_conj, Complex.ofReal_re, Complex.sq_norm]
  simpa only [e] using h

theorem energyK_eq (w kx ky : ι → ℝ) (rot : ι → ℂ) :
    energyK w kx ky rot = ∑ i, w i * (invk2 (kx i) (ky i) * ‖rot i‖ ^ 2) / 2 := by
  refine Finset.sum_congr rfl fun i _ => ?_
  simp only [invk2]
  split <;> ring

/-- Change of the kinetic energy by a step. -/
theorem energyK_step (w kx ky : ι → ℝ) (dt : ℝ) (v f : ι → ℂ) :
    energyK w kx ky (fun i => v i + dt * f i) - energyK w kx ky v =
      dt * (sumK w (fun i => invk2 (kx i) (ky i) * ((starRingEnd ℂ) (v i) * f i).re) +
        dt / 2 * sumK w (fun i => invk2 (kx i) (ky i) * ‖f i‖ ^ 2)) := by
  simp only [energyK_eq, sumK, ← Finset.sum_sub_distrib, Finset.mul_sum, ← Finset.sum_add_distrib]
  refine Finset.sum_congr rfl fun i _ => ?_
  rw [norm_add_sq_c]
  ring

theorem energyA_step (w : ι → ℝ) (N dt : ℝ) (v f : ι → ℂ) :
    energyA w N (fun i => v i + dt * f i) - energyA w N v =
      dt * (sumK w (fun i => ((starRingEnd ℂ) (v i) * f i).re) / N ^ 2 +
        dt / 2 * sumK w (fun i => ‖f i‖ ^ 2) / N ^ 2) := by
  simp only [energyA, sumK, ← Finset.sum_sub_distrib, Finset.mul_sum, Finset.sum_div,
    ← Finset.sum_add_distrib]
  refine Finset.sum_congr rfl fun i _ => ?_
  rw [norm_add_sq_c]
  ring

/-! ### the modes of ns2d.strat -/

theorem rotbFromAp_zero (N ky : ℝ) (f : ℂ) : rotbFromAp N 0 ky f = (0, 0) := by
  simp [rotbFromAp, rotFromVec]

theorem rotbFromAp_ne {N kx ky : ℝ} (hx : kx ≠ 0) (f : ℂ) :
    rotbFromAp N kx ky f =
      (Complex.I * (((kx ^ 2 + ky ^ 2) / kx * (1 / (2 * N ^ 2)) : ℝ) : ℂ) * f,
        -Complex.I * ((1 / (2 * (N * kx / √(kx ^ 2 + ky ^ 2))) : ℝ) : ℂ) * f) := by
  have hk : kx ^ 2 + ky ^ 2 ≠ 0 := by positivity
  have hx' : (kx : ℂ) ≠ 0 := by exact_mod_cast hx
  simp only [rotbFromAp, rotFromVec, if_pos hx, k2not0, if_neg hk, Prod.mk.injEq]
  constructor
  · push_cast
    field_simp
    ring
  · rw [one_div, mul_inv, mul_inv, Complex.inv_I]
    push_cast
    ring

theorem rotbFromAp_scale (N kx ky c : ℝ) (f : ℂ) :
    rotbFromAp N kx ky (f * c) = ((rotbFromAp N kx ky f).1 * c, (rotbFromAp N kx ky f).2 * c) := by
  by_cases hx : kx = 0
  · subst hx; simp [rotbFromAp_zero]
  · rw [rotbFromAp_ne hx, rotbFromAp_ne hx, Prod.mk.injEq]; constructor <;> ring

/-- The energy input by a forcing of the mode `ap` does not depend on the mode `am`: it can be
computed with the part `ap` of the state. -/
theorem ap_inner {N : ℝ} (hN : N ≠ 0) (kx ky : ℝ) (rot b f : ℂ) :
    invk2 kx ky * ((starRingEnd ℂ) (rotbFromAp N kx ky (apFrom N kx ky rot b)).1 *
        (rotbFromAp N kx ky f).1).re +
      ((starRingEnd ℂ) (rotbFromAp N kx ky (apFrom N kx ky rot b)).2 *
        (rotbFromAp N kx ky f).2).re / N ^ 2 =
    invk2 kx ky * ((starRingEnd ℂ) rot * (rotbFromAp N kx ky f).1).re +
      ((starRingEnd ℂ) b * (rotbFromAp N kx ky f).2).re / N ^ 2 := by
  by_cases hx : kx = 0
  · subst hx; simp [rotbFromAp_zero]
  have hk : kx ^ 2 + ky ^ 2 ≠ 0 := by positivity
  have hkp : 0 < kx ^ 2 + ky ^ 2 := by positivity
  set K := kx ^ 2 + ky ^ 2 with hK
  have hs : √K ^ 2 = K := Real.sq_sqrt hkp.le
  have hs0 : √K ≠ 0 := by positivity
  have hap : apFrom N kx ky rot b =
      -Complex.I * ((N ^ 2 * kx / K : ℝ) : ℂ) * rot + Complex.I * ((N * kx / √K : ℝ) : ℂ) * b := by
    simp only [apFrom, vecFromRot, k2not0, ← hK, if_neg hk]; push_cast; ring
  rw [rotbFromAp_ne hx, rotbFromAp_ne hx, hap, invk2, ← hK, if_neg hk]
  simp only [map_mul, map_add, map_neg, Complex.conj_ofReal, Complex.conj_I, Complex.mul_re,
    Complex.mul_im, Complex.ofReal_re, Complex.ofReal_im, Complex.conj_re, Complex.conj_im,
    Complex.I_re, Complex.I_im, Complex.neg_re, Complex.neg_im, Complex.add_re, Complex.add_im]
  generalize √K = q at hs hs0 ⊢
  rw [← hs]
  field_simp
  ring

/-! ### projection on real fields -/

/-- Opposite row. -/
def negRow (n y : ℕ) : ℕ := (n - y) % n

theorem negRow_lt {n y : ℕ} (hy : y < n) : negRow n y < n := Nat.mod_lt _ (by omega)

theorem negRow_zero (n : ℕ) : negRow n 0 = 0 := by simp [negRow]

theorem negRow_pos {n y : ℕ} (h0 : 0 < y) (hy : y < n) : negRow n y = n - y :=
  Nat.mod_eq_of_lt (by omega)

theorem negRow_negRow {n y : ℕ} (hy : y < n) : negRow n (negRow n y) = y := by
  rcases Nat.eq_zero_or_pos y with rfl | h0
  · rw [negRow_zero, negRow_zero]
  · rw [negRow_pos h0 hy, negRow_pos (by omega) (by omega)]; omega

theorem sum_negRow {n : ℕ} (g : ℕ → ℝ) :
    ∑ y ∈ Finset.range n, g (negRow n y) = ∑ y ∈ Finset.range n, g y := by
  refine Finset.sum_nbij' (negRow n) (negRow n) ?_ ?_ ?_ ?_ ?_
  · intro y hy; exact Finset.mem_range.2 (negRow_lt (Finset.mem_range.1 hy))
  · intro y hy; exact Finset.mem_range.2 (negRow_lt (Finset.mem_range.1 hy))
  · intro y hy; exact negRow_negRow (Finset.mem_range.1 hy)
  · intro y hy; exact negRow_negRow (Finset.mem_range.1 hy)
  · intro y _; rfl

/-- With an even number of rows the code averages every value of the two columns with the conjugate
of the opposite one. -/
theorem projRealX_eq {n nkx : ℕ} (hn : Even n) (h0 : 0 < n) (f : ℕ → ℕ → ℂ) {y x : ℕ} (hy : y < n)
    (hx : x = 0 ∨ x = nkx - 1) :
    projRealX n nkx f y x = (f y x + (starRingEnd ℂ) (f (negRow n y) x)) / 2 := by
  obtain ⟨m, rfl⟩ := hn
  have hre : ∀ z : ℂ, ((z.re : ℝ) : ℂ) = (z + (starRingEnd ℂ) z) / 2 := fun z => by
    rw [Complex.add_conj]; push_cast; ring
  have hm : (m + m) / 2 = m := by omega
  simp only [projRealX, if_pos hx, hm]
  split
  · rename_i h
    rcases h with rfl | rfl
    · rw [negRow_zero, hre]
    · rw [negRow_pos (by omega) hy, Nat.add_sub_cancel, hre]
  · rename_i h
    rw [negRow_pos (by omega) hy]
    split
    · rfl
    · rw [if_pos (by omega)]
      rw [map_div₀, map_add, Complex.conj_conj, add_comm, map_ofNat]

theorem projRealX_other {n nkx : ℕ} (f : ℕ → ℕ → ℂ) {y x : ℕ} (hx : ¬ (x = 0 ∨ x = nkx - 1)) :
    projRealX n nkx f y x = f y x := by simp only [projRealX, if_neg hx]

theorem realField_neg {n nkx : ℕ} {v : ℕ → ℕ → ℂ} (hv : RealField n nkx v) {y x : ℕ} (hy : y < n)
    (hx : x = 0 ∨ x = nkx - 1) : v (negRow n y) x = (starRingEnd ℂ) (v y x) := by
  rcases Nat.eq_zero_or_pos y with rfl | h0
  · rw [negRow_zero]
    exact (Complex.conj_eq_iff_im.2 (hv x hx).1).symm
  · rw [negRow_pos h0 hy]; exact (hv x hx).2 y h0 hy

/-- The projection does not change the scalar product with a real field. -/
theorem proj_inner {n nkx : ℕ} (hn : Even n) (h0 : 0 < n) (w : ℕ → ℝ) {v : ℕ → ℕ → ℂ}
    (hv : RealField n nkx v) (f : ℕ → ℕ → ℂ) :
    sumXY w n nkx (fun y x => ((starRingEnd ℂ) (projRealX n nkx f y x) * v y x).re) =
      sumXY w n nkx (fun y x => ((starRingEnd ℂ) (f y x) * v y x).re) := by
  refine Finset.sum_congr rfl fun x _ => ?_
  by_cases hx : x = 0 ∨ x = nkx - 1
  · have e : ∀ y ∈ Finset.range n,
        w x * ((starRingEnd ℂ) (projRealX n nkx f y x) * v y x).re =
          w x * ((starRingEnd ℂ) (f y x) * v y x).re / 2 +
          w x * ((starRingEnd ℂ) (f (negRow n y) x) * v (negRow n y) x).re / 2 := by
      intro y hy
      have hy := Finset.mem_range.1 hy
      rw [projRealX_eq hn h0 f hy hx, realField_neg hv hy hx]
      simp only [map_div₀, map_add, Complex.conj_conj, map_ofNat]
      have : ((starRingEnd ℂ) (f y x) + f (negRow n y) x) / 2 =
          ((1 / 2 : ℝ) : ℂ) * ((starRingEnd ℂ) (f y x) + f (negRow n y) x) := by
        push_cast; ring
      rw [this]
      simp only [Complex.mul_re, Complex.mul_im, Complex.add_re, Complex.add_im, Complex.ofReal_re,
        Complex.ofReal_im, Complex.conj_re, Complex.conj_im]
      ring
    rw [Finset.sum_congr rfl e, Finset.sum_add_distrib,
      sum_negRow (fun y => w x * ((starRingEnd ℂ) (f y x) * v y x).re / 2),
      ← Finset.sum_add_distrib]
    exact Finset.sum_congr rfl fun y _ => by ring
  · exact Finset.sum_congr rfl fun y _ => by simp only [projRealX_other f hx]

theorem inputXY_eq (w : ℕ → ℝ) (n nkx : ℕ) {dt : ℝ} (hdt : dt ≠ 0) (v f : ℕ → ℕ → ℂ) :
    energyInputXY w n nkx dt v f =
      sumXY w n nkx (fun y x => ((starRingEnd ℂ) (f y x) * v y x).re) +
        sumXY w n nkx (fun y x => ‖f y x‖ ^ 2) * dt / 2 := by
  have : quadXY w n nkx (fun y x => v y x + dt * f y x) - quadXY w n nkx v =
      dt * (sumXY w n nkx (fun y x => ((starRingEnd ℂ) (f y x) * v y x).re) +
        sumXY w n nkx (fun y x => ‖f y x‖ ^ 2) * dt / 2) := by
    simp only [quadXY, sumXY, ← Finset.sum_sub_distrib, Finset.mul_sum, Finset.sum_mul,
      Finset.sum_div, ← Finset.sum_add_distrib]
    refine Finset.sum_congr rfl fun x _ => Finset.sum_congr rfl fun y _ => ?_
    rw [norm_add_sq_c]
    have : ((starRingEnd ℂ) (f y x) * v y x).re = ((starRingEnd ℂ) (v y x) * f y x).re := by
      simp only [Complex.mul_re, Complex.conj_re, Complex.conj_im]; ring
    rw [this]
    ring
  rw [energyInputXY, this]
  field_simp

/-- Changing one entry changes a sum by the weighted difference. -/
theorem sumXY_set (w : ℕ → ℝ) {n nkx iy ix : ℕ} (hy : iy < n) (hx : ix < nkx) (g h : ℕ → ℕ → ℝ)
    (hgh : ∀ y x, ¬ (y = iy ∧ x = ix) → g y x = h y x) :
    sumXY w n nkx g = sumXY w n nkx h + w ix * (g iy ix - h iy ix) := by
  have e : sumXY w n nkx g - sumXY w n nkx h = w ix * (g iy ix - h iy ix) := by
    simp only [sumXY, ← Finset.sum_sub_distrib]
    rw [Finset.sum_eq_single ix]
    · rw [Finset.sum_eq_single iy]
      · ring
      · intro y _ hne; rw [hgh y ix (by tauto)]; ring
      · intro h'; exact absurd (Finset.mem_range.2 hy) h'
    · intro x _ hne
      exact Finset.sum_eq_zero fun y _ => by rw [hgh y x (by tauto)]; ring
    · intro h'; exact absurd (Finset.mem_range.2 hx) h'
  linarith

/-! ### time-correlated forcing -/

variable {G F : Type}

/-- The attributes correspond to the seeds, the generator is just after the second field, and the
file holds the seeds. -/
def Consistent (r : Rng G F) (s : Tcr G F) : Prop :=
  s.f0 = (r.raw (r.seed s.seed0)).1 ∧ s.f1 = (r.raw (r.seed s.seed1)).1 ∧
    s.g = (r.raw (r.seed s.seed1)).2 ∧ s.file = .written s.tlc s.seed0 s.seed1

theorem consistent_init (r : Rng G F) {file : StateFile} {t : ℝ} {g : G} {s : Tcr G F}
    (h : tcrInit r true file t g = .ok s) : Consistent r s := by
  cases file with
  | empty => cases h
  | written a b c => cases h; exact ⟨rfl, rfl, rfl, rfl⟩
  | missing => cases h; exact ⟨rfl, rfl, rfl, rfl⟩

theorem consistent_change (r : Rng G F) (period t : ℝ) {s : Tcr G F} (h : Consistent r s) :
    Consistent r (tcrChange r true period t s) := by
  simp only [tcrChange]
  split
  · exact ⟨h.2.1, rfl, rfl, rfl⟩
  · exact h

theorem consistent_reinit (r : Rng G F) {s : Tcr G F} (h : Consistent r s) (t : ℝ) (g : G) :
    tcrInit r true s.file t g = .ok s := by
  obtain ⟨h0, h1, h2, h3⟩ := h
  rw [h3]
  simp only [tcrInit]
  congr 1
  cases s
  simp_all

variable [AddCommGroup F] [Module ℝ F]

theorem consistent_run (r : Rng G F) (period : ℝ) : ∀ (ts : List ℝ) {s : Tcr G F},
    Consistent r s → Consistent r (tcrRun r true period ts s).1
  | [], _, h => h
  | _ :: ts, _, h => consistent_run r period ts (consistent_change r period _ h)

theorem tcrRun_append (r : Rng G F) (b : Bool) (period : ℝ) : ∀ (ts us : List ℝ) (s : Tcr G F),
    tcrRun r b period (ts ++ us) s =
      ((tcrRun r b period us (tcrRun r b period ts s).1).1,
        (tcrRun r b period ts s).2 ++ (tcrRun r b period us (tcrRun r b period ts s).1).2)
  | [], _, _ => rfl
  | t :: ts, us, s => by
    simp only [List.cons_append, tcrRun, tcrRun_append r b period ts us]

/-- Only the time, the seeds and the fields matter until the next change. -/
theorem tcrRun_nochange (r : Rng G F) (b : Bool) (period : ℝ) : ∀ (ts : List ℝ) (s : Tcr G F),
    (∀ t ∈ ts, t - s.tlc < period) →
      tcrRun r b period ts s = (s, ts.map fun t => fromF0F1 period t s.tlc s.f0 s.f1)
  | [], _, _ => rfl
  | t :: ts, s, h => by
    have ht : ¬ (t - s.tlc ≥ period) := not_le.2 (h t List.mem_cons_self)
    have e : tcrEach r b period t s = (s, fromF0F1 period t s.tlc s.f0 s.f1) := by
      simp only [tcrEach, tcrChange, if_neg ht]
    simp only [tcrRun, e, tcrRun_nochange r b period ts s
      (fun u hu => h u (List.mem_cons_of_mem _ hu)), List.map_cons]

end Verif.Forcing
