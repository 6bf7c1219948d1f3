import Verif.Spectra.Spec
import Verif.MeansFile.PropsTimes
import Mathlib.Tactic.Ring
import Mathlib.Tactic.Linarith
import Mathlib.Tactic.Positivity
import Mathlib.Tactic.FieldSimp
import Mathlib.Algebra.Order.BigOperators.Ring.Finset
import Mathlib.Algebra.BigOperators.Field
import Mathlib.Algebra.BigOperators.Fin

/-!
# C61: the values of the spectra of the 3D solvers
-/

namespace Verif.Spectra

set_option linter.unusedSectionVars false

open Verif.Vectors Verif.PhysFiles

/-! ## Means over time -/

section means

variable {Q : Type*} [Field Q] [LinearOrder Q] [IsStrictOrderedRing Q]

/-- C61: without bounds, the mean is over all the records. -/
theorem C61_mean_all {A : Type*} (times : List Q) (vals : List A) (hne : vals ≠ [])
    (hl : vals.length = times.length) : slice times vals none none = vals := by
  have : times.length - 1 + 1 = vals.length := by
    have : vals.length ≠ 0 := by simpa using hne
    omega
  simp [slice, this]

example : slice ([0, 1, 2] : List ℚ) ['a', 'b', 'c'] none none = ['a', 'b', 'c'] := by
  decide +kernel

/-- C61: with bounds and increasing times, the mean is over consecutive records, from one that is
closest to `tmin` to one that is closest to `tmax`; all the records between `tmin` and `tmax` are
used, and of the others at most the first and the last. -/
theorem C61_mean_bounds [FloorRing Q] {A : Type*} (times : List Q) (vals : List A) (tmin tmax : Q)
    (hne : times ≠ []) (hinc : times.Pairwise (· < ·)) :
    ∃ a b, IsClosest times tmin a ∧ IsClosest times tmax b ∧
      slice times vals (some tmin) (some tmax) = (vals.take (b + 1)).drop a ∧
      (∀ (i : ℕ) (t : Q), times[i]? = some t → tmin ≤ t → t ≤ tmax → a ≤ i ∧ i ≤ b) ∧
      ∀ (i : ℕ) (t : Q), times[i]? = some t → a < i → i < b → tmin < t ∧ t < tmax := by
  have h := Verif.MeansFile.C60_time_means_partial times vals tmin tmax hne hinc
  exact h

/-- C61: a relation `f = g + h` that holds for each record holds for the means. -/
theorem C61_mean_additive {A B : Type*} (times : List Q) (recs : List A) (tmin tmax : Option Q)
    (f g h : A → B → Q) (hf : ∀ a ∈ recs, ∀ b, f a b = g a b + h a b) (F G H : B → Q)
    (eF : mean (slice times (recs.map f) tmin tmax) = some F)
    (eG : mean (slice times (recs.map g) tmin tmax) = some G)
    (eH : mean (slice times (recs.map h) tmin tmax) = some H) (b : B) : F b = G b + H b := by
  have hm : ∀ (u : A → B → Q), ∃ l : List A, (∀ a ∈ l, a ∈ recs) ∧
      l = slice times recs tmin tmax ∧ slice times (recs.map u) tmin tmax = l.map u := by
    intro u
    refine ⟨slice times recs tmin tmax, fun a ha => ?_, rfl, ?_⟩
    · exact List.mem_of_mem_take (List.mem_of_mem_drop ha)
    · simp [slice, List.map_take, List.map_drop]
  have hval : ∀ (u : A → B → Q) (U : B → Q), mean (slice times (recs.map u) tmin tmax) = some U →
      U b = ((slice times recs tmin tmax).map fun a => u a b).sum /
        (slice times recs tmin tmax).length := by
    intro u U eU
    obtain ⟨l, -, rfl, e⟩ := hm u
    rw [e] at eU
    cases hl : slice times recs tmin tmax with
    | nil => rw [hl] at eU; simp [mean] at eU
    | cons x xs =>
      rw [hl] at eU
      simp only [mean, List.map_cons, Option.some.injEq] at eU
      rw [← eU]; simp [Function.comp_def]
  rw [hval f F eF, hval g G eG, hval h H eH, ← add_div]
  congr 1
  have hmem : ∀ a ∈ slice times recs tmin tmax, a ∈ recs := fun a ha =>
    List.mem_of_mem_take (List.mem_of_mem_drop ha)
  generalize slice times recs tmin tmax = l at hmem
  induction l with
  | nil => simp
  | cons x xs ih =>
    simp only [List.map_cons, List.sum_cons]
    rw [ih fun a ha => hmem a (List.mem_cons_of_mem _ ha),
      hf x (hmem x (List.mem_cons_self ..)) b]
    ring

example : (mean (slice ([0, 1, 2] : List ℚ) (([1, 2, 6] : List ℚ).map fun x (_ : Unit) => x)
    (some (3/4)) none)).map (fun F => F ()) = some 4 := by decide +kernel

/-- C61 is violated when the times of the file are not increasing (restart from an earlier time):
the mean between two times can be over no record (`nan`), or over records out of the bounds. -/
theorem C61_mean_restart_violated :
    slice ([0, 1, 2, 3, 1, 2] : List ℚ) [0, 1, 2, 3, 1, 2] (some 2) (some (3 : ℚ)) = [2, 3] ∧
    slice ([0, 1, 2, 3, (3/2), (5/2)] : List ℚ) [0, 1, 2, 3, 3/2, 5/2] (some (3 : ℚ))
      (some 4) = ([3] : List ℚ) ∧
    slice ([0, 4, 8, 2, 5] : List ℚ) [0, 4, 8, 2, 5] (some 4) (some 5) = ([4, 8, 2, 5] : List ℚ) ∧
    slice ([0, 4, 8, 2, 5] : List ℚ) [0, 4, 8, 2, 5] (some 2) (some 4) = ([] : List ℚ) := by
  decide +kernel

end means

/-! ## Relations between the spectra -/

noncomputable section

/-- The energy of a mode. -/
def modeEnergy (v : V3) : ℝ := (‖v.x‖ ^ 2 + ‖v.y‖ ^ 2 + ‖v.z‖ ^ 2) / 2

theorem norm_sq_re_im (z : ℂ) : ‖z‖ ^ 2 = z.re ^ 2 + z.im ^ 2 := by
  rw [← Complex.normSq_eq_norm_sq, Complex.normSq_apply]; ring

/-- For each mode, the horizontal energy is the sum of its rotational and divergent parts. -/
theorem horizontal_energy (N : ℝ) (k : K3) (v : V3) (b : ℂ) :
    (modeEnergies N k v b).vx + (modeEnergies N k v b).vy =
      (modeEnergies N k v b).Khr + (modeEnergies N k v b).Khd := by
  simp only [modeEnergies, urud, norm_sq_re_im]
  by_cases h : kh2 k = 0
  · have hx : k.x = 0 := by unfold kh2 at h; nlinarith [sq_nonneg k.x, sq_nonneg k.y]
    have hy : k.y = 0 := by unfold kh2 at h; nlinarith [sq_nonneg k.x, sq_nonneg k.y]
    simp [hx, hy]; ring
  · have hn : nozero (kh2 k) = kh2 k := by simp [nozero, h]
    rw [hn]
    have hi : (k.x ^ 2 + k.y ^ 2) * (1 / kh2 k) = 1 := by
      rw [mul_one_div]; exact div_self h
    generalize (1 / kh2 k) = q at hi
    simp only [Complex.sub_re, Complex.sub_im, Complex.mul_re, Complex.mul_im, Complex.add_re,
      Complex.add_im, Complex.ofReal_re, Complex.ofReal_im, mul_zero, zero_mul, sub_zero, add_zero,
      zero_add]
    linear_combination (-(k.x * v.x.re + k.y * v.y.re) ^ 2 * q -
      (k.x * v.x.im + k.y * v.y.im) ^ 2 * q) * hi

/-- C61: at every instant and in every bin, `E` is the sum of the spectra of the three components
and also of the rotational, divergent and vertical ones; all the spectra are non-negative; the sum
of `E` times the width of the bins is the kinetic energy; `K` of the (kz, kh) spectra is the sum of
the other three. For any mode-to-bin function that satisfies fluidfft's contract `IsSpectrum`. -/
theorem C61_spectra_relations {M B : Type*} [Fintype M] [Fintype B] (dk : ℝ) (mult : M → ℝ)
    (sp : (M → ℝ) → B → ℝ) (hsp : IsSpectrum dk mult sp) (N : ℝ) (k : M → K3) (v : M → V3)
    (buoy : M → ℂ) :
    let e := fun m => modeEnergies N (k m) (v m) (buoy m)
    let s := compute sp e
    (∀ b, s.E b = s.vx b + s.vy b + s.vz b) ∧
    (∀ b, s.E b = s.Khr b + s.Khd b + s.vz b) ∧
    (∀ b, kzkhK sp e b = s.Khr b + s.Khd b + s.vz b) ∧
    (∀ b, 0 ≤ s.vx b ∧ 0 ≤ s.vy b ∧ 0 ≤ s.vz b ∧ 0 ≤ s.A b ∧ 0 ≤ s.Khr b ∧ 0 ≤ s.Khd b) ∧
    (∑ b, s.E b * dk = ∑ m, mult m * modeEnergy (v m)) ∧
    ∑ b, s.A b * dk = ∑ m, mult m * (‖buoy m‖ ^ 2 / N ^ 2 / 2) := by
  obtain ⟨w, hw, hs, hl⟩ := hsp.weights
  intro e s
  have hadd : ∀ (f g : M → ℝ) b, sp (fun m => f m + g m) b = sp f b + sp g b := by
    intro f g b
    simp only [hl, mul_add, Finset.sum_add_distrib]
  have hnn : ∀ (f : M → ℝ), (∀ m, 0 ≤ f m) → ∀ b, 0 ≤ sp f b := by
    intro f hf b
    rw [hl]; exact Finset.sum_nonneg fun m _ => mul_nonneg (hw m b) (hf m)
  have htot : ∀ (f : M → ℝ), ∑ b, sp f b * dk = ∑ m, mult m * f m := by
    intro f
    simp only [hl, Finset.sum_mul]
    rw [Finset.sum_comm]
    refine Finset.sum_congr rfl fun m _ => ?_
    rw [← hs m, Finset.sum_mul]
    exact Finset.sum_congr rfl fun b _ => by ring
  have hK : ∀ b, sp (fun m => (e m).vx) b + sp (fun m => (e m).vy) b =
      sp (fun m => (e m).Khr) b + sp (fun m => (e m).Khd) b := by
    intro b
    rw [← hadd, ← hadd]
    congr 1; funext m
    exact horizontal_energy N (k m) (v m) (buoy m)
  refine ⟨fun b => rfl, fun b => ?_, fun b => ?_, fun b => ⟨?_, ?_, ?_, ?_, ?_, ?_⟩, ?_, ?_⟩
  · show sp _ b + sp _ b + sp _ b = sp _ b + sp _ b + sp _ b
    rw [hK]
  · show sp _ b = sp _ b + sp _ b + sp _ b
    rw [← hK, ← hadd, ← hadd]
  · exact hnn _ (fun m => by simp only [e, modeEnergies]; positivity) b
  · exact hnn _ (fun m => by simp only [e, modeEnergies]; positivity) b
  · exact hnn _ (fun m => by simp only [e, modeEnergies]; positivity) b
  · exact hnn _ (fun m => by simp only [e, modeEnergies]; positivity) b
  · exact hnn _ (fun m => by simp only [e, modeEnergies]; positivity) b
  · exact hnn _ (fun m => by simp only [e, modeEnergies]; positivity) b
  · have : ∀ b, s.E b = sp (fun m => (e m).vx + (e m).vy + (e m).vz) b := by
      intro b; rw [hadd, hadd]; rfl
    simp only [this]
    rw [htot]
    refine Finset.sum_congr rfl fun m _ => ?_
    simp only [e, modeEnergies, modeEnergy]; ring
  · show ∑ b, sp _ b * dk = _
    rw [htot]
    refine Finset.sum_congr rfl fun m _ => ?_
    simp only [e, modeEnergies]; ring

/-- A binning with the properties of the contract: three modes, two bins of width `1/2`, the last
mode being shared. -/
example : IsSpectrum (M := Fin 3) (B := Fin 2) (1 / 2) (fun m => if m = 0 then 1 else 2)
    (fun f b => if b = 0 then 2 * f 0 + 4 * f 1 + f 2 else 3 * f 2) := by
  refine ⟨⟨fun m b => if b = 0 then ![2, 4, 1] m else ![0, 0, 3] m, ?_, ?_, ?_⟩⟩
  · intro m b; fin_cases m <;> fin_cases b <;> simp
  · intro m; fin_cases m <;> simp [Fin.sum_univ_two] <;> norm_num
  · intro f b; fin_cases b <;> simp [Fin.sum_univ_three]

/-! ## Isotropy and length scales -/

/-- C61: the isotropy coefficient is between 0 and 3. It is 1 exactly when the vertical energy is
the mean of the two horizontal ones (those of the modes `kz = 0` being left out), 3 when there is no
horizontal energy, 0 when there is no vertical one. It does not depend on the unit of energy. -/
theorem C61_isotropy {n : ℕ} (dk : ℝ) (hdk : 0 < dk) (sx sy sz : Fin (n + 1) → ℝ)
    (hx : ∀ i, 0 ≤ sx i) (hy : ∀ i, 0 ≤ sy i) (hz : ∀ i, 0 ≤ sz i)
    (hpos : 0 < (∑ i : Fin n, sx i.succ) + (∑ i : Fin n, sy i.succ) + ∑ i, sz i) :
    let I := isotropy dk sx sy sz
    let X := ∑ i : Fin n, sx i.succ
    let Y := ∑ i : Fin n, sy i.succ
    let Z := ∑ i, sz i
    0 ≤ I ∧ I ≤ 3 ∧ (I = 1 ↔ Z = (X + Y) / 2) ∧ (I = 3 ↔ X = 0 ∧ Y = 0) ∧ (I = 0 ↔ Z = 0) ∧
    ∀ c > 0, isotropy dk (fun i => c * sx i) (fun i => c * sy i) (fun i => c * sz i) = I := by
  have val : ∀ (a b c : Fin (n + 1) → ℝ), isotropy dk a b c =
      3 * (∑ i, c i) / ((∑ i : Fin n, a i.succ) + (∑ i : Fin n, b i.succ) + ∑ i, c i) := by
    intro a b c
    have e : ∀ u : Fin (n + 1) → ℝ, (∑ i : Fin (n + 1), if i = 0 then 0 else u i * dk) =
        (∑ i : Fin n, u i.succ) * dk := by
      intro u
      rw [Fin.sum_univ_succ]
      simp [Finset.sum_mul, Fin.succ_ne_zero]
    simp only [isotropy, e]
    rw [← Finset.sum_mul, ← add_mul, ← add_mul, ← mul_assoc]
    exact mul_div_mul_right _ _ hdk.ne'
  intro I X Y Z
  have hX : 0 ≤ X := Finset.sum_nonneg fun i _ => hx _
  have hY : 0 ≤ Y := Finset.sum_nonneg fun i _ => hy _
  have hZ : 0 ≤ Z := Finset.sum_nonneg fun i _ => hz _
  have hI : I = 3 * Z / (X + Y + Z) := val sx sy sz
  have hp : 0 < X + Y + Z := hpos
  refine ⟨?_, ?_, ?_, ?_, ?_, ?_⟩
  · rw [hI]; positivity
  · rw [hI, div_le_iff₀ hp]; linarith
  · rw [hI, div_eq_iff hp.ne']; constructor <;> intro h <;> linarith
  · rw [hI, div_eq_iff hp.ne']
    constructor
    · intro h; constructor <;> linarith
    · rintro ⟨h1, h2⟩; rw [h1, h2]; ring
  · rw [hI, div_eq_zero_iff]
    constructor
    · rintro (h | h)
      · linarith
      · exact absurd h hp.ne'
    · intro h; left; rw [h]; ring
  · intro c hc
    rw [val, hI]
    simp only [← Finset.mul_sum]
    rw [← mul_add, ← mul_add, show 3 * (c * ∑ i, sz i) = c * (3 * ∑ i, sz i) by ring]
    exact mul_div_mul_left _ _ hc.ne'

example : isotropy (n := 1) 2 ![7, 1] ![5, 3] ![1, 1] = 1 := by
  simp [isotropy, Fin.sum_univ_two]; norm_num

/-- C61: the length scales of a spectrum with energy out of `k = 0`: `l2 ≤ l1`; if the energy
is in wavenumbers between `a > 0` and `b`, both are between `2π/b` and `2π/a`; so for one
wavenumber `k0`, both are the wavelength `2π/k0`. They do not depend on the unit of energy. -/
theorem C61_length_scales {n : ℕ} (k E : Fin (n + 1) → ℝ) (a b : ℝ) (ha : 0 < a)
    (hE : ∀ i, 0 ≤ E i) (hk : ∀ i, E i ≠ 0 → a ≤ k i ∧ k i ≤ b) (hpos : ∃ i, E i ≠ 0) :
    let l := lengthScales k E
    l.2 ≤ l.1 ∧ 2 * Real.pi / b ≤ l.2 ∧ l.1 ≤ 2 * Real.pi / a ∧
    (a = b → l.1 = 2 * Real.pi / a ∧ l.2 = 2 * Real.pi / a) ∧
    ∀ c > 0, lengthScales k (fun i => c * E i) = l := by
  have hpi := Real.pi_pos
  set s0 := ∑ i, E i with e0
  set s1 := ∑ i, E i * k i with e1
  set s2 := ∑ i, E i * k i ^ 2 with e2
  obtain ⟨i0, hi0⟩ := hpos
  have hb : 0 < b := lt_of_lt_of_le ha ((hk i0 hi0).1.trans (hk i0 hi0).2)
  have h0 : 0 < s0 := Finset.sum_pos' (fun i _ => hE i)
    ⟨i0, Finset.mem_univ _, lt_of_le_of_ne (hE i0) (Ne.symm hi0)⟩
  have term : ∀ i, a * E i ≤ E i * k i ∧ E i * k i ^ 2 ≤ b * (E i * k i) ∧
      0 ≤ E i * k i := by
    intro i
    by_cases hi : E i = 0
    · simp [hi]
    · obtain ⟨h1, h2⟩ := hk i hi
      have := hE i
      have hki : 0 ≤ k i := ha.le.trans h1
      refine ⟨?_, ?_, mul_nonneg this hki⟩
      · nlinarith
      · have := mul_le_mul_of_nonneg_left h2 (mul_nonneg this hki)
        nlinarith
  have h1a : a * s0 ≤ s1 := by
    rw [e0, e1, Finset.mul_sum]; exact Finset.sum_le_sum fun i _ => (term i).1
  have h1 : 0 < s1 := lt_of_lt_of_le (mul_pos ha h0) h1a
  have h2b : s2 ≤ b * s1 := by
    rw [e2, e1, Finset.mul_sum]; exact Finset.sum_le_sum fun i _ => (term i).2.1
  have h1b : s1 ≤ b * s0 := by
    rw [e0, e1, Finset.mul_sum]
    refine Finset.sum_le_sum fun i _ => ?_
    by_cases hi : E i = 0
    · simp [hi]
    · nlinarith [hE i, (hk i hi).2]
  have cs : s1 ^ 2 ≤ s0 * s2 := by
    have := Finset.sum_sq_le_sum_mul_sum_of_sq_le_mul Finset.univ (r := fun i => E i * k i)
      (f := fun i => E i) (g := fun i => E i * k i ^ 2) (fun i _ => hE i)
      (fun i _ => mul_nonneg (hE i) (sq_nonneg _)) (fun i _ => le_of_eq (by ring))
    exact this
  have h2 : 0 < s2 := by
    by_contra hc
    have : s0 * s2 ≤ 0 := mul_nonpos_of_nonneg_of_nonpos h0.le (not_lt.1 hc)
    nlinarith [sq_pos_of_pos h1]
  intro l
  have l1 : l.1 = 2 * Real.pi * (s0 / s1) := by
    show 2 * Real.pi * s0 / s1 = _; ring
  have l2 : l.2 = 2 * Real.pi * Real.sqrt (s0 / s2) := rfl
  have c1 : l.2 ≤ l.1 := by
    rw [l1, l2]
    refine mul_le_mul_of_nonneg_left ?_ (by positivity)
    rw [Real.sqrt_le_left (by positivity), div_pow, div_le_div_iff₀ h2 (by positivity)]
    nlinarith
  have c2 : 2 * Real.pi / b ≤ l.2 := by
    rw [l2, div_eq_mul_one_div (2 * Real.pi) b]
    refine mul_le_mul_of_nonneg_left ?_ (by positivity)
    apply Real.le_sqrt_of_sq_le
    rw [div_pow, one_pow, div_le_div_iff₀ (by positivity) h2]
    nlinarith
  have c3 : l.1 ≤ 2 * Real.pi / a := by
    rw [l1, div_eq_mul_one_div (2 * Real.pi) a]
    refine mul_le_mul_of_nonneg_left ?_ (by positivity)
    rw [div_le_div_iff₀ h1 ha]; linarith
  refine ⟨c1, c2, c3, ?_, ?_⟩
  · rintro rfl
    exact ⟨le_antisymm c3 (c2.trans c1), le_antisymm (c1.trans c3) c2⟩
  · intro c hc
    have m : ∀ (f : Fin (n + 1) → ℝ), (∑ i, c * E i * f i) = c * ∑ i, E i * f i := by
      intro f; rw [Finset.mul_sum]; exact Finset.sum_congr rfl fun i _ => by ring
    simp only [lengthScales]
    rw [m k, m (fun i => k i ^ 2), ← Finset.mul_sum]
    refine Prod.ext ?_ ?_
    · show _ = 2 * Real.pi * s0 / s1
      rw [show 2 * Real.pi * (c * s0) = c * (2 * Real.pi * s0) by ring]
      exact mul_div_mul_left _ _ hc.ne'
    · show _ = 2 * Real.pi * Real.sqrt (s0 / s2)
      rw [mul_div_mul_left _ _ hc.ne']

example : let l := lengthScales (n := 2) ![0, 1, 2] ![0, 3, 1]
    l.2 ≤ l.1 ∧ 2 * Real.pi / 2 ≤ l.2 ∧ l.1 ≤ 2 * Real.pi / 1 := by
  have h := C61_length_scales (n := 2) ![0, 1, 2] ![0, 3, 1] 1 2 one_pos
    (by intro i; fin_cases i <;> simp) (by intro i; fin_cases i <;> simp) ⟨1, by simp⟩
  exact ⟨h.1, h.2.1, h.2.2.1⟩

end

end Verif.Spectra
