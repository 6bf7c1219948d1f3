import Verif.Prescribed.Lemmas
import Mathlib.Analysis.Complex.ExponentialBounds

/-!
# C63: the prescribed forces (moving objects, Taylor-Green, Kolmogorov, wave makers) are the documented ones
-/

namespace Verif.Prescribed

open Verif.Fourier Verif.Energy Verif.Motion Finset

set_option linter.unusedSectionVars false

noncomputable section

/-! ### Moving objects: geometry -/

/-- C63: the objects are in the domain and equally spaced, also across the boundary of the periodic domain. -/
theorem C63_objects {ly : ℝ} (hly : 0 < ly) {number : ℕ} (hn : 0 < number) :
    (yCoors ly number).length = number ∧ (∀ y ∈ yCoors ly number, 0 < y ∧ y < ly) ∧
    (∀ i (h : i + 1 < (yCoors ly number).length),
      (yCoors ly number)[i + 1] - (yCoors ly number)[i] = ly / number) ∧
    (∀ h : 0 < (yCoors ly number).length, (yCoors ly number)[0] + ly
      - (yCoors ly number)[(yCoors ly number).length - 1] = ly / number) := by
  have hn' : (0 : ℝ) < number := by exact_mod_cast hn
  have hne : (number : ℝ) ≠ 0 := hn'.ne'
  refine ⟨yCoors_length ly number, ?_, ?_, ?_⟩
  · intro y hy
    obtain ⟨i, hi, rfl⟩ := List.mem_map.mp hy
    have hi' : (i : ℝ) + 1 ≤ number := by exact_mod_cast List.mem_range.mp hi
    refine ⟨by positivity, ?_⟩
    rw [div_mul_eq_mul_div, div_lt_iff₀ hn']
    nlinarith
  · intro i h
    simp only [yCoors, List.getElem_map, List.getElem_range]
    push_cast; ring
  · intro h
    simp only [yCoors, List.getElem_map, List.getElem_range, List.length_map, List.length_range]
    rw [Nat.cast_sub hn]
    push_cast
    field_simp
    ring

example : yCoors 6 3 = [1, 3, 5] := by
  simp [yCoors, List.range_succ]; norm_num

/-- C63: a point of the domain which is in an object, or in one of its periodic images, at a depth `d` below its
surface, is in the solid: the field `solid` is at least `(1 + tanh(d / width)) / 2`, hence at least 1/2. -/
theorem C63_solid_inside {lx ly diameter width x d X Y y : ℝ} {number : ℕ} (hlx : 0 < lx) (hw : 0 < width)
    (hx : -lx / 2 ≤ x ∧ x ≤ 3 * lx / 2) (hX : 0 ≤ X ∧ X ≤ lx) (hy : y ∈ yCoors ly number) (m : ℤ)
    (hd : 0 ≤ d) (hdist : √((X - (x + m * lx)) ^ 2 + (Y - y) ^ 2) ≤ diameter / 2 - d) :
    (1 + Real.tanh (d / width)) / 2 ≤ solidField lx ly diameter width x number X Y ∧
      1 / 2 ≤ solidField lx ly diameter width x number X Y := by
  obtain ⟨i, hi, hle⟩ := nearest_image hlx hx.1 hx.2 hX.1 hX.2 m
  have hdist2 : √((X - (x + i * lx)) ^ 2 + (Y - y) ^ 2) ≤ diameter / 2 - d := by
    refine le_trans (Real.sqrt_le_sqrt ?_) hdist
    have := sq_le_sq.mpr hle
    linarith
  have hstep := step_inside hw hdist2
  have h0 : (1 + Real.tanh (d / width)) / 2 ≤ solidField lx ly diameter width x number X Y := by
    rw [solidField_eq]
    refine le_trans ?_ (sum_ge_of_mem ?_ (List.mem_map_of_mem hy))
    · refine le_trans ?_ (sum_ge_of_mem (fun a ha => ?_) (List.mem_map_of_mem hi))
      · linarith
      · obtain ⟨_, _, rfl⟩ := List.mem_map.mp ha
        exact step_nonneg _ _ _
    · intro a ha
      obtain ⟨y', _, rfl⟩ := List.mem_map.mp ha
      refine List.sum_nonneg fun b hb => ?_
      obtain ⟨_, _, rfl⟩ := List.mem_map.mp hb
      exact step_nonneg _ _ _
  refine ⟨h0, le_trans ?_ h0⟩
  have := half_tanh_mono (show (0 : ℝ) ≤ d / width by positivity)
  rw [Real.tanh_zero] at this
  linarith

/-- C63: a point at a distance of at least `d` from every object and all its periodic images is in the fluid: the
field `solid` is positive and at most `3 × number × (1 - tanh(d / width)) / 2`. -/
theorem C63_solid_outside {lx ly diameter width x d X Y : ℝ} {number : ℕ} (hw : 0 < width) (hn : 0 < number)
    (hdist : ∀ y ∈ yCoors ly number, ∀ m : ℤ,
      diameter / 2 + d ≤ √((X - (x + m * lx)) ^ 2 + (Y - y) ^ 2)) :
    0 < solidField lx ly diameter width x number X Y ∧
    solidField lx ly diameter width x number X Y ≤ number * (3 * ((1 - Real.tanh (d / width)) / 2)) := by
  have key : ∀ y ∈ yCoors ly number,
      0 < (([-1, 0, 1] : List ℝ).map fun i =>
        step (√((X - (x + i * lx)) ^ 2 + (Y - y) ^ 2)) (diameter / 2) width).sum ∧
      (([-1, 0, 1] : List ℝ).map fun i =>
        step (√((X - (x + i * lx)) ^ 2 + (Y - y) ^ 2)) (diameter / 2) width).sum
        ≤ 3 * ((1 - Real.tanh (d / width)) / 2) := by
    intro y hy
    rw [images_sum]
    have a1 := step_outside hw (hdist y hy (-1))
    have a2 := step_outside hw (hdist y hy 0)
    have a3 := step_outside hw (hdist y hy 1)
    push_cast at a1 a2 a3
    have b1 := step_pos (√((X - (x + -1 * lx)) ^ 2 + (Y - y) ^ 2)) (diameter / 2) width
    have b2 := step_pos (√((X - (x + 0 * lx)) ^ 2 + (Y - y) ^ 2)) (diameter / 2) width
    have b3 := step_pos (√((X - (x + 1 * lx)) ^ 2 + (Y - y) ^ 2)) (diameter / 2) width
    exact ⟨by linarith, by linarith⟩
  rw [solidField_eq]
  constructor
  · refine List.sum_pos _ ?_ ?_
    · intro a ha
      obtain ⟨y, hy, rfl⟩ := List.mem_map.mp ha
      exact (key y hy).1
    · intro h
      have := congrArg List.length h
      simp [yCoors_length] at this
      omega
  · have h := List.sum_le_card_nsmul ((yCoors ly number).map fun y => (([-1, 0, 1] : List ℝ).map fun i =>
        step (√((X - (x + i * lx)) ^ 2 + (Y - y) ^ 2)) (diameter / 2) width).sum)
        (3 * ((1 - Real.tanh (d / width)) / 2)) (by
      intro a ha
      obtain ⟨y, hy, rfl⟩ := List.mem_map.mp ha
      exact (key y hy).2)
    simpa [yCoors_length] using h

/-- C63: during the uniform motion, and during the motions whose length is at most `2 Lx`, the positions satisfy the
hypothesis of `C63_solid_inside`: at every time, the objects are seen in the whole periodic domain. -/
theorem C63_solid_motion {lx : ℝ} (hlx : 0 < lx) (speed t period : ℝ) {length : ℝ}
    (hL : 0 ≤ length) (hL2 : length ≤ 2 * lx) :
    (-lx / 2 ≤ locUni lx speed t ∧ locUni lx speed t ≤ 3 * lx / 2) ∧
    (-lx / 2 ≤ locSin lx length period t ∧ locSin lx length period t ≤ 3 * lx / 2) := by
  constructor
  · obtain ⟨h1, h2⟩ := pymod_mem hlx (speed * t)
    constructor
    · exact le_trans (by linarith) h1
    · exact le_trans h2.le (by linarith)
  · have : |locSin lx length period t - lx / 2| ≤ length / 2 := by
      simp only [locSin, add_sub_cancel_left, abs_mul, abs_of_nonneg (by linarith : 0 ≤ length / 2)]
      calc length / 2 * |Real.sin _| ≤ length / 2 * 1 :=
            mul_le_mul_of_nonneg_left (Real.abs_sin_le_one _) (by linarith)
        _ = length / 2 := mul_one _
    obtain ⟨h1, h2⟩ := abs_le.mp this
    constructor <;> linarith

/-- An object at the end of its course, seen through the boundary. -/
example : ∃ y ∈ yCoors 4 2, √(((0.1 : ℝ) - (9.9 + (-1 : ℤ) * 10)) ^ 2 + (1 - y) ^ 2) ≤ 1 / 2 - 0.3 := by
  refine ⟨1, by simp [yCoors, List.range_succ]; norm_num, ?_⟩
  rw [Real.sqrt_le_left (by norm_num)]
  norm_num

/-- C63, finding: only the images -1, 0 and 1 are taken into account. For a motion longer than `2 Lx`, an object
disappears from the domain: at the beginning of the sinusoidal motion of length `6 Lx`, the point at the centre of
the image of the object in the domain is not in the solid. -/
theorem C63_solid_long_violated :
    ∃ lx ly diameter width length period X Y y : ℝ, y ∈ yCoors ly 1 ∧
      √((X - (locSin lx length period 0 + (3 : ℤ) * lx)) ^ 2 + (Y - y) ^ 2) = 0 ∧ 0 ≤ X ∧ X ≤ lx ∧
      length = 6 * lx ∧ 0 < diameter ∧ 0 < width ∧
      solidField lx ly diameter width (locSin lx length period 0) 1 X Y < 1 / 100 := by
  refine ⟨10, 2, 1, 0.1, 60, 1, 5, 1, 1, by simp [yCoors, List.range_succ], ?_, by norm_num, by norm_num,
    by norm_num, by norm_num, by norm_num, ?_⟩
  · have : locSin 10 60 1 0 = -25 := by
      simp only [locSin, mul_zero, zero_sub, Real.sin_neg, Real.sin_pi_div_two]; norm_num
    rw [this, Real.sqrt_eq_zero'] ; norm_num
  · have : locSin 10 60 1 0 = -25 := by
      simp only [locSin, mul_zero, zero_sub, Real.sin_neg, Real.sin_pi_div_two]; norm_num
    rw [this, solidField_eq]
    have hy : yCoors 2 1 = [1] := by simp [yCoors, List.range_succ]
    rw [hy]
    simp only [List.map_cons, List.map_nil, List.sum_cons, List.sum_nil, add_zero]
    have key : ∀ r : ℝ, 20 ≤ r → step r (1 / 2) 0.1 ≤ 1 / 392 := by
      intro r hr
      refine le_trans (step_outside (d := 19.5) (by norm_num) (by linarith)) ?_
      refine le_trans (half_tanh_tail (by norm_num)) ?_
      norm_num
    have hs : ∀ a : ℝ, 20 ≤ a → 20 ≤ √(a ^ 2 + (1 - 1) ^ 2) := by
      intro a ha
      rw [sub_self, zero_pow (by norm_num), add_zero, Real.sqrt_sq (by linarith)]
      exact ha
    have a1 := key _ (hs (5 - (-25 + -1 * 10)) (by norm_num))
    have a2 := key _ (hs (5 - (-25 + 0 * 10)) (by norm_num))
    have a3 := key _ (hs (5 - (-25 + 1 * 10)) (by norm_num))
    linarith

/-! ### Moving objects: the force -/

/-- C63: with a time step which is at most `deltat_max`, an explicit step with the force alone brings the velocity
closer to the one of the object, without passing it, where `solid` is between 0 and 2. -/
theorem C63_relaxation {dt dtMax solid speed u : ℝ} (hdt : 0 < dt) (hmax : dt ≤ dtMax) (hs : 0 ≤ solid)
    (hs2 : solid ≤ 2) :
    u + dt * forceX (sigma dtMax) solid speed u - speed
      = (1 - dt / dtMax * solid / 2) * (u - speed) ∧
    0 ≤ 1 - dt / dtMax * solid / 2 ∧ 1 - dt / dtMax * solid / 2 ≤ 1 := by
  have hM : 0 < dtMax := lt_of_lt_of_le hdt hmax
  have h1 : dt / dtMax ≤ 1 := (div_le_one hM).mpr hmax
  have h0 : 0 < dt / dtMax := by positivity
  refine ⟨?_, ?_, ?_⟩
  · simp only [forceX, sigma]; field_simp; ring
  · nlinarith
  · have : 0 ≤ dt / dtMax * solid := by positivity
    linarith

/-- The same for the component y, which is brought closer to zero. -/
theorem C63_relaxation_y {dt dtMax solid u : ℝ} (hdt : 0 < dt) (hmax : dt ≤ dtMax) (hs : 0 ≤ solid)
    (hs2 : solid ≤ 2) :
    |u + dt * forceY (sigma dtMax) solid u| ≤ |u| := by
  have h := C63_relaxation (speed := 0) (u := u) hdt hmax hs hs2
  have e : u + dt * forceY (sigma dtMax) solid u = (1 - dt / dtMax * solid / 2) * u := by
    have := h.1
    simp only [sub_zero] at this
    rw [← this]; simp only [forceX, forceY]; ring
  rw [e, abs_mul, abs_of_nonneg h.2.1]
  exact mul_le_of_le_one_left (abs_nonneg _) h.2.2

/-- C63, finding: the comment of the code chooses the coefficient such that `f(t) / f0 = 10 ** (-gamma)` with
`gamma = 2` after `n_dt = 4` time steps; with the computed coefficient, the decrease after 4 time steps `deltat_max`
is `exp(-2)`, 13 times larger than the claimed value. -/
theorem C63_decay_violated {dtMax : ℝ} (h : 0 < dtMax) :
    Real.exp (-sigma dtMax * (4 * dtMax)) > 13 * (10 : ℝ) ^ (-2 : ℤ) := by
  have e : -sigma dtMax * (4 * dtMax) = -2 := by simp only [sigma]; field_simp
  rw [e]
  have h1 := Real.exp_one_lt_d9
  have h2 : Real.exp (-2) = 1 / (Real.exp 1 * Real.exp 1) := by
    rw [Real.exp_neg, ← Real.exp_add]; norm_num
  rw [h2, gt_iff_lt, lt_div_iff₀ (by positivity)]
  have h3 := Real.exp_pos 1
  norm_num
  nlinarith

/-- C63: where the object moves with the velocity of the fluid, there is no force; the force is linear in the
difference of the velocities, as documented (`sigma * solid * (speed_target - velocity)`), for the x and y components
in the solvers for the velocity. -/
theorem C63_force (sig solid speed vx vy vz : ℝ) :
    (compute3 sig speed solid vx vy vz).1 = sig * solid * (speed - vx) ∧
    (compute3 sig speed solid vx vy vz).2.1 = sig * solid * (0 - vy) := by
  simp only [compute3, forceX, forceY]
  exact ⟨trivial, by ring⟩

/-- C63, finding: in the 3D solvers the documented force has no vertical component: the vertical velocity is not
damped in the objects. -/
theorem C63_force_z_violated : ∃ sig solid speed vx vy vz : ℝ,
    (compute3 sig speed solid vx vy vz).2.2 ≠ sig * solid * (0 - vz) :=
  ⟨1, 1, 1, 1, 1, 1, by simp [compute3]⟩

/-- C63: in the solvers of the vorticity, the force acts on the kept modes only, with the curl of its x
component `σ χ (speed - ux)`. -/
theorem C63_force_ns2d_partial (n : Fin 2 → ℕ) (S : Finset (Fin 2 → ℤ)) (δ : Fin 2 → ℝ) (sig speed : ℝ)
    (solid ux uy : Pt n → ℝ) (k : Fin 2 → ℤ) :
    (k ∉ S → computeRot n S δ sig speed solid ux uy k = 0) ∧
    (k ∈ S → computeRot n S δ sig speed solid ux uy k
      = -(Complex.I * (δ 1 * k 1 : ℝ)) * fftCoef n (fun j => ((sig * solid j * (speed - ux j) : ℝ) : ℂ)) k) := by
  constructor
  · intro h; simp [computeRot, milestoneRot, h]
  · intro h
    simp only [computeRot, milestoneRot, if_pos h, forceX, Forcing.rotFromVec]
    push_cast; ring

/-- C63, finding: in the solvers of the vorticity, the y component of the force is not taken into account. The
objects at rest do not act at all on a flow along y, for every mask and every such flow; the documented force has a
non-zero curl (here for a flow `sin(x)` and the whole domain in the object). -/
theorem C63_force_ns2d_violated :
    (∀ (n : Fin 2 → ℕ) (S : Finset (Fin 2 → ℤ)) (δ : Fin 2 → ℝ) (sig : ℝ) (solid uy : Pt n → ℝ),
      computeRot n S δ sig 0 solid (fun _ => 0) uy = 0) ∧
    (∃ (n : Fin 2 → ℕ) (k : Fin 2 → ℤ) (sig : ℝ) (solid uy : Pt n → ℝ),
      (∀ j, solid j = 1) ∧ (∀ j, uy j = kolmoField n 0 1 (2 * Real.pi) 1 j) ∧
      Forcing.rotFromVec (k 0) (k 1) (fftCoef n (fun j => ((sig * solid j * (0 - 0) : ℝ) : ℂ)) k)
        (fftCoef n (fun j => ((sig * solid j * (0 - uy j) : ℝ) : ℂ)) k) ≠ 0) := by
  constructor
  · intro n S δ sig solid uy
    funext k
    simp only [computeRot, milestoneRot, forceX, sub_zero, mul_zero, Complex.ofReal_zero]
    split
    · simp [Forcing.rotFromVec, fftCoef]
    · rfl
  · let n : Fin 2 → ℕ := fun _ => 4
    refine ⟨n, Pi.single 0 1, 1, fun _ => 1, fun j => kolmoField n 0 1 (2 * Real.pi) 1 j, fun _ => rfl,
      fun _ => rfl, ?_⟩
    have hS : Distinct n {Pi.single 0 1, Pi.single 0 (-1)} := by
      intro p hp q hq h
      simp only [mem_insert, mem_singleton] at hp hq
      have h0 := h 0
      rcases hp with rfl | rfl <;> rcases hq with rfl | rfl <;> simp [n] at h0 ⊢
    have hf := kolmo_fft (n := n) (fun _ => by norm_num) (d := 0) (A := 1) (L := 2 * Real.pi)
      (by have := Real.pi_pos; positivity) (ik := 1) (by norm_num) hS (by simp) (by simp)
      (k := Pi.single 0 1) (by simp)
    have e : fftCoef n (fun j => ((1 * 1 * (0 - kolmoField n 0 1 (2 * Real.pi) 1 j) : ℝ) : ℂ)) (Pi.single 0 1)
        = -fftCoef n (fun j => (kolmoField n 0 1 (2 * Real.pi) 1 j : ℂ)) (Pi.single 0 1) := by
      simp only [fftCoef, ← neg_div, ← Finset.sum_neg_distrib]
      congr 1
      refine Finset.sum_congr rfl fun j _ => ?_
      push_cast; ring
    rw [e, hf]
    simp [Forcing.rotFromVec, kolmoCoef]

/-! ### Moving objects: the coarse grid -/

/-- C63: a coarse grid is used only if it is coarser than the grid of the simulation; a finer one is refused. If the
mesh of the simulation is the same in the two directions, the coarse grid is not finer in the direction y and has an
even number of points. -/
theorem C63_coarse_partial {nx ny : ℕ} {lx ly : ℝ} (hlx : 0 < lx) (hly : 0 < ly)
    (hmesh : lx / nx = ly / ny) (hny : 0 < ny) (hnx : 0 < nx) (m : ℕ) :
    (nx < m → nxMaxUsed (some m) nx = .error "ValueError") ∧ nxMaxUsed none nx = .ok none ∧
    (∀ u, nxMaxUsed (some m) nx = .ok (some u) → u = m ∧ u < nx ∧ nyCoarse u lx ly ≤ ny ∧
      2 ∣ nyCoarse u lx ly) := by
  refine ⟨fun h => by simp [nxMaxUsed, h], rfl, ?_⟩
  intro u hu
  simp only [nxMaxUsed] at hu
  split at hu
  · simp at hu
  · split at hu
    · simp at hu
    · rename_i h1 h2
      simp only [Except.ok.injEq, Option.some.injEq] at hu
      subst hu
      refine ⟨rfl, by omega, ?_, by simp [nyCoarse]⟩
      have hm : (m : ℝ) ≤ nx := by exact_mod_cast (not_lt.mp h1)
      have hx0 : (0 : ℝ) < nx := by exact_mod_cast hnx
      have hy0 : (0 : ℝ) < ny := by exact_mod_cast hny
      have e : (ny : ℝ) = nx * ly / lx := by
        rw [div_eq_div_iff hx0.ne' hy0.ne'] at hmesh
        rw [eq_div_iff hlx.ne']; linarith
      have h3 : (⌊(m : ℝ) * ly / lx / 2⌋₊ : ℝ) ≤ (m : ℝ) * ly / lx / 2 := Nat.floor_le (by positivity)
      have h4 : (m : ℝ) * ly / lx ≤ ny := by
        rw [e]
        exact div_le_div_of_nonneg_right (mul_le_mul_of_nonneg_right hm hly.le) hlx.le
      have h5 : ((nyCoarse m lx ly : ℕ) : ℝ) ≤ ny := by
        simp only [nyCoarse]; push_cast; linarith
      exact_mod_cast h5

/-- C63, finding: `ny` is not checked. In a square domain with 64 × 16 points, `nx_max = 48` is accepted and the
coarse grid has 48 points in the direction y; in a domain of aspect ratio 100 it has no points at all. -/
theorem C63_coarse_violated :
    nxMaxUsed (some 48) 64 = .ok (some 48) ∧ nyCoarse 48 1 1 = 48 ∧ ¬ (48 ≤ 16) ∧ nyCoarse 48 100 1 = 0 := by
  refine ⟨by simp [nxMaxUsed], ?_, by norm_num, ?_⟩
  · have : ⌊((48 : ℕ) : ℝ) * 1 / 1 / 2⌋₊ = 24 := by
      rw [Nat.floor_eq_iff (by norm_num)]; norm_num
    rw [nyCoarse, this]
  · have : ⌊((48 : ℕ) : ℝ) * 1 / 100 / 2⌋₊ = 0 := by
      rw [Nat.floor_eq_zero]; norm_num
    rw [nyCoarse, this]

/-! ### Taylor-Green -/

/-- C63: the Taylor-Green force is periodic; its divergence is
`2π F0 (1/Lx - 1/Ly) cos(2πx/Lx) cos(2πy/Ly) cos(2πz/Lz)`. -/
theorem C63_taylor_green (F0 : ℝ) {lx ly lz : ℝ} (hx : lx ≠ 0) (hy : ly ≠ 0) (hz : lz ≠ 0) (x y z : ℝ) :
    (tgX F0 lx ly lz (x + lx) y z = tgX F0 lx ly lz x y z ∧ tgX F0 lx ly lz x (y + ly) z = tgX F0 lx ly lz x y z ∧
      tgX F0 lx ly lz x y (z + lz) = tgX F0 lx ly lz x y z) ∧
    ∃ dx dy : ℝ, HasDerivAt (fun s => tgX F0 lx ly lz s y z) dx x ∧
      HasDerivAt (fun s => tgY F0 lx ly lz x s z) dy y ∧
      dx + dy = 2 * Real.pi * F0 * (1 / lx - 1 / ly) * Real.cos (2 * Real.pi * x / lx)
        * Real.cos (2 * Real.pi * y / ly) * Real.cos (2 * Real.pi * z / lz) := by
  have e : ∀ {l : ℝ}, l ≠ 0 → ∀ s, 2 * Real.pi * (s + l) / l = 2 * Real.pi * s / l + 2 * Real.pi := by
    intro l hl s; field_simp
  refine ⟨⟨?_, ?_, ?_⟩, ?_⟩
  · simp only [tgX, e hx, Real.sin_add_two_pi]
  · simp only [tgX, e hy, Real.cos_add_two_pi]
  · simp only [tgX, e hz, Real.cos_add_two_pi]
  · have hlin : ∀ l s : ℝ, HasDerivAt (fun s => 2 * Real.pi * s / l) (2 * Real.pi / l) s := by
      intro l s
      simpa using ((hasDerivAt_id s).const_mul (2 * Real.pi)).div_const l
    have h1 := ((((hlin lx x).sin).const_mul F0).mul_const (Real.cos (2 * Real.pi * y / ly))).mul_const
      (Real.cos (2 * Real.pi * z / lz))
    have h2 := (((hlin ly y).sin).const_mul (-F0 * Real.cos (2 * Real.pi * x / lx))).mul_const
      (Real.cos (2 * Real.pi * z / lz))
    refine ⟨_, _, h1, h2, ?_⟩
    ring

/-- C63: in a domain with `Lx = Ly` the Taylor-Green force is divergence-free. Missing: the other domains. -/
theorem C63_taylor_green_divergence_partial (F0 : ℝ) {lx lz : ℝ} (hx : lx ≠ 0) (hz : lz ≠ 0) (x y z : ℝ) :
    ∃ dx dy : ℝ, HasDerivAt (fun s => tgX F0 lx lx lz s y z) dx x ∧
      HasDerivAt (fun s => tgY F0 lx lx lz x s z) dy y ∧ dx + dy = 0 := by
  obtain ⟨-, dx, dy, h1, h2, h3⟩ := C63_taylor_green F0 hx hx hz x y z
  exact ⟨dx, dy, h1, h2, by rw [h3]; ring⟩

/-- C63, finding: in a domain with `Lx ≠ Ly` the Taylor-Green force is not divergence-free: its projection, which
acts on the flow, is not the documented force. -/
theorem C63_taylor_green_divergence_violated {F0 lx ly lz : ℝ} (hF : F0 ≠ 0) (hx : lx ≠ 0) (hy : ly ≠ 0)
    (hz : lz ≠ 0) (hne : lx ≠ ly) :
    ∃ dx dy : ℝ, HasDerivAt (fun s => tgX F0 lx ly lz s 0 0) dx 0 ∧
      HasDerivAt (fun s => tgY F0 lx ly lz 0 s 0) dy 0 ∧ dx + dy ≠ 0 := by
  obtain ⟨-, dx, dy, h1, h2, h3⟩ := C63_taylor_green F0 hx hy hz 0 0 0
  refine ⟨dx, dy, h1, h2, ?_⟩
  rw [h3]
  simp only [mul_zero, zero_div, Real.cos_zero, mul_one]
  refine mul_ne_zero (mul_ne_zero (mul_ne_zero two_ne_zero Real.pi_ne_zero) hF) ?_
  rw [sub_ne_zero]
  intro h
  rw [one_div, one_div, inv_inj] at h
  exact hne h

/-! ### Kolmogorov flow -/

variable {D : Type} [Fintype D] [DecidableEq D]

/-- C63: by default the x component is forced with a gradient in the last direction; the suffix `_fft` of the key is
ignored; a direction which does not exist is refused. -/
theorem C63_kolmo_setup :
    kolmoSetup true none none = .ok ("vx", 2) ∧ kolmoSetup false none none = .ok ("ux", 1) ∧
    (∀ dim3 letter, kolmoSetup dim3 (some "uy_fft") letter = kolmoSetup dim3 (some "uy") letter) ∧
    (∀ dim3 key, kolmoSetup dim3 key (some "y") = .ok ((kolmoSetup dim3 key none).toOption.getD ("", 0) |>.1, 1)) ∧
    (∀ key, kolmoSetup false key (some "z") = .error "ValueError") := by
  refine ⟨by decide +kernel, by decide +kernel, ?_, ?_, ?_⟩
  · intro dim3 letter
    have e1 : ("uy_fft".endsWith "_fft") = true := by decide +kernel
    have e2 : ("uy".endsWith "_fft") = false := by decide +kernel
    have e3 : ("uy_fft".dropEnd 4).toString = "uy" := by decide +kernel
    simp only [kolmoSetup, Option.getD_some, e1, e2, e3, if_true, Bool.false_eq_true, if_false]
  · intro dim3 key
    cases dim3 <;> simp [kolmoSetup, Except.toOption, List.idxOf, List.findIdx, List.findIdx.go]
  · intro key
    simp [kolmoSetup]

/-- C63: on a grid with more than `2 ik` points in the direction of the gradient, the force of the Kolmogorov flow
has exactly the two modes `± ik` of this direction, with the coefficients of `A sin`. -/
theorem C63_kolmo_modes {n : D → ℕ} (hn : ∀ d, 0 < n d) {d : D} {A L : ℝ} (hL : L ≠ 0) {ik : ℕ} (h0 : 0 < ik)
    (h2 : 2 * ik < n d) {S : Finset (D → ℤ)} (hS : Distinct n S) (hp : Pi.single d (ik : ℤ) ∈ S)
    (hm : Pi.single d (-(ik : ℤ)) ∈ S) {k : D → ℤ} (hk : k ∈ S) :
    fftCoef n (fun j => (kolmoField n d A L ik j : ℂ)) k =
      if k = Pi.single d (ik : ℤ) then -Complex.I * A / 2
      else if k = Pi.single d (-(ik : ℤ)) then Complex.I * A / 2 else 0 := by
  have := h2
  exact kolmo_fft hn hL h0 hS hp hm hk

/-- C63: in ns2d, the forcing state has the prescribed velocity: `A sin(2π ik y / Ly)` along x and nothing along y
(default direction of the gradient). -/
theorem C63_kolmo_ns2d {n : Fin 2 → ℕ} (hn : ∀ d, 0 < n d) {δ : Fin 2 → ℝ} (hδ : ∀ d, δ d ≠ 0) {A L : ℝ}
    (hL : L ≠ 0) {ik : ℕ} (h0 : 0 < ik) {S : Finset (Fin 2 → ℤ)} (hS : Distinct n S)
    (hp : Pi.single 1 (ik : ℤ) ∈ S) (hm : Pi.single 1 (-(ik : ℤ)) ∈ S) {k : Fin 2 → ℤ} (hk : k ∈ S) :
    let rot := rotFromUx n δ (kolmoField n 1 A L ik)
    ux2 δ rot k = fftCoef n (fun j => (kolmoField n 1 A L ik j : ℂ)) k ∧ uy2 δ rot k = 0 := by
  intro rot
  have hf := kolmo_fft (d := 1) (A := A) hn hL h0 hS hp hm hk
  have hi : ((ik : ℤ) : ℝ) ≠ 0 := by exact_mod_cast h0.ne'
  have hr : rot k = Forcing.rotFromVec (δ 0 * k 0) (δ 1 * k 1) (kolmoCoef 1 A ik k) 0 := by
    rw [← hf]; rfl
  rw [hf]
  by_cases hk0 : k = Pi.single 1 (ik : ℤ) ∨ k = Pi.single 1 (-(ik : ℤ))
  · have hx : k 0 = 0 := by rcases hk0 with rfl | rfl <;> simp
    have hy : (k 1 : ℝ) ≠ 0 := by rcases hk0 with rfl | rfl <;> simp <;> omega
    have hq : δ 1 * (k 1 : ℝ) ≠ 0 := mul_ne_zero (hδ 1) hy
    have hK : Forcing.k2not0 (δ 0 * k 0) (δ 1 * k 1) = (δ 1 * k 1) ^ 2 := by
      rw [Forcing.k2not0, hx]
      simp only [Int.cast_zero, mul_zero, zero_pow two_ne_zero, zero_add]
      rw [if_neg (pow_ne_zero 2 hq)]
    have hqc : ((δ 1 * (k 1 : ℝ) : ℝ) : ℂ) ≠ 0 := by exact_mod_cast hq
    constructor
    · simp only [ux2, Forcing.vecFromRot, hK, hr, Forcing.rotFromVec]
      generalize δ 1 * (k 1 : ℝ) = q at *
      push_cast
      field_simp
      linear_combination (-(q : ℂ) * kolmoCoef 1 A ik k) * Complex.I_sq
    · simp only [uy2, Forcing.vecFromRot, hx]
      simp
  · rw [not_or] at hk0
    have hc : kolmoCoef 1 A ik k = 0 := by simp [kolmoCoef, hk0.1, hk0.2]
    have hr0 : rot k = 0 := by rw [hr, hc]; simp [Forcing.rotFromVec]
    rw [hc]
    simp [ux2, uy2, Forcing.vecFromRot, hr0]

/-- Three periods on 8 × 16 points. -/
example : 2 * 3 < (![8, 16] : Fin 2 → ℕ) 1 ∧
    Distinct (![8, 16] : Fin 2 → ℕ) {Pi.single 1 ((3 : ℕ) : ℤ), Pi.single 1 (-((3 : ℕ) : ℤ)), 0} := by
  refine ⟨by norm_num, ?_⟩
  intro p hp q hq h
  simp only [mem_insert, mem_singleton] at hp hq
  have h1 := h 1
  rcases hp with rfl | rfl | rfl <;> rcases hq with rfl | rfl | rfl <;> simp at h1 ⊢

/-- C63, finding: a component forced along its own direction (`letter_gradient = "x"` for `ux`, `"y"` for `uy`) gives
no force at all in ns2d, silently. -/
theorem C63_kolmo_own_direction_violated {n : Fin 2 → ℕ} (hn : ∀ d, 0 < n d) (δ : Fin 2 → ℝ) {A L : ℝ}
    (hL : L ≠ 0) {ik : ℕ} (h0 : 0 < ik) {S : Finset (Fin 2 → ℤ)} (hS : Distinct n S)
    (hp : ∀ d, Pi.single d (ik : ℤ) ∈ S) (hm : ∀ d, Pi.single d (-(ik : ℤ)) ∈ S) {k : Fin 2 → ℤ} (hk : k ∈ S) :
    rotFromUx n δ (kolmoField n 0 A L ik) k = 0 ∧ rotFromUy n δ (kolmoField n 1 A L ik) k = 0 := by
  constructor
  · simp only [rotFromUx]
    rw [kolmo_fft (d := 0) (A := A) hn hL h0 hS (hp 0) (hm 0) hk]
    simp only [kolmoCoef]
    split
    · rename_i h; subst h; simp [Forcing.rotFromVec]
    · split
      · rename_i h; subst h; simp [Forcing.rotFromVec]
      · simp [Forcing.rotFromVec]
  · simp only [rotFromUy]
    rw [kolmo_fft (d := 1) (A := A) hn hL h0 hS (hp 1) (hm 1) hk]
    simp only [kolmoCoef]
    split
    · rename_i h; subst h; simp [Forcing.rotFromVec]
    · split
      · rename_i h; subst h; simp [Forcing.rotFromVec]
      · simp [Forcing.rotFromVec]

/-- C63, finding: the normalised Kolmogorov flow is computed on the coarse grid of the forcing, whose size depends on
`nkmax_forcing` only and is not compared to `ik`. If `ik` is larger than half the size `n` of this grid, the flow is
forced, with the opposite sign, at the wavenumber `n - ik`; if it is half the size, the force is zero. -/
theorem C63_kolmo_normalized_violated {n : D → ℕ} {d : D} (A : ℝ) {L : ℝ} (hL : L ≠ 0) {ik : ℕ} :
    (n d < 2 * ik → ik < n d → ∀ j, kolmoField n d A L ik j = -kolmoField n d A L (n d - ik) j) ∧
    (2 * ik = n d → ∀ j, kolmoField n d A L ik j = 0) := by
  constructor
  · intro _ h2 j
    have hn0 : (n d : ℝ) ≠ 0 := by have : 0 < n d := by omega
                                   exact_mod_cast this.ne'
    simp only [kolmoField]
    rw [Nat.cast_sub h2.le]
    have e : 2 * Real.pi * ((n d : ℝ) - ik) / L * (L * ((j d : ℕ) : ℝ) / n d)
        = ((j d : ℕ) : ℝ) * (2 * Real.pi) - 2 * Real.pi * ik / L * (L * ((j d : ℕ) : ℝ) / n d) := by
      field_simp
    rw [e, Real.sin_nat_mul_two_pi_sub]
    ring
  · intro h j
    by_cases hn0 : n d = 0
    · exact absurd (j d).2 (by omega)
    · have hn1 : (n d : ℝ) ≠ 0 := by exact_mod_cast hn0
      have e : 2 * Real.pi * ik / L * (L * ((j d : ℕ) : ℝ) / n d) = ((j d : ℕ) : ℝ) * Real.pi := by
        have : (n d : ℝ) = 2 * ik := by exact_mod_cast h.symm
        have hi : (ik : ℝ) ≠ 0 := by rw [this] at hn1; simpa using hn1
        rw [this]
        field_simp
      simp only [kolmoField]
      rw [e, Real.sin_nat_mul_pi, mul_zero]

/-- A grid of 10 points (`nkmax_forcing = 5`) and `ik = 6`: the forced wavenumber is 4. -/
example : (fun _ => 10 : Fin 3 → ℕ) 2 < 2 * 6 ∧ 6 < (fun _ => 10 : Fin 3 → ℕ) 2 ∧ 10 - 6 = 4 := by norm_num

/-! ### Wave makers -/

theorem watuTime_step {period : ℝ} {nb i : ℕ} (hnb : 0 < nb) (hi : i ≤ nb) :
    watuTime period nb i = period / nb * i := by
  rw [watuTime]
  split
  · rfl
  · have : i = nb := by omega
    subst this
    have : (i : ℝ) ≠ 0 := by exact_mod_cast hnb.ne'
    field_simp

theorem interp_spec {period : ℝ} (hP : 0 < period) (signal : ℕ → ℝ) {nb : ℕ} (hnb : 0 < nb) {t : ℝ}
    (h0 : 0 ≤ t) (h1 : t < period) :
    ∃ i < nb, period / nb * i ≤ t ∧ t ≤ period / nb * (i + 1) ∧
      interp period signal nb t = .ok (signal i + (signal ((i + 1) % nb) - signal i)
        * ((t - period / nb * i) / (period / nb))) := by
  have hb : (0 : ℝ) < nb := by exact_mod_cast hnb
  have hdt : 0 < period / nb := by positivity
  have hq : t / (period / nb) < nb := by
    rw [div_lt_iff₀ hdt]
    have : (nb : ℝ) * (period / nb) = period := by field_simp
    linarith
  have hq0 : 0 ≤ t / (period / nb) := by positivity
  have hfl : ⌊t / (period / nb)⌋₊ < nb := (Nat.floor_lt hq0).mpr hq
  set i := ⌊t / (period / nb)⌋₊ with hi
  have hmin : min i (nb - 1) = i := by omega
  have a1 : (i : ℝ) ≤ t / (period / nb) := Nat.floor_le hq0
  have a2 : t / (period / nb) < i + 1 := Nat.lt_floor_add_one _
  rw [le_div_iff₀ hdt] at a1
  rw [div_lt_iff₀ hdt] at a2
  refine ⟨i, hfl, by linarith, by linarith, ?_⟩
  rw [interp, if_neg]
  · simp only [← hi, hmin]
    rw [watuTime_step hnb hfl.le, watuTime_step hnb hfl]
    have v0 : watuValue signal nb i = signal i := by rw [watuValue, if_pos hfl]
    have v1 : watuValue signal nb (i + 1) = signal ((i + 1) % nb) := by
      rw [watuValue]
      split
      · rename_i h; rw [Nat.mod_eq_of_lt h]
      · have : i + 1 = nb := by omega
        rw [this, Nat.mod_self]
    rw [v0, v1]
    congr 2
    push_cast
    have : period / nb * ((i : ℝ) + 1) - period / nb * i = period / nb := by ring
    rw [this, div_mul_eq_mul_div, mul_div_assoc]
  · rw [not_or, not_lt, not_lt, watuTime_step hnb (Nat.zero_le _), watuTime_step hnb le_rfl]
    constructor
    · simpa using h0
    · have : period / nb * (nb : ℝ) = period := by field_simp
      linarith

/-- C63: at every time the velocity of a board is defined, periodic with the period `period_forcing`, and between
two consecutive samples of the signal (the sample after the last one being the first one): it never exceeds the
extrema of the signal. -/
theorem C63_watu_signal {period : ℝ} (hP : 0 < period) (signal : ℕ → ℝ) {nb : ℕ} (hnb : 0 < nb) (t : ℝ) :
    ∃ v, watuCoef period signal nb t = .ok v ∧ watuCoef period signal nb (t + period) = .ok v ∧
      ∃ i < nb, min (signal i) (signal ((i + 1) % nb)) ≤ v ∧ v ≤ max (signal i) (signal ((i + 1) % nb)) := by
  obtain ⟨h0, h1⟩ := pymod_mem hP t
  obtain ⟨i, hi, a1, a2, e⟩ := interp_spec hP signal hnb h0 h1
  have hb : (0 : ℝ) < nb := by exact_mod_cast hnb
  have hdt : 0 < period / nb := by positivity
  have hper : pymod (t + period) period = pymod t period := by
    simp only [pymod]
    rw [add_div, div_self hP.ne', Int.floor_add_one]
    push_cast; ring
  refine ⟨_, e, by rw [watuCoef, hper]; exact e, i, hi, ?_⟩
  set θ := (pymod t period - period / nb * i) / (period / nb) with hθ
  have t0 : 0 ≤ θ := div_nonneg (by linarith) hdt.le
  have t1 : θ ≤ 1 := by rw [hθ, div_le_one hdt]; linarith
  generalize signal i = a
  generalize signal ((i + 1) % nb) = b
  rcases le_total a b with h | h
  · rw [min_eq_left h, max_eq_right h]
    constructor <;> nlinarith
  · rw [min_eq_right h, max_eq_left h]
    constructor <;> nlinarith

/-- C63: at the times of the samples, the velocity is the sample. -/
theorem C63_watu_samples {period : ℝ} (hP : 0 < period) (signal : ℕ → ℝ) {nb i : ℕ} (hi : i < nb) (m : ℤ) :
    watuCoef period signal nb (period / nb * i + m * period) = .ok (signal i) := by
  have hnb : 0 < nb := by omega
  have hb : (0 : ℝ) < nb := by exact_mod_cast hnb
  have hlt : period / nb * i < period := by
    rw [div_mul_eq_mul_div, div_lt_iff₀ hb]
    have : (i : ℝ) < nb := by exact_mod_cast hi
    nlinarith
  have h0 : 0 ≤ period / nb * (i : ℝ) := by positivity
  have hmod : pymod (period / nb * i + m * period) period = period / nb * i := by
    simp only [pymod]
    rw [add_div, mul_div_assoc (m : ℝ), div_self hP.ne', mul_one, Int.floor_add_intCast]
    have : ⌊period / nb * (i : ℝ) / period⌋ = 0 := by
      rw [Int.floor_eq_iff]
      constructor
      · push_cast; positivity
      · push_cast; rw [zero_add, div_lt_one hP]; exact hlt
    rw [this]; push_cast; ring
  rw [watuCoef, hmod]
  have hdt : period / nb ≠ 0 := by positivity
  obtain ⟨q, hq, a1, a2, e⟩ := interp_spec hP signal hnb h0 hlt
  have hdt0 : 0 < period / nb := by positivity
  have b1 : (q : ℝ) ≤ i := le_of_mul_le_mul_left a1 hdt0
  have b2 : (i : ℝ) ≤ q + 1 := le_of_mul_le_mul_left a2 hdt0
  have b1' : q ≤ i := by exact_mod_cast b1
  have b2' : i ≤ q + 1 := by exact_mod_cast b2
  rw [e]
  rcases Nat.lt_or_ge q i with h | h
  · have : i = q + 1 := by omega
    subst this
    rw [Nat.mod_eq_of_lt hi]
    congr 1
    push_cast
    field_simp
    ring
  · have : q = i := by omega
    subst this
    simp

/-- C63: the masks of the boards are between 0 and 1 if the amplitude is smaller than half the length. -/
theorem C63_watu_mask {width amplitude lx ly : ℝ} (hw : 0 < width) (ha : amplitude < lx / 2) (X Y : ℝ) :
    0 < watuMask width amplitude lx ly X Y ∧ watuMask width amplitude lx ly X Y < 1 := by
  have p : ∀ x, 0 < stepFunc width x := fun x => half_tanh_pos _
  have l : ∀ x, stepFunc width x < 1 := fun x => half_tanh_lt _
  have hsum : stepFunc width (-(X - amplitude)) + stepFunc width (X - (lx - amplitude)) < 1 := by
    have h : (X - (lx - amplitude)) / width < (X - amplitude) / width :=
      div_lt_div_of_pos_right (by linarith) hw
    have h2 := half_tanh_strict h
    have h3 : Real.tanh (-(X - amplitude) / width) = -Real.tanh ((X - amplitude) / width) := by
      rw [neg_div, Real.tanh_neg]
    simp only [stepFunc, h3]
    linarith
  have hs0 : 0 < stepFunc width (-(X - amplitude)) + stepFunc width (X - (lx - amplitude)) :=
    add_pos (p _) (p _)
  simp only [watuMask]
  refine ⟨mul_pos (mul_pos hs0 (p _)) (p _), ?_⟩
  have m1 := mul_lt_mul'' hsum (l (Y - (amplitude + 0.15))) hs0.le (p _).le
  rw [one_mul] at m1
  have m2 := mul_lt_mul'' m1 (l (-(Y - (ly - (amplitude + 0.15))))) (mul_pos hs0 (p _)).le (p _).le
  rwa [one_mul] at m2

/-- C63: the width of the masks is positive: `C63_watu_mask` applies. -/
theorem C63_watu_width {amplitude lx : ℝ} (hlx : 0 < lx) {nx : ℕ} (hnx : 0 < nx) :
    0 < watuWidth amplitude lx nx := by
  have : (0 : ℝ) < nx := by exact_mod_cast hnx
  exact lt_max_of_lt_left (by positivity)

/-- C63: an explicit step with the force of a board alone, with a time step of at most `deltat_max`, brings the
velocity closer to the one of the board, without passing it. -/
theorem C63_watu_relaxation {dt dtMax mask coef target u : ℝ} (hdt : 0 < dt) (hmax : dt ≤ dtMax) (hs : 0 < mask)
    (hs2 : mask < 1) :
    u + dt * watuForce (sigma dtMax) mask coef target u - coef * target
      = (1 - dt / dtMax * mask / 2) * (u - coef * target) ∧
    1 / 2 < 1 - dt / dtMax * mask / 2 ∧ 1 - dt / dtMax * mask / 2 < 1 := by
  have h := C63_relaxation (speed := coef * target) (u := u) hdt hmax hs.le (by linarith)
  refine ⟨?_, ?_, ?_⟩
  · rw [← h.1]; simp only [watuForce, forceX]
  · have hM : 0 < dtMax := lt_of_lt_of_le hdt hmax
    have h1 : dt / dtMax ≤ 1 := (div_le_one hM).mpr hmax
    have h0 : 0 < dt / dtMax := by positivity
    nlinarith
  · have hM : 0 < dtMax := lt_of_lt_of_le hdt hmax
    have : 0 < dt / dtMax * mask := by positivity
    linarith

/-- C63: in a new directory, each of the boards has its signal. Missing: a directory which already contains
signals. -/
theorem C63_watu_boards_partial :
    watuComponents 1 (watuSignals none 1) = .ok ["vx_fft"] ∧
    watuComponents 2 (watuSignals none 2) = .ok ["vx_fft", "vy_fft"] ∧
    ∀ nb, nb ≠ 1 → nb ≠ 2 → watuComponents nb (watuSignals none nb) = .error "NotImplementedError" := by
  refine ⟨rfl, rfl, ?_⟩
  intro nb h1 h2
  simp [watuComponents, h1, h2]

/-- C63, finding: if the directory contains the file of a simulation with one board, a simulation with two boards
reads its single signal and fails when the force is computed. -/
theorem C63_watu_boards_violated : watuComponents 2 (watuSignals (some 1) 2) = .error "IndexError" := rfl

end

end Verif.Prescribed
