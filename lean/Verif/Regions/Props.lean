import Verif.Regions.Spec
import Verif.SpatialMeans.Props3dStrat
import Verif.Galerkin.Lemmas
import Mathlib.Tactic.LinearCombination
import Mathlib.Tactic.FieldSimp
import Mathlib.Tactic.NormNum

set_option linter.unusedSectionVars false

/-! # C81: energy budgets over regions -/

namespace Verif.Regions

open Verif.Reduce

section limits

variable {K : Type} [Field K] [LinearOrder K] [IsStrictOrderedRing K]

theorem argmin_le (f : ℕ → K) (n : ℕ) : argmin f n ≤ n ∧ (∀ i ≤ n, f (argmin f n) ≤ f i) ∧
    ∀ i < argmin f n, f (argmin f n) < f i := by
  induction n with
  | zero => exact ⟨le_refl _, fun i hi => by rw [Nat.le_zero.1 hi]; rfl, fun i hi => absurd hi (Nat.not_lt_zero _)⟩
  | succ n ih =>
    obtain ⟨h1, h2, h3⟩ := ih
    rw [argmin]
    split
    · rename_i h
      refine ⟨le_refl _, fun i hi => ?_, fun i hi => lt_of_lt_of_le h (h2 i (by omega))⟩
      rcases Nat.lt_or_ge n i with h' | h'
      · rw [show i = n + 1 by omega]
      · exact (h.trans_le (h2 i h')).le
    · rename_i h
      refine ⟨by omega, fun i hi => ?_, h3⟩
      rcases Nat.lt_or_ge n i with h' | h'
      · rw [show i = n + 1 by omega]; exact not_lt.1 h
      · exact h2 i h'

/-- C81: the limits of a region are grid points, the nearest ones of the positions which are asked. -/
theorem C81_limits {nx : ℕ} (hnx : 0 < nx) (dx x : K) :
    snap nx dx x < nx ∧ ∀ i < nx, |(snap nx dx x : K) * dx - x| ≤ |(i : K) * dx - x| := by
  obtain ⟨h1, h2, _⟩ := argmin_le (fun i => |(i : K) * dx - x|) (nx - 1)
  exact ⟨by unfold snap; omega, fun i hi => h2 i (by omega)⟩

/-- Grid points are kept. -/
theorem C81_limits_grid {nx i : ℕ} (hi : i < nx) {dx : K} (hdx : 0 < dx) : snap nx dx ((i : K) * dx) = i := by
  have h := (C81_limits (Nat.zero_lt_of_lt hi) dx ((i : K) * dx)).2 i hi
  rw [sub_self, abs_zero] at h
  have h0 := abs_eq_zero.1 (le_antisymm h (abs_nonneg _))
  have : (snap nx dx ((i : K) * dx) : K) = i := by
    rw [← sub_mul] at h0
    rcases mul_eq_zero.1 h0 with h1 | h1
    · exact sub_eq_zero.1 h1
    · exact absurd h1 hdx.ne'
  exact_mod_cast this

example : regions 10 (2 : ℚ) [0, 1 / 5, 0.42] [1, 3 / 10, 0.58] = .ok [(0, 9), (2, 3), (4, 6)] := by decide +kernel

/-- C81: the numbers of limits have to be the same. -/
theorem C81_number_of_limits (nx : ℕ) (Lx : K) (xmin xmax : List K) :
    (regions nx Lx xmin xmax = .error .value ↔ xmin.length ≠ xmax.length) ∧
      ∀ rs, regions nx Lx xmin xmax = .ok rs → rs.length = xmin.length := by
  unfold regions
  split
  · rename_i h
    exact ⟨⟨fun _ => fun h' => h h'.symm, fun _ => rfl⟩, fun rs h => by cases h⟩
  · rename_i h
    have h := not_not.1 h
    refine ⟨⟨fun h' => by (cases h'), fun h' => absurd h.symm h'⟩, fun rs h' => ?_⟩
    cases h'
    simp [h]

/-- C81, finding: a region asked up to the end of the domain stops one grid step before it (unless it is the whole
domain): the position `Lx` is at the index `nx`, i.e. 0, but the nearest index is searched without the
periodicity. -/
theorem C81_last_limit_violated {nx : ℕ} (hnx : 0 < nx) {Lx : K} (hL : 0 < Lx) :
    (snap nx (Lx / nx) Lx : K) * (Lx / nx) = Lx - Lx / nx := by
  have hn : (0 : K) < nx := by exact_mod_cast hnx
  obtain ⟨h1, h2⟩ := C81_limits hnx (Lx / nx) Lx
  have h3 := h2 (nx - 1) (by omega)
  have e : ((nx - 1 : ℕ) : K) = nx - 1 := by rw [Nat.cast_sub hnx]; simp
  have e1 : ∀ i : ℕ, (i : K) * (Lx / nx) - Lx = -((nx - i) * (Lx / nx)) := by
    intro i; field_simp; ring
  have hd : 0 < Lx / nx := div_pos hL hn
  have hs : (snap nx (Lx / nx) Lx : K) < nx := by exact_mod_cast h1
  rw [e1, e1, e, abs_neg, abs_neg, abs_of_nonneg (mul_nonneg (by linarith) hd.le),
    abs_of_nonneg (mul_nonneg (by linarith) hd.le)] at h3
  have h4 := le_of_mul_le_mul_right h3 hd
  have h5 : nx - 1 ≤ snap nx (Lx / nx) Lx := by
    have : ((nx - 1 : ℕ) : K) ≤ snap nx (Lx / nx) Lx := by rw [e]; linarith
    exact_mod_cast this
  have h6 : snap nx (Lx / nx) Lx = nx - 1 := by omega
  rw [h6, e]
  field_simp

end limits

variable {K : Type} [Field K]

theorem mapIdx_const {β γ : Type} (f : β → γ) (l : List β) : (l.mapIdx fun _ a => f a) = l.map f := by
  induction l with
  | nil => rfl
  | cons a l ih => rw [List.mapIdx_cons, ih, List.map_cons]

theorem getD_map_rows {β γ : Type} (f : β → γ) (l : List (List β)) (i : ℕ) :
    (l.map fun row => row.map f).getD i [] = (l.getD i []).map f := by
  by_cases h : i < l.length
  · simp [List.getD_eq_getElem?_getD, h]
  · simp [List.getD_eq_getElem?_getD, List.getElem?_eq_none (Nat.not_lt.1 h)]

theorem mean_eq {blocks : List (Block (Cell K))} {whole : List (List (Cell K))} (h : Distributes blocks whole)
    (hx : NotSplit blocks whole) {r : ℕ × ℕ} (h1 : r.1 ≤ r.2) (h2 : r.2 < whole.length) (g : Cell K → K) :
    mean r blocks g = avgRegion whole r g := by
  have hd := distributes_mapLevel h fun _ c => g c
  rw [mapIdx_const] at hd
  rw [mean, C46_region_partial hd ?_ h1 (by simpa using h2)]
  · simp only [avgRegion, avg, points, getD_map_rows]
    have e : ((List.range' r.1 (r.2 + 1 - r.1)).map fun i => (whole.getD i []).map g).flatten
        = (((List.range' r.1 (r.2 + 1 - r.1)).map fun i => whole.getD i []).flatten).map g := by
      rw [List.map_flatten, List.map_map]; rfl
    rw [e, List.length_map]
  · intro b hb
    obtain ⟨b, hb', rfl⟩ := List.mem_map.1 hb
    simpa [Block.mapLevel] using hx b hb'

theorem avg_map (g : Cell K → K) (l : List (Cell K)) : (l.map g).sum / ((l.map g).length : K) = avg g l := by
  rw [avg, List.length_map]

theorem flux_eq {c : Config K} {blocks : List (Block (Cell K))} {whole : List (List (Cell K))}
    (hn : c.nx = whole.length) (h : Distributes blocks whole) {r : ℕ × ℕ} (h1 : r.1 ≤ r.2) (h2 : r.2 < whole.length)
    (hw : ¬ IsWhole whole r) (g : Cell K → K) : fluxPair c r blocks g = enters whole c.dx r g := by
  have hd := distributes_mapLevel h fun _ (p : Cell K) => p.vx * g p
  rw [mapIdx_const] at hd
  have h3 := (C46_fluxes hd h1 (by simpa using h2) c.dx).1 (by simpa [IsWhole] using hw)
  rw [List.length_map] at h3
  rw [fluxPair, hn, h3]
  simp only [getD_map_rows, avg_map, enters]

/-- `avgRegion` is linear. -/
theorem avg_add (whole : List (List (Cell K))) (r : ℕ × ℕ) (f g : Cell K → K) :
    avgRegion whole r f + avgRegion whole r g = avgRegion whole r fun p => f p + g p := by
  simp only [avgRegion, avg, ← add_div]
  congr 1
  induction points whole r.1 r.2 with
  | nil => simp
  | cons a l ih => simp only [List.map_cons, List.sum_cons, ← ih]; ring

theorem avg_div (whole : List (List (Cell K))) (r : ℕ × ℕ) (f : Cell K → K) (a : K) :
    avgRegion whole r f / a = avgRegion whole r fun p => f p / a := by
  simp only [avgRegion, avg]
  rw [div_right_comm]
  congr 1
  induction points whole r.1 r.2 with
  | nil => simp
  | cons b l ih => simp only [List.map_cons, List.sum_cons, ← ih, add_div]

theorem avg_neg (whole : List (List (Cell K))) (r : ℕ × ℕ) (f : Cell K → K) :
    -avgRegion whole r f = avgRegion whole r fun p => -f p := by
  simp only [avgRegion, avg, ← neg_div]
  congr 1
  induction points whole r.1 r.2 with
  | nil => simp
  | cons b l ih => simp only [List.map_cons, List.sum_cons, ← ih]; ring

/-- The columns are where they are announced. -/
theorem cols (t a1 a2 a3 a4 a5 a6 a7 a8 a9 a10 a11 a12 a13 a14 a15 a16 a17 a18 : K) :
    let l := [t, a1, a2, a3, a4, a5, a6, a7, a8, a9, a10, a11, a12, a13, a14, a15, a16, a17, a18]
    col "time" l = t ∧ col "EK" l = a1 ∧ col "EKz" l = a2 ∧ col "EA" l = a3 ∧ col "epsK" l = a4 ∧
      col "epsA" l = a5 ∧ col "conv_K2A" l = a6 ∧ col "PK" l = a7 ∧ col "PA" l = a8 ∧
      col "flux_Pnl_xmin" l = a9 ∧ col "flux_Pnl_xmax" l = a10 ∧ col "flux_v2_xmin" l = a11 ∧
      col "flux_v2_xmax" l = a12 ∧ col "flux_P_dz_b_xmin" l = a13 ∧ col "flux_P_dz_b_xmax" l = a14 ∧
      col "flux_Pforcing_xmin" l = a15 ∧ col "flux_Pforcing_xmax" l = a16 ∧ col "flux_A_xmin" l = a17 ∧
      col "flux_A_xmax" l = a18 := by
  refine ⟨rfl, rfl, rfl, rfl, rfl, rfl, rfl, rfl, rfl, rfl, rfl, rfl, rfl, rfl, rfl, rfl, rfl, rfl, rfl⟩

theorem row_cols (c : Config K) (t : K) (blocks : List (Block (Cell K))) (r : ℕ × ℕ) :
    let l := row c t blocks r
    col "time" l = t ∧ col "EK" l = mean r blocks vh2 + mean r blocks vz2 ∧ col "EKz" l = mean r blocks vz2 ∧
      col "EA" l = mean r blocks (eA c.N) ∧
      col "epsK" l = mean r blocks (fun p => p.vx * p.dvx + p.vy * p.dvy + p.vz * p.dvz) ∧
      col "epsA" l = mean r blocks (fun p => p.b * p.db) / c.N ^ 2 ∧
      col "conv_K2A" l = -mean r blocks (fun p => p.b * p.vz) ∧
      col "PK" l = mean r blocks (fun p => p.vx * p.fx + p.vy * p.fy + (p.fx ^ 2 + p.fy ^ 2) * c.deltat / 2) ∧
      col "PA" l = 0 ∧
      col "flux_Pnl_xmin" l = (fluxPair c r blocks (·.pNl)).1 ∧
      col "flux_Pnl_xmax" l = (fluxPair c r blocks (·.pNl)).2 ∧
      col "flux_v2_xmin" l = (fluxPair c r blocks fun p => vh2 p + vz2 p).1 ∧
      col "flux_v2_xmax" l = (fluxPair c r blocks fun p => vh2 p + vz2 p).2 ∧
      col "flux_P_dz_b_xmin" l = (fluxPair c r blocks (·.pDzB)).1 ∧
      col "flux_P_dz_b_xmax" l = (fluxPair c r blocks (·.pDzB)).2 ∧
      col "flux_Pforcing_xmin" l = (fluxPair c r blocks (·.pForcing)).1 ∧
      col "flux_Pforcing_xmax" l = (fluxPair c r blocks (·.pForcing)).2 ∧
      col "flux_A_xmin" l = (fluxPair c r blocks (eA c.N)).1 ∧
      col "flux_A_xmax" l = (fluxPair c r blocks (eA c.N)).2 :=
  cols _ _ _ _ _ _ _ _ _ _ _ _ _ _ _ _ _ _ _

theorem fluxCurve_row (c : Config K) (t : K) (blocks : List (Block (Cell K))) (r : ℕ × ℕ) :
    fluxCurve (row c t blocks r) =
      ((fluxPair c r blocks (·.pNl)).1 + (fluxPair c r blocks (·.pNl)).2)
      + (((fluxPair c r blocks (·.pForcing)).1 + (fluxPair c r blocks (·.pForcing)).2)
      + (((fluxPair c r blocks (eA c.N)).1 + (fluxPair c r blocks (eA c.N)).2)
      + (((fluxPair c r blocks (·.pDzB)).1 + (fluxPair c r blocks (·.pDzB)).2) + 0))) := rfl

/-- C81: with the forcing, for every distribution over the processes (the x axis not being split), a line is
written for each region, and its columns are the means over the region of the announced quantities, and what enters
through its two surfaces. Missing: distributions along x (`C46_region_violated`), regions with one plane or no
point, runs without forcing (`C81_no_forcing_violated`). -/
theorem C81_lines_partial [DecidableEq K] [CharZero K] {c : Config K} {t : K} {blocks : List (Block (Cell K))}
    {whole : List (List (Cell K))} (hN : c.N ≠ 0) (hf : c.forcing = true) (hz : c.fzZero = true)
    (hn : c.nx = whole.length) (h : Distributes blocks whole) (hx : NotSplit blocks whole) (rs : List (ℕ × ℕ))
    (hr : ∀ r ∈ rs, r.1 < r.2 ∧ r.2 < whole.length) :
    ∃ lines, saveOne c t blocks rs = .ok lines ∧ lines.length = rs.length ∧
      ∀ (i : ℕ) (hi : i < rs.length), ∃ l, lines[i]? = some l ∧ l.length = header.length ∧
        let r := rs[i]
        let m := avgRegion whole r
        col "time" l = t ∧
        col "EK" l = m (fun p => (p.vx ^ 2 + p.vy ^ 2 + p.vz ^ 2) / 2) ∧
        col "EKz" l = m (fun p => p.vz ^ 2 / 2) ∧
        col "EA" l = m (fun p => p.b ^ 2 / (2 * c.N ^ 2)) ∧
        col "epsK" l = m (fun p => p.vx * p.dvx + p.vy * p.dvy + p.vz * p.dvz) ∧
        col "epsA" l = m (fun p => p.b * p.db / c.N ^ 2) ∧
        col "conv_K2A" l = m (fun p => -(p.vz * p.b)) ∧
        col "PK" l = m (fun p => p.vx * p.fx + p.vy * p.fy + c.deltat / 2 * (p.fx ^ 2 + p.fy ^ 2)) ∧
        col "PA" l = 0 ∧
        (¬ IsWhole whole r →
          let e := enters whole c.dx r
          (col "flux_Pnl_xmin" l, col "flux_Pnl_xmax" l) = e (·.pNl) ∧
          (col "flux_v2_xmin" l, col "flux_v2_xmax" l) = e (fun p => (p.vx ^ 2 + p.vy ^ 2 + p.vz ^ 2) / 2) ∧
          (col "flux_P_dz_b_xmin" l, col "flux_P_dz_b_xmax" l) = e (·.pDzB) ∧
          (col "flux_Pforcing_xmin" l, col "flux_Pforcing_xmax" l) = e (·.pForcing) ∧
          (col "flux_A_xmin" l, col "flux_A_xmax" l) = e (fun p => p.b ^ 2 / (2 * c.N ^ 2))) ∧
        (IsWhole whole r → fluxCurve l = 0) := by
  refine ⟨rs.map (row c t blocks), by simp [saveOne, hN, hf, hz], by simp, fun i hi => ?_⟩
  obtain ⟨h1, h2⟩ := hr rs[i] (List.getElem_mem hi)
  refine ⟨row c t blocks rs[i], by simp [hi], rfl, ?_⟩
  generalize rs[i] = r at h1 h2
  intro r' m
  have hm := fun g => mean_eq h hx h1.le h2 g
  obtain ⟨c0, c1, c2, c3, c4, c5, c6, c7, c8, c9, c10, c11, c12, c13, c14, c15, c16, c17, c18⟩ := row_cols c t blocks r
  have eEA : (eA c.N : Cell K → K) = fun p => p.b ^ 2 / (2 * c.N ^ 2) := by
    funext p; simp only [eA]; field_simp
  have ev2 : (fun p : Cell K => vh2 p + vz2 p) = fun p => (p.vx ^ 2 + p.vy ^ 2 + p.vz ^ 2) / 2 := by
    funext p; simp only [vh2, vz2]; ring
  refine ⟨c0, ?_, ?_, ?_, ?_, ?_, ?_, ?_, c8, ?_, ?_⟩
  · rw [c1, hm, hm, avg_add, ev2]
  · rw [c2, hm]; congr 1; funext p; simp only [vz2]; ring
  · rw [c3, hm, eEA]
  · rw [c4, hm]
  · rw [c5, hm, avg_div]
  · rw [c6, hm, avg_neg]; congr 1; funext p; ring
  · rw [c7, hm]; congr 1; funext p; ring
  · intro hw
    have hf := fun g => flux_eq hn h h1.le h2 hw g
    refine ⟨?_, ?_, ?_, ?_, ?_⟩
    · rw [c9, c10, hf]
    · rw [c11, c12, hf, ev2]
    · rw [c13, c14, hf]
    · rw [c15, c16, hf]
    · rw [c17, c18, hf, eEA]
  · intro hw
    have hz : ∀ g, (fluxPair c r blocks g).1 + (fluxPair c r blocks g).2 = 0 := by
      intro g
      have hn0 : 0 < c.nx := by rw [hn, ← hw.2]; omega
      have := C46_flux_whole_domain (blocks := blocks.map (Block.mapLevel fun _ p => p.vx * g p)) hn0 c.dx
      have e1 : r.1 = 0 := hw.1
      have e2 : r.2 = c.nx - 1 := by have h9 : r.2 + 1 = whole.length := hw.2; omega
      rw [fluxPair, e1, e2]
      exact this
    have e := fluxCurve_row c t blocks r
    rw [e, hz, hz, hz, hz]; simp

/-- Two processes with 2 lines of 4 points each, two regions. -/
example :
    let cell : ℚ → Cell ℚ := fun a => ⟨a, 1, 0, 2, 3 * a, 3, 0, 6, 1, 0, a, 0, 1⟩
    let rows : ℚ → List (List (Cell ℚ)) := fun a => [[cell a], [cell (2 * a)], [cell a], [cell 0]]
    let c : Config ℚ := ⟨4, 1 / 2, 2, 1, true, true⟩
    ∃ whole : List (List (Cell ℚ)), Distributes [⟨0, rows 1⟩, ⟨0, rows 3⟩] whole ∧
      NotSplit [⟨0, rows 1⟩, ⟨0, rows 3⟩] whole ∧ c.nx = whole.length ∧
      (saveOne c 7 [⟨0, rows 1⟩, ⟨0, rows 3⟩] [(1, 2), (0, 3)]).map (List.map fun l =>
        [col "time" l, col "EK" l, col "epsA" l, col "flux_Pnl_xmin" l, col "flux_Pnl_xmax" l, fluxCurve l])
        = .ok [[7, 27 / 4, 3, 40, -10, 36], [7, 17 / 4, 3, 5 / 2, -(5 / 2), 0]] := by
  intro cell rows c
  refine ⟨[[cell 1, cell 3], [cell 2, cell 6], [cell 1, cell 3], [cell 0, cell 0]], ⟨?_, ?_⟩, ?_, rfl, ?_⟩
  · simp [rows]
  · intro i hi
    simp only [List.length_cons, List.length_nil] at hi
    have : i = 0 ∨ i = 1 ∨ i = 2 ∨ i = 3 := by omega
    rcases this with rfl | rfl | rfl | rfl <;> norm_num [rows, Block.row]
  · simp [NotSplit, rows]
  · decide +kernel

/-- C81: for each region which is not the whole domain, the curve "All terms" of `plot_budget` is the work of the
force minus the dissipation plus what enters through the surfaces for `P + eA`, where `P` is the sum of the parts of
the pressure (`|v|²/2` is not added: it is in `P`, see `C81_pressure`). -/
theorem C81_budget_partial [DecidableEq K] [CharZero K] {c : Config K} {t : K} {blocks : List (Block (Cell K))}
    {whole : List (List (Cell K))} (hN : c.N ≠ 0) (hn : c.nx = whole.length) (h : Distributes blocks whole)
    (hx : NotSplit blocks whole) {r : ℕ × ℕ} (hr : r.1 < r.2 ∧ r.2 < whole.length) :
    let l := row c t blocks r
    let m := avgRegion whole r
    let e := enters whole c.dx r (fun p => p.pNl + p.pForcing + p.pDzB + p.b ^ 2 / (2 * c.N ^ 2))
    allTerms l = forcingCurve l + viscosityCurve l + fluxCurve l ∧
    forcingCurve l = m (fun p => p.vx * p.fx + p.vy * p.fy + c.deltat / 2 * (p.fx ^ 2 + p.fy ^ 2)) ∧
    viscosityCurve l = -m (fun p => p.vx * p.dvx + p.vy * p.dvy + p.vz * p.dvz + p.b * p.db / c.N ^ 2) ∧
    fluxCurve l = if r.1 = 0 ∧ r.2 + 1 = whole.length then 0 else e.1 + e.2 := by
  intro l m e
  have hm := fun g => mean_eq h hx hr.1.le hr.2 g
  obtain ⟨c0, c1, c2, c3, c4, c5, c6, c7, c8, c9, c10, c11, c12, c13, c14, c15, c16, c17, c18⟩ := row_cols c t blocks r
  have eEA : (eA c.N : Cell K → K) = fun p => p.b ^ 2 / (2 * c.N ^ 2) := by
    funext p; simp only [eA]; field_simp
  refine ⟨by simp only [allTerms, forcingCurve, viscosityCurve]; ring, ?_, ?_, ?_⟩
  · rw [forcingCurve, c7, c8, hm, add_zero]; congr 1; funext p; ring
  · rw [viscosityCurve, c4, c5, hm, hm, avg_div, avg_add]
  · rw [fluxCurve_row, eEA]
    split
    · rename_i hw
      have hz : ∀ g, (fluxPair c r blocks g).1 + (fluxPair c r blocks g).2 = 0 := by
        intro g
        have hn0 : 0 < c.nx := by omega
        have := C46_flux_whole_domain (blocks := blocks.map (Block.mapLevel fun _ p => p.vx * g p)) hn0 c.dx
        rw [fluxPair, hw.1, show r.2 = c.nx - 1 by omega]
        exact this
      rw [hz, hz, hz, hz]; simp
    · rename_i hw
      have hf := fun g => flux_eq hn h hr.1.le hr.2 hw g
      have hs : ∀ (f g : Cell K → K) (L : List (Cell K)),
          avg (fun p => p.vx * f p) L + avg (fun p => p.vx * g p) L = avg (fun p => p.vx * (f p + g p)) L := by
        intro f g L
        simp only [avg, ← add_div]
        congr 1
        induction L with
        | nil => simp
        | cons a L ih => simp only [List.map_cons, List.sum_cons, ← ih]; ring
      rw [hf, hf, hf, hf]
      simp only [e, enters, ← hs]
      ring

/-- C81: during a time step, the force alone increases the kinetic energy of the region by `deltat * PK`. -/
theorem C81_injection (whole : List (List (Cell K))) [CharZero K] (r : ℕ × ℕ) (dt : K) :
    dt * avgRegion whole r (fun p => p.vx * p.fx + p.vy * p.fy + dt / 2 * (p.fx ^ 2 + p.fy ^ 2))
      = avgRegion whole r (fun p => ((p.vx + dt * p.fx) ^ 2 + (p.vy + dt * p.fy) ^ 2 + p.vz ^ 2) / 2)
        - avgRegion whole r (fun p => (p.vx ^ 2 + p.vy ^ 2 + p.vz ^ 2) / 2) := by
  simp only [avgRegion, avg]
  rw [← sub_div, ← mul_div_assoc]
  congr 1
  induction points whole r.1 r.2 with
  | nil => simp
  | cons a l ih =>
    simp only [List.map_cons, List.sum_cons]
    rw [mul_add, ih]; ring

/-- C81, finding: without forcing, nothing can be saved: `P_forcing` is used but never computed. The output, which
saves when it is created, cannot be created. -/
theorem C81_no_forcing_violated [DecidableEq K] {c : Config K} (hN : c.N ≠ 0) (hf : c.forcing = false) (t : K)
    (blocks : List (Block (Cell K))) (rs : List (ℕ × ℕ)) : saveOne c t blocks rs = .error .unboundLocal := by
  simp [saveOne, hN, hf]

example : saveOne (⟨1, 1, 1, 1, false, true⟩ : Config ℚ) 0 [] [] = .error .unboundLocal := by decide +kernel

/-- C81, finding: without stratification (`N = 0`, allowed by the solver), nothing can be saved: division by zero. -/
theorem C81_N_zero_violated [DecidableEq K] {c : Config K} (hN : c.N = 0) (t : K) (blocks : List (Block (Cell K)))
    (rs : List (ℕ × ℕ)) : saveOne c t blocks rs = .error .zeroDivision := by
  simp [saveOne, hN]

/-- C81: a force with a vertical component is refused. -/
theorem C81_vertical_force [DecidableEq K] {c : Config K} (hN : c.N ≠ 0) (hf : c.forcing = true)
    (hz : c.fzZero = false) (t : K) (blocks : List (Block (Cell K))) (rs : List (ℕ × ℕ)) :
    saveOne c t blocks rs = .error .assertion := by
  simp [saveOne, hN, hf, hz]

/-! ### The files -/

/-- The lines of the operations, in order. -/
def linesOf : List (Op K) → List (List K)
  | [] => []
  | .start _ l :: os => l :: linesOf os
  | .save l :: os => l :: linesOf os

theorem run_some [DecidableEq K] (os : List (Op K)) (f : File K)
    (h : ∀ lim l, Op.start lim l ∈ os → lim = (f.xmin, f.xmax)) :
    run (some f) os = .ok (some ⟨f.xmin, f.xmax, f.lines ++ linesOf os⟩) := by
  induction os generalizing f with
  | nil => simp [run, linesOf]
  | cons o os ih =>
    have e : step (some f) o = .ok (some ⟨f.xmin, f.xmax, f.lines ++ linesOf [o]⟩) := by
      cases o with
      | start lim l =>
        have := h lim l (by simp)
        subst this
        simp [step, initFile, linesOf, bind, Except.bind, pure, Except.pure]
      | save l => simp [step, linesOf]
    rw [run, e]
    show run (some ⟨f.xmin, f.xmax, f.lines ++ linesOf [o]⟩) os = _
    rw [ih ⟨f.xmin, f.xmax, f.lines ++ linesOf [o]⟩ (fun lim l hl => h lim l (by simp [hl]))]
    cases o <;> simp [linesOf]

/-- C81: the file of a region, created by the first start, contains the limits and all the lines, in order, for any
number of restarts with the same regions: nothing is lost. -/
theorem C81_file [DecidableEq K] (lim : K × K) (l0 : List K) (os : List (Op K))
    (h : ∀ lim' l, Op.start lim' l ∈ os → lim' = lim) :
    run none (.start lim l0 :: os) = .ok (some ⟨lim.1, lim.2, l0 :: linesOf os⟩) := by
  rw [run]
  show run (some ⟨lim.1, lim.2, [] ++ [l0]⟩) os = _
  rw [run_some os _ h]
  rfl

/-- C81: a restart with other limits is refused, and the file is not changed. -/
theorem C81_other_limits [DecidableEq K] (f : File K) (lim : K × K) (l : List K) :
    step (some f) (.start lim l) = .error .value ↔ lim ≠ (f.xmin, f.xmax) := by
  obtain ⟨a, b⟩ := lim
  simp only [step, initFile, bind, Except.bind, pure, Except.pure]
  split
  · rename_i h
    split at h
    · rename_i h'
      cases h
      simp only [true_iff, ne_eq, Prod.mk.injEq, not_and_or]
      rcases h' with h' | h'
      · exact Or.inl fun e => h' e.symm
      · exact Or.inr fun e => h' e.symm
    · cases h
  · rename_i h
    split at h
    · cases h
    · rename_i h'
      simp only [not_or, not_not] at h'
      simp [h'.1, h'.2]

/-- C81, finding: a restart writes again the line of the time from which it starts: the times of the file are not
strictly increasing. -/
theorem C81_restart_violated : ∃ os : List (Op ℚ), ∃ f,
    os = [.start (0, 1) [0], .save [1], .start (0, 1) [1], .save [2]] ∧ run none os = .ok (some f) ∧
      f.lines.map (col "time") = [0, 1, 1, 2] :=
  ⟨_, _, rfl, rfl, by decide +kernel⟩

end Verif.Regions

namespace Verif.Regions

open Verif.Fourier Verif.Energy Verif.Vectors Verif.Galerkin

noncomputable section

/-! ### The pressure -/

theorem k2_zero {q : K3} (h : k2 q = 0) : q.x = 0 ∧ q.y = 0 ∧ q.z = 0 := by
  simp only [k2, kh2] at h
  have := sq_nonneg q.x
  have := sq_nonneg q.y
  have := sq_nonneg q.z
  exact ⟨pow_eq_zero_iff (two_ne_zero) |>.1 (by linarith), pow_eq_zero_iff (two_ne_zero) |>.1 (by linarith),
    pow_eq_zero_iff (two_ne_zero) |>.1 (by linarith)⟩

/-- C81: without rotation, the sum `P` of the three parts of the pressure is such that the tendency of the velocity
(with the force, after the projection) is `v × ω + b ez + F - ∇P`, and `P - |v|²/2` is the pressure of the
documented equation `∂t v = -(v·∇)v - ∇p + b ez + F`. The tendency has no divergence. Missing: rotation
(`C81_rotation_violated`). -/
theorem C81_pressure_partial {n : Fin 3 → ℕ} (hn : ∀ d, 0 < n d) {S : Finset (Fin 3 → ℤ)} (hS : NoAlias n S)
    (δ : Fin 3 → ℝ) {e0 : ℝ} (v F : (Fin 3 → ℤ) → V3) (b : Fld (Fin 3)) {k : Fin 3 → ℤ} (hk : k ∈ S) :
    let q := wave3 δ k
    let P := pNlFft n S δ e0 v k + pForcingFft δ e0 F k + pDzBFft δ e0 b k
    let T := velocityTendency n S δ none v F b k
    T = add (add (add (lamb n S δ none v k) ⟨0, 0, b k⟩) (F k)) (minusGrad q P) ∧
    T = add (add (add (navierStokes S δ 0 v k) ⟨0, 0, b k⟩) (F k)) (minusGrad q (P - halfSquare S v k)) ∧
    kdot q T = 0 := by
  intro q P T
  have h1 : T = add (add (add (lamb n S δ none v k) ⟨0, 0, b k⟩) (F k)) (minusGrad q P) := by
    rcases eq_or_ne (k2 q) 0 with h0 | h0
    · obtain ⟨hx, hy, hz⟩ := k2_zero h0
      simp only [T, velocityTendency, projector, perpk, kradial, add, minusGrad]
      have hx' : (wave3 δ k).x = 0 := hx
      have hy' : (wave3 δ k).y = 0 := hy
      have hz' : (wave3 δ k).z = 0 := hz
      rw [hx', hy', hz']
      ext <;> simp
    · have hne : ((k2 q : ℝ) : ℂ) ≠ 0 := by exact_mod_cast h0
      have e1 : nozero (k2 q) = k2 q := by rw [nozero, if_neg h0]
      have e2 : k2not0 e0 q = k2 q := by rw [k2not0, if_neg h0]
      have hq : wave3 δ k = q := rfl
      simp only [T, P, velocityTendency, projector, perpk, kradial, add, minusGrad, pNlFft, pForcingFft, pDzBFft,
        hq, e1, e2]
      push_cast
      have hI := Complex.I_sq
      ext
      all_goals
        simp only
        field_simp
        simp only [hI]
        ring
  refine ⟨h1, ?_, ?_⟩
  · have h2 := lamb_eq_half hn hS δ none v hk
    rw [h1, h2]
    simp only [add, minusGrad, halfSquare, Option.getD_none]
    ext
    all_goals
      simp only [q]
      ring
  · simp only [T, velocityTendency, projector]
    exact C28_orthogonal q _

end

end Verif.Regions
