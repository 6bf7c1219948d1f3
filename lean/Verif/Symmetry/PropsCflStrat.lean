import Verif.Symmetry.PropsCfl
import Verif.Cfl.PropsStrat

/-!
# C95, C98: runs of ns2d.strat whose time steps are chosen by the CFL condition

ns2d.strat has its own limits on the time steps: the period of the waves, their group velocity and, with a forcing, a limit computed from
`params.forcing.forcing_rate`.
-/

set_option linter.unusedSectionVars false

namespace Verif.Symmetry

open Verif.Fourier Verif.Vectors Verif.Energy Verif.Galerkin Verif.Schemes Verif.EndToEnd Finset

noncomputable section

/-- The wavenumbers `(oper.KX, oper.KY)` of the arrays (`kx ≥ 0`: transforms of real arrays), flattened. -/
def stratModes (G : Finset (Fin 2 → ℤ)) (δ : Fin 2 → ℝ) : List (ℝ × ℝ) := (G.filter fun k => 0 ≤ k 0).toList.map fun k => (δ 0 * k 0, δ 1 * k 1)

/-- The limits of ns2d.strat, computed once (fluidsim/solvers/ns2d/strat/time_stepping.py 31-136). -/
def stratLimits (n : Fin 2 → ℕ) (G : Finset (Fin 2 → ℤ)) (δ : Fin 2 → ℝ) (N : ℝ) (coefGroup rate : Option ℝ) : Except String Cfl.Limits :=
  Cfl.initLimits N (mesh n δ 0) (mesh n δ 1) coefGroup rate [stratModes G δ]

/-- `_compute_time_increment_CFL_uxuyb` (fluidsim/solvers/ns2d/strat/time_stepping.py 138-176). -/
def pickStrat2d (n : Fin 2 → ℕ) (G : Finset (Fin 2 → ℤ)) (δ : Fin 2 → ℝ) (CFL dtMax : ℝ) (L : Cfl.Limits) (u : Fin 2 → Fld (Fin 2)) (h : ℝ) :
    Except String ℝ :=
  Cfl.clfStrat CFL dtMax (mesh n δ 0) (mesh n δ 1) h L [⟨phys G n δ (ux2 δ (u 0)), phys G n δ (uy2 δ (u 0)), []⟩]

/-- The limits with times multiplied by `τ`. -/
def scaled (τ : ℝ) (L : Cfl.Limits) : Cfl.Limits := ⟨L.disp.map (τ * ·), L.group.map (τ * ·), L.forcing.map (τ * ·)⟩

/-! ### The choice -/

/-- The minimum of the limits. -/
def stratMin (CFL dtMax : ℝ) (L : Cfl.Limits) (tmp : ℝ) : ℝ :=
  let m := match L.group with
    | none => min (min (Cfl.deltatCFL CFL dtMax tmp) (L.disp.getD dtMax)) dtMax
    | some g => min (min (min (Cfl.deltatCFL CFL dtMax tmp) (L.disp.getD dtMax)) g) dtMax
  match L.forcing with
    | none => m
    | some f => min m f

theorem pickStrat_eq {n : Fin 2 → ℕ} (hn : ∀ d, 0 < n d) (G : Finset (Fin 2 → ℤ)) {δ : Fin 2 → ℝ} (hδ : ∀ d, δ d ≠ 0) (CFL dtMax : ℝ)
    (L : Cfl.Limits) (u : Fin 2 → Fld (Fin 2)) (h : ℝ) :
    pickStrat2d n G δ CFL dtMax L u h
      = .ok (Cfl.hysteresis h (stratMin CFL dtMax L (∑ d, peak G n δ (vel2 δ (u 0) d) / mesh n δ d))) := by
  obtain ⟨ld, lg, lf⟩ := L
  cases lg <;> cases lf <;> simp [pickStrat2d, Cfl.clfStrat, Cfl.clfUxUyB, stratMin, Cfl.allreduceMax, Cfl.tmpUxUy, (maxAbs_phys G hn hδ _).1, Fin.sum_univ_two, vel2]

theorem hysteresis_scale {τ : ℝ} (hτ : 0 < τ) (h m : ℝ) : Cfl.hysteresis (τ * h) (τ * m) = τ * Cfl.hysteresis h m := by
  unfold Cfl.hysteresis
  rw [← mul_sub, abs_mul, abs_of_pos hτ, mul_div_mul_left _ _ hτ.ne']
  split <;> rfl

theorem deltatCFL_scale {τ : ℝ} (hτ : 0 < τ) (CFL dtMax tmp : ℝ) :
    Cfl.deltatCFL CFL (τ * dtMax) (tmp / τ) = τ * Cfl.deltatCFL CFL dtMax tmp := by
  unfold Cfl.deltatCFL
  have : tmp / τ > 0 ↔ tmp > 0 := div_pos_iff_of_pos_right hτ
  simp only [this]
  split
  · field_simp
  · rfl

theorem stratMin_scale {τ : ℝ} (hτ : 0 < τ) (CFL dtMax : ℝ) (L : Cfl.Limits) (tmp : ℝ) :
    stratMin CFL (τ * dtMax) (scaled τ L) (tmp / τ) = τ * stratMin CFL dtMax L tmp := by
  obtain ⟨d, g, f⟩ := L
  cases d <;> cases g <;> cases f <;>
    simp [stratMin, scaled, deltatCFL_scale hτ, mul_min_of_nonneg _ _ hτ.le]

/-- All the limits are positive. -/
def PosLimits (L : Cfl.Limits) : Prop := (∀ x ∈ L.disp, 0 < x) ∧ (∀ x ∈ L.group, 0 < x) ∧ ∀ x ∈ L.forcing, 0 < x

theorem stratMin_pos {CFL dtMax : ℝ} (hC : 0 < CFL) (hm : 0 < dtMax) {L : Cfl.Limits} (hL : PosLimits L) (tmp : ℝ) :
    0 < stratMin CFL dtMax L tmp := by
  obtain ⟨d, g, f⟩ := L
  obtain ⟨h1, h2, h3⟩ := hL
  have hd : 0 < d.getD dtMax := by cases d with
    | none => exact hm
    | some x => exact h1 x rfl
  have hc : 0 < Cfl.deltatCFL CFL dtMax tmp := Cfl.deltatCFL_pos hC hm
  have hm' : 0 < (match g with
    | none => min (min (Cfl.deltatCFL CFL dtMax tmp) (d.getD dtMax)) dtMax
    | some g => min (min (min (Cfl.deltatCFL CFL dtMax tmp) (d.getD dtMax)) g) dtMax) := by
    cases g with
    | none => exact lt_min (lt_min hc hd) hm
    | some g => exact lt_min (lt_min (lt_min hc hd) (h2 g rfl)) hm
  cases f with
  | none => exact hm'
  | some f => exact lt_min hm' (h3 f rfl)

theorem followsStrat_pos {X : Type*} {CFL dtMax d0 : ℝ} (hC : 0 < CFL) (hm : 0 < dtMax) (h0 : 0 < d0) {L : Cfl.Limits} (hL : PosLimits L)
    {tmp : X → ℝ} {pick : X → ℝ → Except String ℝ} (hp : ∀ x h, pick x h = .ok (Cfl.hysteresis h (stratMin CFL dtMax L (tmp x))))
    {dt : ℕ → ℝ} {r : ℕ → X} (h : Follows pick d0 dt r) (m : ℕ) : 0 < dt m := by
  have key : ∀ x h, 0 < h → 0 < Cfl.hysteresis h (stratMin CFL dtMax L (tmp x)) := fun x h hh => by
    unfold Cfl.hysteresis
    split
    · exact stratMin_pos hC hm hL _
    · exact hh
  obtain ⟨s, hs, h⟩ := h
  have hs0 : 0 < s := by
    rw [hp] at hs
    rw [← Except.ok.inj hs]
    exact key _ _ h0
  induction m with
  | zero =>
    have := h 0
    rw [hp] at this
    rw [← Except.ok.inj this]
    exact key _ _ hs0
  | succ m ih =>
    have := h (m + 1)
    rw [hp] at this
    rw [← Except.ok.inj this]
    exact key _ _ ih

/-! ### The limits -/

theorem foldl_max_scale {c : ℝ} (hc : 0 ≤ c) (l : List ℝ) (x : ℝ) : (l.map (c * ·)).foldl max (c * x) = c * l.foldl max x := by
  induction l generalizing x with
  | nil => rfl
  | cons y l ih => rw [List.map_cons, List.foldl_cons, List.foldl_cons, ← mul_max_of_nonneg _ _ hc, ih]

theorem arrMax_scale {c : ℝ} (hc : 0 ≤ c) (l : List ℝ) : Cfl.arrMax (l.map (c * ·)) = (Cfl.arrMax l).map (c * ·) := by
  cases l with
  | nil => rfl
  | cons x l => exact congrArg Except.ok (foldl_max_scale hc l x)

theorem kNot0_scale {ℓ : ℝ} (hℓ : 0 < ℓ) {k : ℝ × ℝ} (hk : ¬(k.1 = 0 ∧ k.2 = 0)) : Cfl.kNot0 (k.1 / ℓ, k.2 / ℓ) = Cfl.kNot0 k / ℓ := by
  have hk' : ¬(k.1 / ℓ = 0 ∧ k.2 / ℓ = 0) := by simpa [hℓ.ne'] using hk
  unfold Cfl.kNot0
  rw [if_neg hk, if_neg hk']
  simp only
  rw [show (k.1 / ℓ) ^ 2 + (k.2 / ℓ) ^ 2 = (k.1 ^ 2 + k.2 ^ 2) / ℓ ^ 2 by ring, Real.sqrt_div (by positivity), Real.sqrt_sq hℓ.le]

theorem kNot0_pos (k : ℝ × ℝ) : 0 < Cfl.kNot0 k := by
  unfold Cfl.kNot0
  split
  · exact one_pos
  · rename_i h
    apply Real.sqrt_pos.2
    by_contra hc
    exact h ⟨by nlinarith [sq_nonneg k.1, sq_nonneg k.2], by nlinarith [sq_nonneg k.1, sq_nonneg k.2]⟩

theorem dispersion_scale {ℓ τ : ℝ} (hℓ : 0 < ℓ) (N : ℝ) (k : ℝ × ℝ) :
    Cfl.dispersion (N / τ) (k.1 / ℓ, k.2 / ℓ) = 1 / τ * Cfl.dispersion N k := by
  unfold Cfl.dispersion
  by_cases hk : k.1 = 0 ∧ k.2 = 0
  · simp [hk.1]
  · rw [kNot0_scale hℓ hk, div_div_div_cancel_right₀ hℓ.ne']
    ring

theorem cgKx_scale {ℓ τ : ℝ} (hℓ : 0 < ℓ) (N : ℝ) (k : ℝ × ℝ) : Cfl.cgKx (N / τ) (k.1 / ℓ, k.2 / ℓ) = ℓ / τ * Cfl.cgKx N k := by
  unfold Cfl.cgKx
  by_cases hk : k.1 = 0 ∧ k.2 = 0
  · simp [hk.2]
  · rw [kNot0_scale hℓ hk]
    have := (kNot0_pos k).ne'
    have := hℓ.ne'
    field_simp

theorem cgKz_scale {ℓ τ : ℝ} (hℓ : 0 < ℓ) (N : ℝ) (k : ℝ × ℝ) : Cfl.cgKz (N / τ) (k.1 / ℓ, k.2 / ℓ) = ℓ / τ * Cfl.cgKz N k := by
  unfold Cfl.cgKz
  by_cases hk : k.1 = 0 ∧ k.2 = 0
  · simp [hk.2]
  · rw [kNot0_scale hℓ hk]
    have := (kNot0_pos k).ne'
    have := hℓ.ne'
    field_simp

theorem stratModes_scale (G : Finset (Fin 2 → ℤ)) (δ : Fin 2 → ℝ) (ℓ : ℝ) :
    stratModes G (fun d => δ d / ℓ) = (stratModes G δ).map fun k => (k.1 / ℓ, k.2 / ℓ) := by
  simp only [stratModes, List.map_map]
  refine List.map_congr_left fun k _ => ?_
  simp only [Function.comp_apply, Prod.mk.injEq]
  constructor <;> ring

theorem map_max_scale {c ℓ N τ : ℝ} (hc : 0 ≤ c) (l : List (ℝ × ℝ)) {f : ℝ → ℝ × ℝ → ℝ}
    (hf : ∀ k, f (N / τ) (k.1 / ℓ, k.2 / ℓ) = c * f N k) :
    Cfl.arrMax ((l.map fun k => (k.1 / ℓ, k.2 / ℓ)).map (f (N / τ))) = (Cfl.arrMax (l.map (f N))).map (c * ·) := by
  rw [← arrMax_scale hc, List.map_map, List.map_map]
  congr 1
  exact List.map_congr_left fun k _ => hf k

theorem freqGroup_scale {ℓ τ : ℝ} (hℓ : 0 < ℓ) (hτ : 0 < τ) (N dx dy : ℝ) (l : List (ℝ × ℝ)) :
    Cfl.freqGroup (N / τ) (ℓ * dx) (ℓ * dy) (l.map fun k => (k.1 / ℓ, k.2 / ℓ)) = (Cfl.freqGroup N dx dy l).map (1 / τ * ·) := by
  unfold Cfl.freqGroup
  have hc : 0 ≤ ℓ / τ := by positivity
  rw [map_max_scale hc l (cgKx_scale hℓ N), map_max_scale hc l (cgKz_scale hℓ N)]
  cases Cfl.arrMax (l.map (Cfl.cgKx N)) <;> cases Cfl.arrMax (l.map (Cfl.cgKz N)) <;> simp only [Except.map]
  congr 1
  have := hℓ.ne'
  rw [mul_div_mul_comm, mul_div_mul_comm]
  field_simp

theorem quot_scale {τ : ℝ} (hτ : 0 < τ) (c f : ℝ) : Cfl.quot c (1 / τ * f) = (Cfl.quot c f).map (τ * ·) := by
  unfold Cfl.quot
  by_cases hf : f = 0
  · simp [hf]
  · rw [if_neg hf, if_neg (mul_ne_zero (one_div_ne_zero hτ.ne') hf), Option.map_some]
    congr 1
    field_simp

theorem limits_scale {ℓ τ : ℝ} (hℓ : 0 < ℓ) (hτ : 0 < τ) (n : Fin 2 → ℕ) (G : Finset (Fin 2 → ℤ)) (δ : Fin 2 → ℝ) (N : ℝ) (cg : Option ℝ) :
    stratLimits n G (fun d => δ d / ℓ) (N / τ) cg none = (stratLimits n G δ N cg none).map (scaled τ) := by
  unfold stratLimits Cfl.initLimits
  simp only [List.map_cons, List.map_nil, Cfl.allreduceMax, stratModes_scale, mesh_units]
  rw [map_max_scale (c := 1 / τ) (by positivity) _ (dispersion_scale hℓ N), freqGroup_scale hℓ hτ]
  generalize Cfl.freqGroup N _ _ _ = q
  cases Cfl.arrMax ((stratModes G δ).map (Cfl.dispersion N)) with
  | error e => rfl
  | ok fd =>
    simp only [Except.map, quot_scale hτ]
    cases cg with
    | none => simp [scaled]
    | some g =>
      simp only
      by_cases hg : g = 0
      · simp [hg, scaled]
      · simp only [hg, if_false]
        cases q with
        | error e => rfl
        | ok q => simp only [scaled, quot_scale hτ, Option.map_none]

theorem arrMax_nonneg {l : List ℝ} {m : ℝ} (h : Cfl.arrMax l = .ok m) (h0 : ∃ x ∈ l, 0 ≤ x) : 0 ≤ m := by
  obtain ⟨x, hx, h0⟩ := h0
  exact h0.trans (Cfl.arrMax_ge h x hx)

theorem quot_pos {c f : ℝ} (hc : 0 < c) (hf : 0 ≤ f) : ∀ x ∈ Cfl.quot c f, 0 < x := by
  intro x hx
  unfold Cfl.quot at hx
  split at hx
  · cases hx
  · rename_i h
    cases hx
    exact div_pos hc (lt_of_le_of_ne hf (Ne.symm h))

/-- The limits are positive, since the mode 0 is in the arrays. -/
theorem limits_pos {n : Fin 2 → ℕ} {G : Finset (Fin 2 → ℤ)} (h0 : 0 ∈ G) {δ : Fin 2 → ℝ} (hδ : ∀ d, 0 < δ d) {N : ℝ} {cg : Option ℝ}
    (hcg : ∀ x ∈ cg, 0 ≤ x) {rate : Option ℝ} (hrate : ∀ x ∈ rate, 0 < x) {L : Cfl.Limits} (h : stratLimits n G δ N cg rate = .ok L) : PosLimits L := by
  have hmem : ((0 : ℝ), (0 : ℝ)) ∈ stratModes G δ := List.mem_map.2 ⟨0, by simp [h0], by simp⟩
  have hmesh : ∀ d, 0 ≤ mesh n δ d := fun d => by unfold mesh; have := hδ d; positivity
  unfold stratLimits Cfl.initLimits at h
  simp only [List.map_cons, List.map_nil, Cfl.allreduceMax] at h
  cases hd : Cfl.arrMax ((stratModes G δ).map (Cfl.dispersion N)) with
  | error e => rw [hd] at h; cases h
  | ok fd =>
    rw [hd] at h
    have hfd : 0 ≤ fd := arrMax_nonneg hd ⟨_, List.mem_map.2 ⟨_, hmem, rfl⟩, by simp [Cfl.dispersion]⟩
    have hq : ∀ q, Cfl.freqGroup N (mesh n δ 0) (mesh n δ 1) (stratModes G δ) = .ok q → 0 ≤ q := by
      intro q hq
      unfold Cfl.freqGroup at hq
      cases hx : Cfl.arrMax ((stratModes G δ).map (Cfl.cgKx N)) with
      | error e => rw [hx] at hq; cases hq
      | ok mx =>
        cases hz : Cfl.arrMax ((stratModes G δ).map (Cfl.cgKz N)) with
        | error e => rw [hx, hz] at hq; cases hq
        | ok mz =>
          rw [hx, hz] at hq
          rw [← Except.ok.inj hq]
          have h1 : 0 ≤ mx := arrMax_nonneg hx ⟨_, List.mem_map.2 ⟨_, hmem, rfl⟩, by simp [Cfl.cgKx]⟩
          have h2 : 0 ≤ mz := arrMax_nonneg hz ⟨_, List.mem_map.2 ⟨_, hmem, rfl⟩, by simp [Cfl.cgKz]⟩
          exact add_nonneg (div_nonneg h1 (hmesh 0)) (div_nonneg h2 (hmesh 1))
    have hr : ∀ d g, (∀ x ∈ d, 0 < x) → (∀ x ∈ g, 0 < x) →
        (match rate with
          | none => Except.ok (⟨d, g, none⟩ : Cfl.Limits)
          | some r => match Cfl.forcingLimit r with
            | .error e => .error e
            | .ok f => .ok ⟨d, g, some f⟩) = .ok L → PosLimits L := by
      intro d g hd hg e
      cases rate with
      | none => cases e; exact ⟨hd, hg, by simp⟩
      | some r =>
        have h1 : (0 : ℝ) < r ^ (1 / 3 : ℝ) := Real.rpow_pos_of_pos (hrate r rfl) _
        simp only [Cfl.forcingLimit, if_neg h1.ne'] at e
        cases e
        refine ⟨hd, hg, fun x hx => ?_⟩
        cases hx
        exact one_div_pos.2 h1
    have hp := quot_pos (c := 1 * (2 * Real.pi)) (by positivity) hfd
    cases cg with
    | none =>
      exact hr _ _ hp (by simp) h
    | some g =>
      simp only at h
      by_cases hg : g = 0
      · simp only [hg, if_true] at h
        exact hr _ _ hp (by simp) h
      · simp only [hg, if_false] at h
        cases hf : Cfl.freqGroup N (mesh n δ 0) (mesh n δ 1) (stratModes G δ) with
        | error e => rw [hf] at h; cases h
        | ok q =>
          rw [hf] at h
          exact hr _ _ hp (quot_pos (lt_of_le_of_ne (hcg g rfl) (Ne.symm hg)) (hq q hf)) h

/-! ### The runs -/

theorem pickStrat_units {n : Fin 2 → ℕ} (hn : ∀ d, 0 < n d) (G : Finset (Fin 2 → ℤ)) {δ : Fin 2 → ℝ} (hδ : ∀ d, δ d ≠ 0) (i : Fin 2 → ℤ)
    {ℓ τ : ℝ} (hℓ : 0 < ℓ) (hτ : 0 < τ) (CFL dtMax : ℝ) (L : Cfl.Limits) (x : Fin 2 → Fld (Fin 2)) (h d : ℝ)
    (hx : pickStrat2d n G δ CFL dtMax L x h = .ok d) :
    pickStrat2d n G (fun d => δ d / ℓ) CFL (τ * dtMax) (scaled τ L) (transformed δ (gridPoint n δ i) ![1 / τ, ℓ / τ ^ 2] x) (τ * h)
      = .ok (τ * d) := by
  have hδ' : ∀ d, δ d / ℓ ≠ 0 := fun d => div_ne_zero (hδ d) hℓ.ne'
  rw [pickStrat_eq hn G hδ] at hx
  rw [pickStrat_eq hn G hδ', ← Except.ok.inj hx, ← hysteresis_scale hτ, ← stratMin_scale hτ]
  congr 3
  rw [sum_div]
  refine sum_congr rfl fun d _ => ?_
  have e : vel2 (fun d => δ d / ℓ) (transformed δ (gridPoint n δ i) ![1 / τ, ℓ / τ ^ 2] x 0) d
      = transformed δ (gridPoint n δ i) (fun _ => ℓ / τ) (vel2 δ (x 0)) d := by
    have h := ux2_transformed hℓ.ne' δ (gridPoint n δ i) ((1 / τ : ℝ) : ℂ) (x 0)
    fin_cases d
    · refine h.1.trans (funext fun p => ?_)
      change _ = ((ℓ / τ : ℝ) : ℂ) * phase δ (gridPoint n δ i) p * ux2 δ (x 0) p
      push_cast
      ring
    · refine h.2.trans (funext fun p => ?_)
      change _ = ((ℓ / τ : ℝ) : ℂ) * phase δ (gridPoint n δ i) p * uy2 δ (x 0) p
      push_cast
      ring
  rw [e, peak_units G hn hδ hℓ (c := ℓ / τ) (by positivity) i _ _ d rfl, mesh_units]
  have := hℓ.ne'
  field_simp

/-- C95 (ns2d.strat with the CFL condition, without forcing): the limits set by the waves are consistent too; the time steps of the run in
the other units are those of the first run multiplied by `τ`. -/
theorem C95_ns2d_strat_cfl {n : Fin 2 → ℕ} (hn : ∀ d, 0 < n d) {S : Finset (Fin 2 → ℤ)} (hS : NoAlias n S) {G : Finset (Fin 2 → ℤ)}
    (hG : 0 ∈ G) {δ : Fin 2 → ℝ} (hδ : ∀ d, 0 < δ d) (i : Fin 2 → ℤ) {ℓ τ : ℝ} (hℓ : 0 < ℓ) (hτ : 0 < τ) (N : ℝ) (nu : Dissip.Nu)
    {CFL dtMax deltat0 : ℝ} (hC : 0 < CFL) (hm : 0 < dtMax) (h0 : 0 < deltat0) {coefGroup : Option ℝ} (hg : ∀ x ∈ coefGroup, 0 ≤ x)
    {L L' : Cfl.Limits} (hL : stratLimits n G δ N coefGroup none = .ok L)
    (hL' : stratLimits n G (fun d => δ d / ℓ) (N / τ) coefGroup none = .ok L') {c c' : Numerics (Fin 2) (Fin 2)} (hc : SameShifts c c')
    (u0 : Fin 2 → Fld (Fin 2))
    (hf : Follows (pickStrat2d n G δ CFL dtMax L) deltat0 c.dt (runStrat2d n S G δ N nu c (fun _ _ _ => 0) u0))
    (hf' : Follows (pickStrat2d n G (fun d => δ d / ℓ) CFL (τ * dtMax) L') (τ * deltat0) c'.dt
      (runStrat2d n S G (fun d => δ d / ℓ) (N / τ) (newNu ℓ τ nu) c' (fun _ _ _ => 0)
        (transformed δ (gridPoint n δ i) ![1 / τ, ℓ / τ ^ 2] u0)))
    (m : ℕ) :
    c'.dt m = τ * c.dt m ∧
      runStrat2d n S G (fun d => δ d / ℓ) (N / τ) (newNu ℓ τ nu) c' (fun _ _ _ => 0)
          (transformed δ (gridPoint n δ i) ![1 / τ, ℓ / τ ^ 2] u0) m
        = transformed δ (gridPoint n δ i) ![1 / τ, ℓ / τ ^ 2] (runStrat2d n S G δ N nu c (fun _ _ _ => 0) u0 m) := by
  rw [limits_scale hℓ hτ, hL] at hL'
  simp only [Except.map] at hL'
  cases hL'
  have hδ' : ∀ d, δ d ≠ 0 := fun d => (hδ d).ne'
  have eF : (fun m => transformed δ (gridPoint n δ i) ![1 / τ ^ 2, ℓ / τ ^ 3] ((fun _ _ _ => 0 : ℕ → Fin 2 → Fld (Fin 2)) m))
      = fun _ _ _ => 0 := by
    funext m v k
    simp [transformed]
  refine follows_related (τ := τ) (r := fun dt => runStrat2d n S G δ N nu (c.withDt dt) (fun _ _ _ => 0) u0)
    (r' := fun dt => runStrat2d n S G (fun d => δ d / ℓ) (N / τ) (newNu ℓ τ nu) (c'.withDt dt) (fun _ _ _ => 0)
        (transformed δ (gridPoint n δ i) ![1 / τ, ℓ / τ ^ 2] u0))
    (T := transformed δ (gridPoint n δ i) ![1 / τ, ℓ / τ ^ 2]) (good := fun _ => True) (dt := c.dt) (dt' := c'.dt)
    (fun dt dt' k h => run_congr S G _ _ _ _ c' _ _ dt dt' k h)
    (fun k => ?_)
    (fun _ => trivial) (fun x h d _ => pickStrat_units hn G hδ' i hℓ hτ CFL dtMax L x h d) hf hf' m
  have := C95_ns2d_strat hn hS G δ (gridPoint n δ i) hℓ hτ N nu (c := c) (c' := c'.withDt fun j => τ * c.dt j)
    ⟨hc.1, hc.2.1, fun _ => rfl, hc.2.2⟩
    (fun k => (followsStrat_pos hC hm h0 (limits_pos hG hδ hg (by simp) hL) (pickStrat_eq hn G hδ' CFL dtMax L) hf k).ne') (fun _ _ _ => 0) u0 k
  rw [eF] at this
  exact this

/-- C95, what is not consistent: `params.forcing.forcing_rate` is a rate of energy per unit of mass (`ℓ² / τ³`), and the limit which
ns2d.strat computes from it, `1 / forcing_rate ** (1 / 3)`, is not a time: in the other units it is multiplied by `τ / ℓ^(2/3)`. So the
time steps of a forced run of ns2d.strat depend on the unit of length. -/
theorem C95_strat_forcing_violated {rate ℓ τ : ℝ} (hr : 0 < rate) (hℓ : 0 < ℓ) (hτ : 0 < τ) :
    ∃ x, Cfl.forcingLimit rate = .ok x ∧ Cfl.forcingLimit (rate * ℓ ^ 2 / τ ^ 3) = .ok (τ / ℓ ^ (2 / 3 : ℝ) * x) ∧
      (τ / ℓ ^ (2 / 3 : ℝ) * x = τ * x ↔ ℓ = 1) := by
  have h1 : (0 : ℝ) < rate ^ (1 / 3 : ℝ) := Real.rpow_pos_of_pos hr _
  have h2 : (0 : ℝ) < ℓ ^ (2 / 3 : ℝ) := Real.rpow_pos_of_pos hℓ _
  have e : (rate * ℓ ^ 2 / τ ^ 3) ^ (1 / 3 : ℝ) = rate ^ (1 / 3 : ℝ) * ℓ ^ (2 / 3 : ℝ) / τ := by
    rw [Real.div_rpow (by positivity) (by positivity), Real.mul_rpow hr.le (by positivity), ← Real.rpow_natCast ℓ 2, ← Real.rpow_natCast τ 3,
      ← Real.rpow_mul hℓ.le, ← Real.rpow_mul hτ.le]
    norm_num
  refine ⟨1 / rate ^ (1 / 3 : ℝ), ?_, ?_, ?_⟩
  · rw [Cfl.forcingLimit, if_neg h1.ne']
  · rw [Cfl.forcingLimit, e, if_neg (by positivity)]
    congr 1
    field_simp
  · constructor
    · intro h
      have hx : (0 : ℝ) < 1 / rate ^ (1 / 3 : ℝ) := by positivity
      have h3 : τ / ℓ ^ (2 / 3 : ℝ) = τ := mul_right_cancel₀ hx.ne' h
      have h4 : ℓ ^ (2 / 3 : ℝ) = 1 := by
        rw [div_eq_iff h2.ne'] at h3
        have : τ * 1 = τ * ℓ ^ (2 / 3 : ℝ) := by linarith
        exact (mul_left_cancel₀ hτ.ne' this).symm
      have h5 : (ℓ ^ (2 / 3 : ℝ)) ^ (3 / 2 : ℝ) = ℓ := by
        rw [← Real.rpow_mul hℓ.le]
        norm_num
      rw [← h5, h4, Real.one_rpow]
    · rintro rfl
      simp

/-- C98 (ns2d.strat with the CFL condition), with the forcing: the limits are the same for the two runs. -/
theorem C98_ns2d_strat_cfl {n : Fin 2 → ℕ} (hn : ∀ d, 0 < n d) {S G : Finset (Fin 2 → ℤ)} (hS : NoAlias n S) (hSG : S ⊆ G) (g : Sym (Fin 2))
    {δ : Fin 2 → ℝ} (hδ : ∀ d, δ d ≠ 0) (hg : g.Fits S δ) (h1 : g.π 1 = 1) (N : ℝ) (nu : Dissip.Nu)
    {CFL dtMax deltat0 : ℝ} (hC : 0 < CFL) (hm : 0 < dtMax) (h0 : 0 < deltat0) {L : Cfl.Limits} (hL : PosLimits L)
    {c c' : Numerics (Fin 2) (Fin 2)} (hc : SymScheme g c c') {F : ℕ → Fin 2 → Fld (Fin 2)} (hF : ∀ m, Within S (F m))
    {u0 : Fin 2 → Fld (Fin 2)} (hr : Within S u0)
    (hf : Follows (pickStrat2d n G δ CFL dtMax L) deltat0 c.dt (runStrat2d n S G δ N nu c F u0))
    (hf' : Follows (pickStrat2d n G δ CFL dtMax L) deltat0 c'.dt
      (runStrat2d n S G δ N nu c' (fun m => imageRotB g (F m)) (imageRotB g u0))) (m : ℕ) :
    c'.dt m = c.dt m ∧
      runStrat2d n S G δ N nu c' (fun m => imageRotB g (F m)) (imageRotB g u0) m = imageRotB g (runStrat2d n S G δ N nu c F u0 m) := by
  have hπ : ∀ d, g.π d = d := by
    rcases perm2 g.π with ⟨a, b⟩ | ⟨a, b⟩
    · intro d; fin_cases d <;> assumption
    · rw [h1] at b; exact absurd b (by decide)
  refine follows_same (r := fun dt => runStrat2d n S G δ N nu (c.withDt dt) F u0)
    (r' := fun dt => runStrat2d n S G δ N nu (c'.withDt dt) (fun m => imageRotB g (F m)) (imageRotB g u0)) (T := imageRotB g)
    (good := Within S) (dt := c.dt) (dt' := c'.dt) (fun dt dt' k h => run_congr S G _ _ _ _ c' _ _ dt dt' k h)
    (fun k => C98_ns2d_strat hn hS hSG g hg h1 N nu (c := c) (c' := c'.withDt c.dt) ⟨hc.1, hc.2.1, rfl, hc.2.2⟩
      (fun k => (followsStrat_pos hC hm h0 hL (pickStrat_eq hn G hδ CFL dtMax L) hf k).ne') hF hr k)
    (fun k => run_within hr k) (fun x h hx => ?_) hf hf' m
  rw [pickStrat_eq hn G hδ, pickStrat_eq hn G hδ]
  congr 3
  refine sum_congr rfl fun d _ => ?_
  congr 1
  refine peak_image g hSG hn (fun d => by rw [hπ]) hδ hg (g.unit d) (fun k hk => ?_)
    ((vel2_image g hg.box (x 0) d).trans (by rw [hπ]))
  have := hx 0 k hk
  fin_cases d <;> simp [vel2, ux2, uy2, this, Forcing.vecFromRot]

/-- The limits of a forced run are positive, so that `C98_ns2d_strat_cfl` applies to them. -/
theorem C98_limits {n : Fin 2 → ℕ} {G : Finset (Fin 2 → ℤ)} (h0 : 0 ∈ G) {δ : Fin 2 → ℝ} (hδ : ∀ d, 0 < δ d) {N : ℝ} {cg : Option ℝ}
    (hcg : ∀ x ∈ cg, 0 ≤ x) {rate : Option ℝ} (hrate : ∀ x ∈ rate, 0 < x) {L : Cfl.Limits} (h : stratLimits n G δ N cg rate = .ok L) :
    PosLimits L := limits_pos h0 hδ hcg hrate h

end

end Verif.Symmetry
