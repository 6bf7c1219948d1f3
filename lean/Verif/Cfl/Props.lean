import Verif.Cfl.Lemmas
import Mathlib.Tactic.NormNum.Basic

/-! # C03: adaptive time increments respect the stability bound -/

namespace Verif.Cfl

set_option linter.unusedSectionVars false

variable {K : Type*} [Field K] [LinearOrder K]

/-! ### Specification -/

/-- The increment `dt` chosen from the previous one `dtOld` respects the CFL condition for the
advection frequencies `freq` (one per grid point), up to the 2% tolerance, is not needlessly
small, and is different from the previous one only if that one was more than 2% off. -/
structure Admissible (CFL dtMax dtOld dt : K) (freq : K → Prop) : Prop where
  pos : 0 < dt
  le_max : dt ≤ 102 / 100 * dtMax
  stable : ∀ x, freq x → dt * x ≤ 102 / 100 * CFL
  not_too_small : 98 / 100 * dtMax ≤ dt ∨ ∃ x, freq x ∧ 98 / 100 * CFL ≤ dt * x
  kept : dt = dtOld ∨ 2 / 100 * dt < |dtOld - dt|

/-- advection frequencies `|ux|/dx` at the points of all ranks -/
def freq1 (dx : K) (ranks : List (Rank K)) (x : K) : Prop :=
  ∃ r ∈ ranks, ∃ u ∈ r.ux, x = |u| / dx

/-- advection frequencies `|ux|/dx + |uy|/dy`, for every pair of values held by one rank (in
particular the two values of one grid point) -/
def freq2 (dx dy : K) (ranks : List (Rank K)) (x : K) : Prop :=
  ∃ r ∈ ranks, ∃ u ∈ r.ux, ∃ v ∈ r.uy, x = |u| / dx + |v| / dy

/-- idem with three components -/
def freq3 (dx dy dz : K) (ranks : List (Rank K)) (x : K) : Prop :=
  ∃ r ∈ ranks, ∃ u ∈ r.ux, ∃ v ∈ r.uy, ∃ w ∈ r.uz, x = |u| / dx + |v| / dy + |w| / dz

/-! ### Lemmas linking `tmp` to the frequencies -/

theorem tmpUx_spec [IsStrictOrderedRing K] {dx T : K} (hdx : 0 < dx) {ranks : List (Rank K)}
    (h : allreduceMax (ranks.map (tmpUx dx)) = .ok T) :
    (∀ x, freq1 dx ranks x → x ≤ T) ∧ freq1 dx ranks T := by
  obtain ⟨h1, h2⟩ := allreduceMax_spec h
  have key : ∀ r : Rank K, ∀ a, tmpUx dx r = .ok a →
      (∀ u ∈ r.ux, |u| / dx ≤ a) ∧ ∃ u ∈ r.ux, a = |u| / dx := by
    intro r a ha
    unfold tmpUx at ha
    split at ha
    · rename_i mx hmx
      cases ha
      obtain ⟨p1, u, hu, p2⟩ := maxAbs_spec hmx
      exact ⟨fun u hu => by gcongr; exact p1 u hu, u, hu, by rw [p2]⟩
    · cases ha
  constructor
  · rintro x ⟨r, hr, u, hu, rfl⟩
    obtain ⟨a, ha, haT⟩ := h1 (tmpUx dx r) (List.mem_map_of_mem hr)
    exact ((key r a ha).1 u hu).trans haT
  · obtain ⟨r, hr, hrT⟩ := List.mem_map.1 h2
    obtain ⟨u, hu, hT⟩ := (key r T hrT).2
    exact ⟨r, hr, u, hu, hT⟩

theorem tmpUxUy_spec [IsStrictOrderedRing K] {dx dy T : K} (hdx : 0 < dx) (hdy : 0 < dy)
    {ranks : List (Rank K)} (h : allreduceMax (ranks.map (tmpUxUy dx dy)) = .ok T) :
    (∀ x, freq2 dx dy ranks x → x ≤ T) ∧ freq2 dx dy ranks T := by
  obtain ⟨h1, h2⟩ := allreduceMax_spec h
  have key : ∀ r : Rank K, ∀ a, tmpUxUy dx dy r = .ok a →
      (∀ u ∈ r.ux, ∀ v ∈ r.uy, |u| / dx + |v| / dy ≤ a) ∧
      ∃ u ∈ r.ux, ∃ v ∈ r.uy, a = |u| / dx + |v| / dy := by
    intro r a ha
    unfold tmpUxUy at ha
    split at ha
    · rename_i mx my hmx hmy
      cases ha
      obtain ⟨p1, u, hu, p2⟩ := maxAbs_spec hmx
      obtain ⟨q1, v, hv, q2⟩ := maxAbs_spec hmy
      refine ⟨fun u hu v hv => ?_, u, hu, v, hv, by rw [p2, q2]⟩
      have := p1 u hu
      have := q1 v hv
      gcongr
    · cases ha
    · cases ha
  constructor
  · rintro x ⟨r, hr, u, hu, v, hv, rfl⟩
    obtain ⟨a, ha, haT⟩ := h1 (tmpUxUy dx dy r) (List.mem_map_of_mem hr)
    exact ((key r a ha).1 u hu v hv).trans haT
  · obtain ⟨r, hr, hrT⟩ := List.mem_map.1 h2
    obtain ⟨u, hu, v, hv, hT⟩ := (key r T hrT).2
    exact ⟨r, hr, u, hu, v, hv, hT⟩

theorem tmpUxUyUz_spec [IsStrictOrderedRing K] {dx dy dz T : K} (hdx : 0 < dx) (hdy : 0 < dy)
    (hdz : 0 < dz) {ranks : List (Rank K)}
    (h : allreduceMax (ranks.map (tmpUxUyUz dx dy dz)) = .ok T) :
    (∀ x, freq3 dx dy dz ranks x → x ≤ T) ∧ (freq3 dx dy dz ranks T ∨ T = 0) := by
  obtain ⟨h1, h2⟩ := allreduceMax_spec h
  have key : ∀ r : Rank K, ∀ a, tmpUxUyUz dx dy dz r = .ok a →
      (∀ u ∈ r.ux, ∀ v ∈ r.uy, ∀ w ∈ r.uz, |u| / dx + |v| / dy + |w| / dz ≤ a) ∧
      ((∃ u ∈ r.ux, ∃ v ∈ r.uy, ∃ w ∈ r.uz, a = |u| / dx + |v| / dy + |w| / dz) ∨ a = 0) := by
    intro r a ha
    unfold tmpUxUyUz at ha
    split at ha
    · split at ha
      · rename_i mx my mz hmx hmy hmz
        cases ha
        obtain ⟨p1, u, hu, p2⟩ := maxAbs_spec hmx
        obtain ⟨q1, v, hv, q2⟩ := maxAbs_spec hmy
        obtain ⟨s1, w, hw, s2⟩ := maxAbs_spec hmz
        refine ⟨fun u hu v hv w hw => ?_, .inl ⟨u, hu, v, hv, w, hw, by rw [p2, q2, s2]⟩⟩
        have := p1 u hu
        have := q1 v hv
        have := s1 w hw
        gcongr
      · cases ha
      · cases ha
      · cases ha
    · rename_i hlen
      cases ha
      refine ⟨fun u hu => ?_, .inr rfl⟩
      have : r.ux = [] := by
        cases hr : r.ux with
        | nil => rfl
        | cons => simp [hr] at hlen
      simp [this] at hu
  constructor
  · rintro x ⟨r, hr, u, hu, v, hv, w, hw, rfl⟩
    obtain ⟨a, ha, haT⟩ := h1 (tmpUxUyUz dx dy dz r) (List.mem_map_of_mem hr)
    exact ((key r a ha).1 u hu v hv w hw).trans haT
  · obtain ⟨r, hr, hrT⟩ := List.mem_map.1 h2
    rcases (key r T hrT).2 with ⟨u, hu, v, hv, w, hw, hT⟩ | h0
    · exact .inl ⟨r, hr, u, hu, v, hv, w, hw, hT⟩
    · exact .inr h0

theorem admissible_fromTmp [IsStrictOrderedRing K] {CFL dtMax dtOld T : K} (hC : 0 < CFL)
    (hM : 0 < dtMax) {freq : K → Prop} (h1 : ∀ x, freq x → x ≤ T) (h2 : freq T ∨ T ≤ 0) :
    Admissible CFL dtMax dtOld (fromTmp CFL dtMax dtOld T) freq := by
  unfold fromTmp
  set m := min (deltatCFL CFL dtMax T) dtMax with hm
  have hm0 : 0 < m := lt_min (deltatCFL_pos hC hM) hM
  obtain ⟨a1, a2, a3, a4⟩ := hysteresis_spec dtOld m hm0
  have hpos : 0 < hysteresis dtOld m := lt_of_lt_of_le (by positivity) a1
  refine ⟨hpos, ?_, ?_, ?_, ?_⟩
  · have : m ≤ dtMax := min_le_right _ _
    linarith
  · intro x hx
    refine bound_of_le_deltatCFL (deltatMax := dtMax) (tmp := T) hC hpos.le ?_ (h1 x hx)
    have : m ≤ deltatCFL CFL dtMax T := min_le_left _ _
    linarith
  · rcases min_choice (deltatCFL CFL dtMax T) dtMax with h | h
    · by_cases ht : T > 0
      · right
        have hT : freq T := h2.resolve_right (not_le.2 ht)
        refine ⟨T, hT, ?_⟩
        have hmT : m = CFL / T := by rw [hm, h]; simp [deltatCFL, ht]
        have : 98 / 100 * m * T ≤ hysteresis dtOld m * T :=
          mul_le_mul_of_nonneg_right a1 (le_of_lt ht)
        rw [hmT] at this ⊢
        have hT0 : T ≠ 0 := ne_of_gt ht
        calc 98 / 100 * CFL = 98 / 100 * (CFL / T) * T := by field_simp
          _ ≤ _ := this
      · left
        have : m = dtMax := by rw [hm, h]; simp [deltatCFL, ht]
        rw [← this]; exact a1
    · left
      rw [hm, h] at a1 ⊢; exact a1
  · by_cases h : |dtOld - m| ≤ 2 / 100 * m
    · left; exact a3 h
    · right
      have h' := a4 (not_le.1 h)
      rw [h']; exact not_le.1 h

/-! ### The theorems -/

/-- **C03** (one velocity component, any number of ranks) -/
theorem C03_cfl_ux [IsStrictOrderedRing K] (CFL dtMax dx dtOld dt : K) (ranks : List (Rank K))
    (hC : 0 < CFL) (hM : 0 < dtMax) (hdx : 0 < dx)
    (h : clfUx CFL dtMax dx dtOld ranks = .ok dt) :
    Admissible CFL dtMax dtOld dt (freq1 dx ranks) := by
  unfold clfUx at h
  split at h
  · rename_i T hT
    cases h
    obtain ⟨a, b⟩ := tmpUx_spec hdx hT
    exact admissible_fromTmp hC hM a (.inl b)
  · cases h

/-- **C03** (two velocity components, any number of ranks, any previous increment) -/
theorem C03_cfl_uxuy [IsStrictOrderedRing K] (CFL dtMax dx dy dtOld dt : K)
    (ranks : List (Rank K)) (hC : 0 < CFL) (hM : 0 < dtMax) (hdx : 0 < dx) (hdy : 0 < dy)
    (h : clfUxUy CFL dtMax dx dy dtOld ranks = .ok dt) :
    Admissible CFL dtMax dtOld dt (freq2 dx dy ranks) := by
  unfold clfUxUy at h
  split at h
  · rename_i T hT
    cases h
    obtain ⟨a, b⟩ := tmpUxUy_spec hdx hdy hT
    exact admissible_fromTmp hC hM a (.inl b)
  · cases h

/-- **C03** (three velocity components, ranks without grid points allowed) -/
theorem C03_cfl_uxuyuz [IsStrictOrderedRing K] (CFL dtMax dx dy dz dtOld dt : K)
    (ranks : List (Rank K)) (hC : 0 < CFL) (hM : 0 < dtMax) (hdx : 0 < dx) (hdy : 0 < dy)
    (hdz : 0 < dz) (h : clfUxUyUz CFL dtMax dx dy dz dtOld ranks = .ok dt) :
    Admissible CFL dtMax dtOld dt (freq3 dx dy dz ranks) := by
  unfold clfUxUyUz at h
  split at h
  · rename_i T hT
    cases h
    obtain ⟨a, b⟩ := tmpUxUyUz_spec hdx hdy hdz hT
    refine admissible_fromTmp hC hM a (b.imp id le_of_eq)
  · cases h

/-- **C03** (no exception) When no rank has an empty array the 1D/2D increments are computed;
in 3D a rank may also be empty as a whole. -/
theorem C03_cfl_no_exception (CFL dtMax dx dy dz dtOld : K) (ranks : List (Rank K))
    (hr : ranks ≠ []) :
    ((∀ r ∈ ranks, r.ux ≠ []) → ∃ dt, clfUx CFL dtMax dx dtOld ranks = .ok dt) ∧
    ((∀ r ∈ ranks, r.ux ≠ [] ∧ r.uy ≠ []) →
      ∃ dt, clfUxUy CFL dtMax dx dy dtOld ranks = .ok dt) ∧
    ((∀ r ∈ ranks, r.ux.length = r.uy.length ∧ r.ux.length = r.uz.length) →
      ∃ dt, clfUxUyUz CFL dtMax dx dy dz dtOld ranks = .ok dt) := by
  have all : ∀ l : List (Except String K), l ≠ [] → (∀ e ∈ l, ∃ a, e = .ok a) →
      ∃ T, allreduceMax l = .ok T := by
    intro l
    induction l with
    | nil => simp
    | cons x l ih =>
      intro _ h
      obtain ⟨a, rfl⟩ := h x (by simp)
      cases l with
      | nil => exact ⟨a, rfl⟩
      | cons y l =>
        obtain ⟨T, hT⟩ := ih (by simp) (fun e he => h e (by simp [he]))
        exact ⟨max a T, by unfold allreduceMax; rw [hT]⟩
  have mx : ∀ l : List K, l ≠ [] → ∃ m, maxAbs l = .ok m := by
    intro l hl
    cases l with
    | nil => exact absurd rfl hl
    | cons a xs => exact ⟨_, rfl⟩
  have hmap : ∀ f : Rank K → Except String K, ranks.map f ≠ [] := by
    intro f h; exact hr (List.map_eq_nil_iff.1 h)
  refine ⟨fun h => ?_, fun h => ?_, fun h => ?_⟩
  · obtain ⟨T, hT⟩ := all (ranks.map (tmpUx dx)) (hmap _) (by
      intro e he
      obtain ⟨r, hr, rfl⟩ := List.mem_map.1 he
      obtain ⟨m, hm⟩ := mx r.ux (h r hr)
      exact ⟨m / dx, by simp [tmpUx, hm]⟩)
    exact ⟨_, by unfold clfUx; rw [hT]⟩
  · obtain ⟨T, hT⟩ := all (ranks.map (tmpUxUy dx dy)) (hmap _) (by
      intro e he
      obtain ⟨r, hr, rfl⟩ := List.mem_map.1 he
      obtain ⟨m, hm⟩ := mx r.ux (h r hr).1
      obtain ⟨n, hn⟩ := mx r.uy (h r hr).2
      exact ⟨m / dx + n / dy, by simp [tmpUxUy, hm, hn]⟩)
    exact ⟨_, by unfold clfUxUy; rw [hT]⟩
  · obtain ⟨T, hT⟩ := all (ranks.map (tmpUxUyUz dx dy dz)) (hmap _) (by
      intro e he
      obtain ⟨r, hr, rfl⟩ := List.mem_map.1 he
      unfold tmpUxUyUz
      by_cases hl : r.ux.length > 0
      · obtain ⟨m, hm⟩ := mx r.ux (by intro h0; simp [h0] at hl)
        obtain ⟨n, hn⟩ := mx r.uy (by intro h0; have := (h r hr).1; simp [h0] at this; simp [this] at hl)
        obtain ⟨o, ho⟩ := mx r.uz (by intro h0; have := (h r hr).2; simp [h0] at this; simp [this] at hl)
        exact ⟨m / dx + n / dy + o / dz, by rw [if_pos hl, hm, hn, ho]⟩
      · exact ⟨0, by rw [if_neg hl]⟩)
    exact ⟨_, by unfold clfUxUyUz; rw [hT]⟩

/-- **C03** (shallow water) The increment also respects the limit of the gravity waves: for
every wavenumber `k` of the box (`k ≥ 2π/max(Lx, Ly)`), the phase speed `√(f²/k² + c²)` does
not cross more than `1.02 CFL` cells (in either direction) during the step. -/
theorem C03_cfl_uxuyeta (CFL dtMax dx dy dtOld dt f c2 Lx Ly : ℝ) (ranks : List (Rank ℝ))
    (hC : 0 < CFL) (hM : 0 < dtMax) (hdx : 0 < dx) (hdy : 0 < dy) (hc2 : 0 < c2)
    (hLx : 0 < Lx)
    (h : clfUxUyEta CFL dtMax dx dy (phaseSpeed f c2 Lx Ly) dtOld ranks = .ok dt) :
    0 < dt ∧ dt ≤ 102 / 100 * dtMax ∧
    (∀ x, freq2 dx dy ranks x → dt * x ≤ 102 / 100 * CFL) ∧
    (∀ k, 2 * Real.pi / max Lx Ly ≤ k →
      dt * Real.sqrt (f ^ 2 / k ^ 2 + c2) / dx ≤ 102 / 100 * CFL ∧
      dt * Real.sqrt (f ^ 2 / k ^ 2 + c2) / dy ≤ 102 / 100 * CFL) ∧
    (dt = dtOld ∨ 2 / 100 * dt < |dtOld - dt|) := by
  have hL : 0 < max Lx Ly := lt_max_of_lt_left hLx
  have hk0 : 0 < 2 * Real.pi / max Lx Ly := by positivity
  have hcp : 0 < phaseSpeed f c2 Lx Ly := by
    unfold phaseSpeed
    split
    · exact Real.sqrt_pos.2 hc2
    · exact Real.sqrt_pos.2 (by positivity)
  have hcpk : ∀ k, 2 * Real.pi / max Lx Ly ≤ k →
      Real.sqrt (f ^ 2 / k ^ 2 + c2) ≤ phaseSpeed f c2 Lx Ly := by
    intro k hk
    unfold phaseSpeed
    split
    · rename_i hf; subst hf; simp
    · apply Real.sqrt_le_sqrt
      have : f ^ 2 / k ^ 2 ≤ f ^ 2 / (2 * Real.pi / max Lx Ly) ^ 2 := by gcongr
      linarith
  unfold clfUxUyEta at h
  split at h
  · rename_i T hT
    obtain ⟨b1, -⟩ := tmpUxUy_spec hdx hdy hT
    simp only [Except.ok.injEq] at h
    set cph := phaseSpeed f c2 Lx Ly with hcph
    set w := CFL * min dx dy / cph with hw
    have hmin : 0 < min dx dy := lt_min hdx hdy
    have hw0 : 0 < w := by positivity
    set m := min (min (deltatCFL CFL dtMax T) w) dtMax with hm
    have hm0 : 0 < m := lt_min (lt_min (deltatCFL_pos hC hM) hw0) hM
    obtain ⟨a1, a2, a3, a4⟩ := hysteresis_spec dtOld m hm0
    rw [h] at a1 a2 a3 a4
    have hpos : 0 < dt := lt_of_lt_of_le (by positivity) a1
    have m1 : m ≤ deltatCFL CFL dtMax T := (min_le_left _ _).trans (min_le_left _ _)
    have m2 : m ≤ w := (min_le_left _ _).trans (min_le_right _ _)
    have m3 : m ≤ dtMax := min_le_right _ _
    refine ⟨hpos, by linarith, fun x hx => ?_, fun k hk => ?_, ?_⟩
    · exact bound_of_le_deltatCFL (deltatMax := dtMax) hC hpos.le (by linarith) (b1 x hx)
    · have hs := hcpk k hk
      have main : dt * Real.sqrt (f ^ 2 / k ^ 2 + c2) ≤ 102 / 100 * CFL * min dx dy := by
        calc dt * Real.sqrt (f ^ 2 / k ^ 2 + c2) ≤ dt * cph :=
              mul_le_mul_of_nonneg_left hs hpos.le
          _ ≤ (102 / 100 * w) * cph := mul_le_mul_of_nonneg_right (by linarith) hcp.le
          _ = 102 / 100 * CFL * min dx dy := by rw [hw]; field_simp
      constructor
      · rw [div_le_iff₀ hdx]
        have : 102 / 100 * CFL * min dx dy ≤ 102 / 100 * CFL * dx := by
          gcongr; exact min_le_left _ _
        linarith
      · rw [div_le_iff₀ hdy]
        have : 102 / 100 * CFL * min dx dy ≤ 102 / 100 * CFL * dy := by
          gcongr; exact min_le_right _ _
        linarith
    · by_cases hh : |dtOld - m| ≤ 2 / 100 * m
      · left; exact a3 hh
      · right
        have h' := a4 (not_le.1 hh)
        rw [h']; exact not_le.1 hh
  · cases h

/-- **C03** (ns2d.strat) All the limits are respected: advection, dispersion relation, group
velocity (if enabled), forcing (if enabled), `deltat_max`. -/
theorem C03_cfl_uxuyb [IsStrictOrderedRing K] (CFL dtMax dx dy disp dtOld dt : K)
    (group forcing : Option K) (ranks : List (Rank K)) (hC : 0 < CFL) (hM : 0 < dtMax)
    (hdx : 0 < dx) (hdy : 0 < dy) (hdisp : 0 < disp) (hg : ∀ g ∈ group, 0 < g)
    (hf : ∀ f ∈ forcing, 0 < f)
    (h : clfUxUyB CFL dtMax dx dy disp dtOld group forcing ranks = .ok dt) :
    0 < dt ∧ dt ≤ 102 / 100 * dtMax ∧ dt ≤ 102 / 100 * disp ∧
    (∀ g ∈ group, dt ≤ 102 / 100 * g) ∧ (∀ f ∈ forcing, dt ≤ 102 / 100 * f) ∧
    (∀ x, freq2 dx dy ranks x → dt * x ≤ 102 / 100 * CFL) := by
  unfold clfUxUyB at h
  split at h
  · cases h
  · rename_i T hT
    obtain ⟨b1, -⟩ := tmpUxUy_spec hdx hdy hT
    have hT0 := deltatCFL_pos (tmp := T) hC hM
    have fin : ∀ m : K, 0 < m → m ≤ dtMax → m ≤ disp → m ≤ deltatCFL CFL dtMax T →
        (∀ g ∈ group, m ≤ g) → (∀ f ∈ forcing, m ≤ f) → hysteresis dtOld m = dt →
        0 < dt ∧ dt ≤ 102 / 100 * dtMax ∧ dt ≤ 102 / 100 * disp ∧
        (∀ g ∈ group, dt ≤ 102 / 100 * g) ∧ (∀ f ∈ forcing, dt ≤ 102 / 100 * f) ∧
        (∀ x, freq2 dx dy ranks x → dt * x ≤ 102 / 100 * CFL) := by
      intro m hm0 m1 m2 m3 m4 m5 hd
      obtain ⟨a1, a2, -, -⟩ := hysteresis_spec dtOld m hm0
      rw [hd] at a1 a2
      have hpos : 0 < dt := lt_of_lt_of_le (by positivity) a1
      refine ⟨hpos, by linarith, by linarith, fun g hg => ?_, fun f hf => ?_, fun x hx => ?_⟩
      · have := m4 g hg; linarith
      · have := m5 f hf; linarith
      · exact bound_of_le_deltatCFL (deltatMax := dtMax) hC hpos.le (by linarith) (b1 x hx)
    simp only [Except.ok.injEq] at h
    cases group with
    | none =>
      cases forcing with
      | none =>
        refine fin _ (lt_min (lt_min hT0 hdisp) hM) (min_le_right _ _)
          ((min_le_left _ _).trans (min_le_right _ _))
          ((min_le_left _ _).trans (min_le_left _ _)) (by simp) (by simp) h
      | some f =>
        have hf' := hf f (by simp)
        refine fin _ (lt_min (lt_min (lt_min hT0 hdisp) hM) hf')
          ((min_le_left _ _).trans (min_le_right _ _))
          ((min_le_left _ _).trans ((min_le_left _ _).trans (min_le_right _ _)))
          ((min_le_left _ _).trans ((min_le_left _ _).trans (min_le_left _ _))) (by simp)
          (by simp) h
    | some g =>
      have hg' := hg g (by simp)
      cases forcing with
      | none =>
        refine fin _ (lt_min (lt_min (lt_min hT0 hdisp) hg') hM) (min_le_right _ _)
          ((min_le_left _ _).trans ((min_le_left _ _).trans (min_le_right _ _)))
          ((min_le_left _ _).trans ((min_le_left _ _).trans (min_le_left _ _)))
          (by simp) (by simp) h
      | some f =>
        have hf' := hf f (by simp)
        refine fin _ (lt_min (lt_min (lt_min (lt_min hT0 hdisp) hg') hM) hf')
          ((min_le_left _ _).trans (min_le_right _ _))
          ((min_le_left _ _).trans ((min_le_left _ _).trans
            ((min_le_left _ _).trans (min_le_right _ _))))
          ((min_le_left _ _).trans ((min_le_left _ _).trans
            ((min_le_left _ _).trans (min_le_left _ _))))
          (by simp) (by simp) h

/-- **C03** (constant advection velocity `params.U`, partial) For `U ≥ 0` the bound holds.
Missing: negative `U`, see `C03_cfl_U_negative_violated`. -/
theorem C03_cfl_U_partial [IsStrictOrderedRing K] (CFL dtMax dx dtOld U : K)
    (hC : 0 < CFL) (hM : 0 < dtMax) (hU : 0 ≤ U) :
    Admissible CFL dtMax dtOld (clfU CFL dtMax dx dtOld U) (fun x => x = |U| / dx) := by
  unfold clfU
  refine admissible_fromTmp hC hM ?_ ?_
  · rintro x rfl; rw [abs_of_nonneg hU]
  · left; rw [abs_of_nonneg hU]

/-- **C03** (finding) With a negative constant velocity `params.U` (ad1d) the CFL condition is
ignored: the code forgets the absolute value (base.py:423-424), so the bound fails. -/
theorem C03_cfl_U_negative_violated :
    ¬ ∀ CFL dtMax dx dtOld U : ℚ, 0 < CFL → 0 < dtMax → 0 < dx →
      clfU CFL dtMax dx dtOld U * (|U| / dx) ≤ 102 / 100 * CFL := by
  intro h
  have := h 1 1 1 1 (-10) (by norm_num) (by norm_num) (by norm_num)
  revert this
  decide +kernel

/-- **C03** (finding) The wave limit `0.78 π / freq_max` computed for solvers with
`compute_freq_complex` is not respected by `deltat_max` once the object is initialised: it is
overwritten by `params.deltat_max` (base.py:297). -/
theorem C03_wave_limit_violated :
    ¬ ∀ freqMax d : ℝ, 0 < freqMax → 0 < d →
      initDeltatMax (some freqMax) d ≤ 78 / 100 * Real.pi / freqMax := by
  intro h
  have h1 := h 100 1 (by norm_num) (by norm_num)
  have h2 : initDeltatMax (some 100) 1 = 1 := rfl
  rw [h2] at h1
  have := Real.pi_le_four
  linarith

/-- **C03** What is respected is the user's `params.deltat_max`, always. -/
theorem C03_deltat_max_is_the_parameter (freqMax : Option ℝ) (d : ℝ) :
    initDeltatMax freqMax d = d := by
  unfold initDeltatMax
  cases freqMax <;> rfl

/-- **C03** The CFL coefficient is the user's one if given, else 0.4 for the RK2*/Euler*
schemes and 1 for the RK4* ones; any other name is refused. -/
theorem C03_cfl_coef (cfl_coef : Option ℚ) (scheme : String) :
    (∀ c, cfl_coef = some c → cflCoef cfl_coef scheme = .ok c) ∧
    (cfl_coef = none →
      ("RK2".isPrefixOf scheme ∨ "Euler".isPrefixOf scheme → cflCoef cfl_coef scheme = .ok (2/5)) ∧
      (¬ ("RK2".isPrefixOf scheme ∨ "Euler".isPrefixOf scheme) → "RK4".isPrefixOf scheme →
        cflCoef cfl_coef scheme = .ok 1) ∧
      (¬ ("RK2".isPrefixOf scheme ∨ "Euler".isPrefixOf scheme ∨ "RK4".isPrefixOf scheme) →
        ∃ e, cflCoef cfl_coef scheme = .error e)) := by
  constructor
  · rintro c rfl; rfl
  · rintro rfl
    unfold cflCoef
    refine ⟨fun h => ?_, fun h h4 => ?_, fun h => ?_⟩
    · rw [if_pos (by simpa using h)]; norm_num
    · rw [if_neg (by simpa using h), if_pos h4]
    · simp only [not_or] at h
      rw [if_neg (by simp [h.1, h.2.1]), if_neg (by simp [h.2.2])]
      exact ⟨_, rfl⟩

/-- **C03** The increment is computed from every velocity component the solver has: with three
components all are used; a solver with `eta` uses the wave limit; and USE_CFL without any
velocity is refused. -/
theorem C03_method_choice (hasVar : String → Bool) (hasU useCFL : Bool) (m : Method)
    (h : chooseMethod hasVar hasU useCFL = .ok m) :
    (m = .uxuyuz ↔ (hasVar "ux" ∨ hasVar "vx") ∧ (hasVar "uy" ∨ hasVar "vy") ∧
      (hasVar "uz" ∨ hasVar "vz")) ∧
    (m = .uxuyeta → hasVar "eta") ∧
    (m = .uxuy → ¬ hasVar "eta" ∧ ¬ (hasVar "uz" ∨ hasVar "vz")) ∧
    (m = .ux → ¬ (hasVar "uy" ∨ hasVar "vy")) ∧
    (useCFL = true → m ≠ .unset) := by
  unfold chooseMethod at h
  simp only at h
  generalize hasVar "ux" = a at *
  generalize hasVar "vx" = b at *
  generalize hasVar "uy" = c at *
  generalize hasVar "vy" = d at *
  generalize hasVar "uz" = e at *
  generalize hasVar "vz" = f at *
  generalize hasVar "eta" = g at *
  split_ifs at h with h1 h2 h3 h4 h5 h6 <;> cases h <;> simp_all

/-! ### Non-vacuity -/

/-- two ranks, one of them with the fastest point; the previous increment 1/10 is replaced -/
example : clfUxUy (1 : ℚ) (1/10) (1/2) (1/2) (1/10)
    [⟨[1, -3], [2, 0], []⟩, ⟨[5, 1], [-1, 1], []⟩] = .ok (1/12) := by decide +kernel

/-- an increment within 2% is kept -/
example : clfUxUy (1 : ℚ) (1/10) (1/2) (1/2) (101/1200)
    [⟨[1, -3], [2, 0], []⟩, ⟨[5, 1], [-1, 1], []⟩] = .ok (101/1200) := by decide +kernel

/-- an empty rank is accepted in 3D -/
example : clfUxUyUz (1 : ℚ) 1 1 1 1 1 [⟨[1], [-2], [1]⟩, ⟨[], [], []⟩] = .ok (1/4) := by
  decide +kernel

example : ∃ dt, clfUxUyB (1 : ℚ) 1 1 1 (1/3) 1 (some (1/2)) (some (1/5)) [⟨[1], [1], []⟩]
    = .ok dt := ⟨1/5, by decide +kernel⟩

end Verif.Cfl
