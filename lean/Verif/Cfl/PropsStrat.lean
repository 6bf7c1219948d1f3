import Verif.Cfl.Props
import Verif.Cfl.ModelStrat
import Mathlib.Analysis.SpecialFunctions.Sqrt
import Mathlib.Analysis.Calculus.Deriv.Inv
import Mathlib.Analysis.Calculus.Deriv.Add
import Mathlib.Tactic.FieldSimp

/-! # C03: the waves and the time increments of ns2d.strat; the number of processes -/

namespace Verif.Cfl

set_option linter.unusedSectionVars false

/-! ### Specification -/

/-- The frequency of the internal gravity waves of wavenumber `(kx, kz)`. -/
noncomputable def omega (N kx kz : ℝ) : ℝ := N * kx / Real.sqrt (kx ^ 2 + kz ^ 2)

/-- The components of their group velocity: the derivatives of the frequency. -/
noncomputable def groupX (N kx kz : ℝ) : ℝ := deriv (fun x => omega N x kz) kx
/-- See `groupX`. -/
noncomputable def groupZ (N kx kz : ℝ) : ℝ := deriv (fun z => omega N kx z) kz

/-! ### Lemmas -/

theorem sq_pos_of_ne {kx kz : ℝ} (h : ¬(kx = 0 ∧ kz = 0)) : 0 < kx ^ 2 + kz ^ 2 := by
  by_cases h1 : kx = 0
  · have h2 : kz ≠ 0 := fun h2 => h ⟨h1, h2⟩
    positivity
  · positivity

theorem groupX_eq (N kx kz : ℝ) (h : ¬(kx = 0 ∧ kz = 0)) :
    groupX N kx kz = cgKx N (kx, kz) := by
  have hp := sq_pos_of_ne h
  have hs : 0 < Real.sqrt (kx ^ 2 + kz ^ 2) := Real.sqrt_pos.2 hp
  have hsq : Real.sqrt (kx ^ 2 + kz ^ 2) ^ 2 = kx ^ 2 + kz ^ 2 := Real.sq_sqrt hp.le
  have h1 : HasDerivAt (fun x : ℝ => x ^ 2 + kz ^ 2) (2 * kx) kx := by
    have h0 := HasDerivAt.add_const (kz ^ 2) (hasDerivAt_pow 2 kx)
    simpa only [Nat.cast_ofNat, Nat.add_one_sub_one, pow_one] using h0
  have h2 : HasDerivAt (fun x => omega N x kz)
      ((N * Real.sqrt (kx ^ 2 + kz ^ 2) - N * kx * (2 * kx / (2 * Real.sqrt (kx ^ 2 + kz ^ 2)))) /
        Real.sqrt (kx ^ 2 + kz ^ 2) ^ 2) kx := by
    have h3 := h1.sqrt hp.ne'
    have h4 : HasDerivAt (fun x : ℝ => N * x) N kx := by
      simpa using (hasDerivAt_id kx).const_mul N
    exact h4.div h3 hs.ne'
  rw [groupX, h2.deriv]
  simp only [cgKx, kNot0, if_neg h]
  set s := Real.sqrt (kx ^ 2 + kz ^ 2)
  field_simp
  rw [hsq]
  ring

theorem groupZ_eq (N kx kz : ℝ) (h : ¬(kx = 0 ∧ kz = 0)) :
    groupZ N kx kz = cgKz N (kx, kz) := by
  have hp := sq_pos_of_ne h
  have hs : 0 < Real.sqrt (kx ^ 2 + kz ^ 2) := Real.sqrt_pos.2 hp
  have h1 : HasDerivAt (fun z : ℝ => kx ^ 2 + z ^ 2) (2 * kz) kz := by
    have h0 := HasDerivAt.const_add (kx ^ 2) (hasDerivAt_pow 2 kz)
    simpa only [Nat.cast_ofNat, Nat.add_one_sub_one, pow_one] using h0
  have h2 : HasDerivAt (fun z => omega N kx z)
      ((0 * Real.sqrt (kx ^ 2 + kz ^ 2) - N * kx * (2 * kz / (2 * Real.sqrt (kx ^ 2 + kz ^ 2)))) /
        Real.sqrt (kx ^ 2 + kz ^ 2) ^ 2) kz := by
    have h3 := h1.sqrt hp.ne'
    exact (hasDerivAt_const kz (N * kx)).div h3 hs.ne'
  rw [groupZ, h2.deriv]
  simp only [cgKz, kNot0, if_neg h]
  set s := Real.sqrt (kx ^ 2 + kz ^ 2)
  field_simp
  ring

theorem arrMax_ge {l : List ℝ} {m : ℝ} (h : arrMax l = .ok m) : ∀ x ∈ l, x ≤ m := by
  cases l with
  | nil => simp [arrMax] at h
  | cons a l =>
    simp only [arrMax, Except.ok.injEq] at h
    intro x hx
    rw [← h]
    exact foldl_max_ge l a x hx

theorem quot_pos {c f : ℝ} (hc : 0 < c) (hf : 0 ≤ f) : ∀ g ∈ quot c f, 0 < g := by
  intro g hg
  unfold quot at hg
  split at hg
  · simp at hg
  · rename_i h
    simp only [Option.mem_some_iff] at hg
    subst hg
    exact div_pos hc (lt_of_le_of_ne hf (Ne.symm h))

/-- A time increment below a limit `c / f` satisfies the bound for all the frequencies below
`f`. -/
theorem quot_bound {c f dt x : ℝ} (hc : 0 < c) (hf : 0 ≤ f) (hdt : 0 ≤ dt) (hx : x ≤ f)
    (h : ∀ g ∈ quot c f, dt ≤ 102 / 100 * g) : dt * x ≤ 102 / 100 * c := by
  by_cases h0 : f = 0
  · have : dt * x ≤ 0 := mul_nonpos_of_nonneg_of_nonpos hdt (h0 ▸ hx)
    nlinarith
  · have h1 := h (c / f) (by simp [quot, h0])
    have hfp : 0 < f := lt_of_le_of_ne hf (Ne.symm h0)
    calc dt * x ≤ dt * f := by gcongr
      _ ≤ 102 / 100 * (c / f) * f := by gcongr
      _ = 102 / 100 * c := by field_simp

/-! ### The theorems -/

/-- **C03** (waves of ns2d.strat) For every decomposition of the modes between the processes, all
the time increments are smaller (up to the 2% tolerance) than the periods of all the waves
supported by the grid, and if `cfl_coef_group` is given no wave packet crosses more than this
number of cells in one time step.  The group velocity is the gradient of the frequency.  The
hypothesis on the mirror mode holds for all the modes except the ones at the highest wavenumber in
`z` of an even grid, which have no mirror: the maximum of the vertical component in the code
is the maximum of a signed number. -/
theorem C03_strat_waves (CFL dtMax dx dy dtOld dt N : ℝ) (coefGroup rate : Option ℝ)
    (modes : List (List (ℝ × ℝ))) (ranks : List (Rank ℝ)) (L : Limits)
    (hC : 0 < CFL) (hM : 0 < dtMax) (hdx : 0 < dx) (hdy : 0 < dy) (hN : 0 ≤ N)
    (hg : ∀ g ∈ coefGroup, 0 < g) (hr : ∀ r ∈ rate, 0 ≤ r)
    (hx : ∀ l ∈ modes, ∀ k ∈ l, 0 ≤ k.1) (h00 : ∃ l ∈ modes, ((0, 0) : ℝ × ℝ) ∈ l)
    (hL : initLimits N dx dy coefGroup rate modes = .ok L)
    (h : clfStrat CFL dtMax dx dy dtOld L ranks = .ok dt) :
    0 < dt ∧ dt ≤ 102 / 100 * dtMax ∧
    (∀ l ∈ modes, ∀ k ∈ l, ¬(k.1 = 0 ∧ k.2 = 0) →
      dt * omega N k.1 k.2 ≤ 102 / 100 * (2 * Real.pi)) ∧
    (∀ g ∈ coefGroup, ∀ l ∈ modes, ∀ k ∈ l, ¬(k.1 = 0 ∧ k.2 = 0) → (k.1, -k.2) ∈ l →
      dt * (|groupX N k.1 k.2| / dx + |groupZ N k.1 k.2| / dy) ≤ 102 / 100 * g) ∧
    (∀ r ∈ rate, dt ^ 3 * r ≤ (102 / 100) ^ 3) ∧
    (∀ x, freq2 dx dy ranks x → dt * x ≤ 102 / 100 * CFL) := by
  have hk : ∀ k : ℝ × ℝ, 0 < kNot0 k := by
    intro k
    unfold kNot0
    split
    · norm_num
    · rename_i hne
      exact Real.sqrt_pos.2 (sq_pos_of_ne hne)
  unfold initLimits at hL
  split at hL
  · cases hL
  · rename_i fDisp hD
    obtain ⟨d1, d2⟩ := allreduceMax_spec hD
    have hdisp : ∀ l ∈ modes, ∀ k ∈ l, dispersion N k ≤ fDisp := by
      intro l hl k hkl
      obtain ⟨a, ha, haf⟩ := d1 _ (List.mem_map_of_mem (f := fun l => arrMax (l.map (dispersion N))) hl)
      exact (arrMax_ge ha _ (List.mem_map_of_mem hkl)).trans haf
    have hdisp0 : 0 ≤ fDisp := by
      obtain ⟨l, hl, hl'⟩ := List.mem_map.1 d2
      cases l with
      | nil => simp [arrMax] at hl'
      | cons k l =>
        refine le_trans ?_ (hdisp _ hl k (by simp))
        unfold dispersion
        have := hx _ hl k (by simp)
        have := hk k
        positivity
    have hpi := Real.pi_pos
    -- the limit of the group velocity
    have key : ∀ group : Option ℝ, ∀ forcing : Option ℝ,
        (∀ g ∈ group, 0 < g) → (∀ f ∈ forcing, 0 < f) →
        (∀ g ∈ coefGroup, ∀ l ∈ modes, ∀ k ∈ l, ¬(k.1 = 0 ∧ k.2 = 0) → (k.1, -k.2) ∈ l →
          ∀ d : ℝ, 0 < d → (∀ g ∈ group, d ≤ 102 / 100 * g) →
          d * (|groupX N k.1 k.2| / dx + |groupZ N k.1 k.2| / dy) ≤ 102 / 100 * g) →
        (∀ r ∈ rate, ∀ d : ℝ, 0 < d → (∀ g ∈ forcing, d ≤ 102 / 100 * g) →
          d ^ 3 * r ≤ (102 / 100) ^ 3) →
        (⟨quot (1 * (2 * Real.pi)) fDisp, group, forcing⟩ : Limits) = L →
        0 < dt ∧ dt ≤ 102 / 100 * dtMax ∧
        (∀ l ∈ modes, ∀ k ∈ l, ¬(k.1 = 0 ∧ k.2 = 0) →
          dt * omega N k.1 k.2 ≤ 102 / 100 * (2 * Real.pi)) ∧
        (∀ g ∈ coefGroup, ∀ l ∈ modes, ∀ k ∈ l, ¬(k.1 = 0 ∧ k.2 = 0) → (k.1, -k.2) ∈ l →
          dt * (|groupX N k.1 k.2| / dx + |groupZ N k.1 k.2| / dy) ≤ 102 / 100 * g) ∧
        (∀ r ∈ rate, dt ^ 3 * r ≤ (102 / 100) ^ 3) ∧
        (∀ x, freq2 dx dy ranks x → dt * x ≤ 102 / 100 * CFL) := by
      intro group forcing hgp hfp hgr hfr hLe
      subst hLe
      have hq := quot_pos (c := 1 * (2 * Real.pi)) (by positivity) hdisp0
      have hdp : 0 < (quot (1 * (2 * Real.pi)) fDisp).getD dtMax := by
        cases hc : quot (1 * (2 * Real.pi)) fDisp with
        | none => simpa using hM
        | some g => exact hq g (by rw [hc]; rfl)
      obtain ⟨a1, a2, a3, a4, a5, a6⟩ := C03_cfl_uxuyb CFL dtMax dx dy _ dtOld dt group forcing
        ranks hC hM hdx hdy hdp hgp hfp h
      refine ⟨a1, a2, ?_, fun g hg l hl k hkl hne hmir => hgr g hg l hl k hkl hne hmir dt a1 a4,
        fun r hr => hfr r hr dt a1 a5, a6⟩
      intro l hl k hkl hne
      have hb := quot_bound (c := 1 * (2 * Real.pi)) (f := fDisp) (dt := dt) (by positivity)
        hdisp0 a1.le (hdisp l hl k hkl) (by
          intro g hg
          rw [Option.mem_def.1 hg] at a3
          simpa using a3)
      have e : dispersion N k = omega N k.1 k.2 := by
        simp only [dispersion, omega, kNot0, if_neg hne]
        ring
      rw [e, one_mul] at hb
      exact hb
    have hforce : ∀ group, (∀ g ∈ group, 0 < g) →
        (∀ g ∈ coefGroup, ∀ l ∈ modes, ∀ k ∈ l, ¬(k.1 = 0 ∧ k.2 = 0) → (k.1, -k.2) ∈ l →
          ∀ d : ℝ, 0 < d → (∀ g ∈ group, d ≤ 102 / 100 * g) →
          d * (|groupX N k.1 k.2| / dx + |groupZ N k.1 k.2| / dy) ≤ 102 / 100 * g) →
        (match rate with
          | none => .ok ⟨quot (1 * (2 * Real.pi)) fDisp, group, none⟩
          | some r =>
            match forcingLimit r with
            | .error e => .error e
            | .ok f => .ok ⟨quot (1 * (2 * Real.pi)) fDisp, group, some f⟩ :
          Except String Limits) = .ok L →
        0 < dt ∧ dt ≤ 102 / 100 * dtMax ∧
        (∀ l ∈ modes, ∀ k ∈ l, ¬(k.1 = 0 ∧ k.2 = 0) →
          dt * omega N k.1 k.2 ≤ 102 / 100 * (2 * Real.pi)) ∧
        (∀ g ∈ coefGroup, ∀ l ∈ modes, ∀ k ∈ l, ¬(k.1 = 0 ∧ k.2 = 0) → (k.1, -k.2) ∈ l →
          dt * (|groupX N k.1 k.2| / dx + |groupZ N k.1 k.2| / dy) ≤ 102 / 100 * g) ∧
        (∀ r ∈ rate, dt ^ 3 * r ≤ (102 / 100) ^ 3) ∧
        (∀ x, freq2 dx dy ranks x → dt * x ≤ 102 / 100 * CFL) := by
      intro group hgp hgr hm
      cases hrate : rate with
      | none =>
        rw [hrate] at hm
        simp only [Except.ok.injEq] at hm
        have := key group none hgp (by simp) hgr (by simp [hrate]) hm
        rw [hrate] at this
        exact this
      | some r =>
        rw [hrate] at hm
        simp only at hm
        have hr0 : 0 ≤ r := hr r (by simp [hrate])
        unfold forcingLimit at hm
        split at hm
        · cases hm
        · rename_i f hf
          split at hf
          · cases hf
          · rename_i hne
            simp only [Except.ok.injEq] at hf hm
            have hp : 0 < r ^ (1 / 3 : ℝ) :=
              lt_of_le_of_ne (Real.rpow_nonneg hr0 _) (Ne.symm hne)
            have := key group (some f) hgp (by
              intro f' hf'
              simp only [Option.mem_some_iff] at hf'
              rw [← hf', ← hf]
              positivity) hgr (by
              intro r' hr' d hd hdf
              rw [hrate] at hr'
              simp only [Option.mem_some_iff] at hr'
              subst hr'
              have h1 := hdf f (by simp)
              rw [← hf] at h1
              have h2 : (r ^ (1 / 3 : ℝ)) ^ 3 = r := by
                rw [← Real.rpow_natCast, ← Real.rpow_mul hr0]
                norm_num
              have h3 : d * r ^ (1 / 3 : ℝ) ≤ 102 / 100 := by
                calc d * r ^ (1 / 3 : ℝ) ≤ 102 / 100 * (1 / r ^ (1 / 3 : ℝ)) * r ^ (1 / 3 : ℝ) := by
                      gcongr
                  _ = 102 / 100 := by field_simp
              calc d ^ 3 * r = (d * r ^ (1 / 3 : ℝ)) ^ 3 := by rw [mul_pow, h2]
                _ ≤ (102 / 100) ^ 3 := by gcongr) hm
            rw [hrate] at this
            exact this
    simp only at hL
    cases hcg : coefGroup with
    | none =>
      rw [hcg] at hL
      simp only at hL
      have := hforce none (by simp) (by simp [hcg]) hL
      rw [hcg] at this
      exact this
    | some g =>
      have hg0 : 0 < g := hg g (by simp [hcg])
      rw [hcg] at hL
      simp only [if_neg hg0.ne'] at hL
      split at hL
      · cases hL
      · rename_i group hgroup
        split at hgroup
        · cases hgroup
        · rename_i f hf
          simp only [Except.ok.injEq] at hgroup
          obtain ⟨f1, f2⟩ := allreduceMax_spec hf
          have hgv : ∀ l a, freqGroup N dx dy l = .ok a →
              (∀ k ∈ l, ∀ k' ∈ l, cgKx N k / dx + cgKz N k' / dy ≤ a) := by
            intro l a ha k hkl k' hkl'
            unfold freqGroup at ha
            split at ha
            · rename_i mx mz hmx hmz
              cases ha
              have := arrMax_ge hmx _ (List.mem_map_of_mem hkl)
              have := arrMax_ge hmz _ (List.mem_map_of_mem hkl')
              gcongr
            · cases ha
            · cases ha
          have hcx : ∀ k, 0 ≤ cgKx N k := by
            intro k
            unfold cgKx
            have := hk k
            positivity
          have hf0 : 0 ≤ f := by
            obtain ⟨l, hl, h0l⟩ := h00
            obtain ⟨a, ha, haf⟩ := f1 _ (List.mem_map_of_mem (f := freqGroup N dx dy) hl)
            have h1 := hgv l a ha _ h0l _ h0l
            simp only [cgKx, cgKz, ne_eq, OfNat.ofNat_ne_zero, not_false_eq_true, zero_pow,
              zero_div, mul_zero, add_zero] at h1
            exact h1.trans haf
          have := hforce group (by rw [← hgroup]; exact quot_pos hg0 hf0) (by
            intro g' hg' l hl k hkl hne hmir d hd hdg
            rw [hcg] at hg'
            simp only [Option.mem_some_iff] at hg'
            subst hg'
            obtain ⟨a, ha, haf⟩ := f1 _ (List.mem_map_of_mem (f := freqGroup N dx dy) hl)
            rw [groupX_eq N k.1 k.2 hne, groupZ_eq N k.1 k.2 hne, abs_of_nonneg (hcx _)]
            refine quot_bound hg0 hf0 hd.le ?_ (by rw [hgroup]; exact hdg)
            refine le_trans ?_ haf
            rcases abs_choice (cgKz N (k.1, k.2)) with hab | hab
            · rw [hab]
              exact hgv l a ha k hkl k hkl
            · rw [hab]
              have e : cgKz N (k.1, -k.2) = -cgKz N (k.1, k.2) := by
                simp only [cgKz, kNot0, neg_eq_zero, neg_sq]
                split <;> ring
              rw [← e]
              exact hgv l a ha k hkl _ hmir) hL
          rw [hcg] at this
          exact this

/-- The reduction does not raise if no process raises. -/
theorem allreduceMax_ok {K : Type*} [Field K] [LinearOrder K] :
    ∀ l : List (Except String K), l ≠ [] → (∀ x ∈ l, ∃ a, x = .ok a) → ∃ T, allreduceMax l = .ok T
  | [], h, _ => (h rfl).elim
  | [x], _, h => h x (by simp)
  | x :: y :: l, _, h => by
    obtain ⟨a, ha⟩ := h x (by simp)
    obtain ⟨b, hb⟩ := allreduceMax_ok (y :: l) (by simp) fun z hz => h z (by simp [hz])
    exact ⟨max a b, by subst ha; unfold allreduceMax; rw [hb]⟩

/-- **C03** (ns2d.strat) The initialisation of the limits does not fail if all the processes have
modes and the forcing rate is positive. -/
theorem C03_strat_init (N dx dy : ℝ) (coefGroup rate : Option ℝ) (modes : List (List (ℝ × ℝ)))
    (hm : modes ≠ []) (hl : ∀ l ∈ modes, l ≠ []) (hr : ∀ r ∈ rate, 0 < r) :
    ∃ L, initLimits N dx dy coefGroup rate modes = .ok L := by
  have hmax : ∀ (f : ℝ × ℝ → ℝ), ∀ l ∈ modes, ∃ a, arrMax (l.map f) = .ok a := by
    intro f l h
    have := hl l h
    cases l with
    | nil => simp at this
    | cons k l => exact ⟨_, rfl⟩
  obtain ⟨fD, hD⟩ := allreduceMax_ok (modes.map fun l => arrMax (l.map (dispersion N)))
    (by simpa using hm) (by simpa using hmax (dispersion N))
  obtain ⟨fG, hG⟩ := allreduceMax_ok (modes.map (freqGroup N dx dy)) (by simpa using hm) (by
    intro x hx
    obtain ⟨l, h, rfl⟩ := List.mem_map.1 hx
    obtain ⟨a, ha⟩ := hmax (cgKx N) l h
    obtain ⟨b, hb⟩ := hmax (cgKz N) l h
    exact ⟨a / dx + b / dy, by rw [freqGroup, ha, hb]⟩)
  have hlast : ∀ d g : Option ℝ, ∃ L, (match rate with
      | none => .ok ⟨d, g, none⟩
      | some r =>
        match forcingLimit r with
        | .error e => .error e
        | .ok f => .ok ⟨d, g, some f⟩ : Except String Limits) = .ok L := by
    intro d g
    cases rate with
    | none => exact ⟨_, rfl⟩
    | some r =>
      have hp : r ^ (1 / 3 : ℝ) ≠ 0 := (Real.rpow_pos_of_pos (hr r rfl) _).ne'
      simp only [forcingLimit, if_neg hp]
      exact ⟨_, rfl⟩
  unfold initLimits
  rw [hD]
  cases coefGroup with
  | none => exact hlast _ _
  | some g =>
    by_cases h0 : g = 0
    · simp only [if_pos h0]
      exact hlast _ _
    · simp only [if_neg h0, hG]
      exact hlast _ _

/-- **C03** non-vacuity of `C03_strat_waves`: a grid with the modes `(0, 0)`, `(1, 1)` and
`(1, -1)`, with a forcing and a condition on the group velocity. -/
example : ∃ L dt, initLimits 1 1 1 (some 1) (some 1) [[(0, 0), (1, 1), (1, -1)]] = .ok L ∧
    clfStrat 1 (1 / 10) 1 1 (1 / 10) L [⟨[1], [2], []⟩] = .ok dt := by
  obtain ⟨L, hL⟩ := C03_strat_init 1 1 1 (some 1) (some 1) [[(0, 0), (1, 1), (1, -1)]]
    (by simp) (by simp) (by simp)
  exact ⟨L, _, hL, rfl⟩

/-- **C03** (finding) `ns2d.strat` with the forcing enabled and `forcing_rate = 0` cannot be
initialised, even with `USE_CFL = False`: the limit related to the forcing is a division by 0. -/
theorem C03_strat_rate_zero_violated (N dx dy : ℝ) (coefGroup : Option ℝ)
    (modes : List (List (ℝ × ℝ))) :
    ∃ e, initLimits N dx dy coefGroup (some 0) modes = .error e := by
  have hz : forcingLimit 0 = .error "ZeroDivisionError: float division by zero" := by
    simp only [forcingLimit, Real.zero_rpow (by norm_num : (1 / 3 : ℝ) ≠ 0), if_true]
  unfold initLimits
  cases allreduceMax (modes.map fun l => arrMax (l.map (dispersion N))) with
  | error e => exact ⟨e, rfl⟩
  | ok fD =>
    cases coefGroup with
    | none => exact ⟨_, by simp only [hz]; rfl⟩
    | some g =>
      by_cases h0 : g = 0
      · exact ⟨_, by simp only [if_pos h0, hz]; rfl⟩
      · simp only [if_neg h0]
        cases allreduceMax (modes.map (freqGroup N dx dy)) with
        | error e => exact ⟨e, rfl⟩
        | ok f => exact ⟨_, by simp only [hz]; rfl⟩

/-- **C03** (finding) The time increment depends on the number of processes for the same fields,
because each process adds its own maxima before the reduction: with `ux` large at one
point and `uy` large at another one, the increment with two processes is twice the one
with one process, so that the two simulations do not take the same time steps. -/
theorem C03_nb_procs_violated :
    ∃ ux1 uy1 ux2 uy2 : List ℚ,
      clfUxUy 1 10 1 1 10 [⟨ux1 ++ ux2, uy1 ++ uy2, []⟩] ≠
        clfUxUy (1 : ℚ) 10 1 1 10 [⟨ux1, uy1, []⟩, ⟨ux2, uy2, []⟩] := by
  refine ⟨[1], [0], [0], [1], ?_⟩
  decide +kernel

section
variable {K : Type*} [Field K] [LinearOrder K] [IsStrictOrderedRing K]

/-- The arrays of all the processes on one process. -/
def gathered (ranks : List (Rank K)) : Rank K :=
  ⟨ranks.flatMap Rank.ux, ranks.flatMap Rank.uy, ranks.flatMap Rank.uz⟩

/-- **C03** (number of processes) With one velocity component the time increment is the same for
all the decompositions of the fields between the processes. -/
theorem C03_nb_procs_ux (CFL dtMax dx dtOld dt dt' : K) (ranks : List (Rank K)) (hdx : 0 < dx)
    (h : clfUx CFL dtMax dx dtOld ranks = .ok dt)
    (h' : clfUx CFL dtMax dx dtOld [gathered ranks] = .ok dt') : dt = dt' := by
  unfold clfUx at h h'
  split at h
  · rename_i T hT
    split at h'
    · rename_i T' hT'
      obtain ⟨a1, a2⟩ := tmpUx_spec hdx hT
      obtain ⟨b1, b2⟩ := tmpUx_spec hdx hT'
      have e : ∀ x, freq1 dx ranks x ↔ freq1 dx [gathered ranks] x := by
        intro x
        simp only [freq1, gathered, List.mem_singleton, exists_eq_left, List.mem_flatMap]
        constructor
        · rintro ⟨r, hr, u, hu, rfl⟩
          exact ⟨u, ⟨r, hr, hu⟩, rfl⟩
        · rintro ⟨u, ⟨r, hr, hu⟩, rfl⟩
          exact ⟨r, hr, u, hu, rfl⟩
      have : T = T' := le_antisymm (b1 T ((e T).1 a2)) (a1 T' ((e T').2 b2))
      subst this
      simp only [Except.ok.injEq] at h h'
      rw [← h, ← h']
    · cases h'
  · cases h

/-- **C03** (number of processes) With two velocity components the limit of the CFL condition with
several processes is not smaller than the one with one process; see `C03_nb_procs_violated`. -/
theorem C03_nb_procs_uxuy_partial (dx dy T T' : K) (ranks : List (Rank K)) (hdx : 0 < dx)
    (hdy : 0 < dy) (h : allreduceMax (ranks.map (tmpUxUy dx dy)) = .ok T)
    (h' : allreduceMax ([gathered ranks].map (tmpUxUy dx dy)) = .ok T') : T ≤ T' := by
  obtain ⟨-, r, hr, u, hu, v, hv, rfl⟩ := tmpUxUy_spec hdx hdy h
  refine (tmpUxUy_spec hdx hdy h').1 _ ⟨_, List.mem_singleton.2 rfl, u, ?_, v, ?_, rfl⟩
  · exact List.mem_flatMap.2 ⟨r, hr, hu⟩
  · exact List.mem_flatMap.2 ⟨r, hr, hv⟩

/-- **C03** non-vacuity of `C03_nb_procs_ux`. -/
example : ∃ dt, clfUx (1 : ℚ) 10 1 10 [⟨[1], [], []⟩, ⟨[-2, 0], [], []⟩] = .ok dt ∧
    clfUx (1 : ℚ) 10 1 10 [gathered [⟨[1], [], []⟩, ⟨[-2, 0], [], []⟩]] = .ok dt ∧ dt ≠ 10 := by
  refine ⟨1 / 2, by decide +kernel, by decide +kernel, by norm_num⟩

end

end Verif.Cfl
