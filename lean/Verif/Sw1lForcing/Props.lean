import Verif.Sw1lForcing.Lemmas

/-! # Properties of the forcings of sw1l and plate2d (C73) -/

set_option linter.unusedSectionVars false

namespace Verif.Sw1lForcing

open Verif.Sw1l Verif.Forcing Verif.Energy Verif.Fourier Finset

noncomputable section

variable {p : Par} {M S : Finset Mode} {w : Mode → ℝ}

/-- C73: with the forcing "waves", the mean input of quadratic energy (kinetic and potential) during one
step is the requested rate, for every state of the flow (with geostrophic, ageostrophic and divergent
parts), every raw forcing and every accepted root, although the coefficients are computed with the
ageostrophic part of the state only. -/
theorem C73_waves (h : p.Ok) {dt rate : ℝ} (hdt : dt ≠ 0) {Fa : Fld (Fin 2)} (hF : Region M S Fa)
    (s : Mode → UEta) {r : ℝ × ℝ}
    (hr : NpRoots (abWaves p M w dt Fa (fun k => aOf p k (s k))).1
      (abWaves p M w dt Fa (fun k => aOf p k (s k))).2 (-rate) (some r)) {which : String}
    {F : Mode → UEta} (hw : waves p S which (some r) Fa = .ok F) :
    input M w p.c2 dt s F = rate := by
  unfold waves at hw
  cases hn : normalize2nd which (some r) Fa with
  | error e => rw [hn] at hw; cases hw
  | ok G =>
    rw [hn] at hw
    cases hw
    obtain ⟨c, hc, rfl⟩ := norm_ok hn
    rw [input_congr (fun k hk => initA_region (region_scale hF c) hk)]
    have h1 : ∀ k ∈ M, fromA p k (scale c Fa k) = smul c (fromA p k (Fa k)) := fun k _ => fromA_smul k c _
    rw [input_congr h1, input_smul M w p hdt c, ← abWaves_eq h dt hF]
    have h2 := (roots_eq hr c).2 (coef_is_root hc)
    linarith

/-- C73: the forcing "waves" acts on the ageostrophic variable only: it has no potential vorticity and no
divergence, and its ageostrophic variable is the raw forcing times one real coefficient. -/
theorem C73_waves_ageostrophic (h : p.Ok) {Fa : Fld (Fin 2)} {which : String} {roots : Option (ℝ × ℝ)}
    {F : Mode → UEta} (hw : waves p S which roots Fa = .ok F) :
    ∃ c : ℝ, ∀ k ∈ S, k ≠ 0 → aOf p k (F k) = Fa k * c ∧ qOf p k (F k) = 0 ∧
      divOf p k (F k).ux (F k).uy = 0 := by
  unfold waves at hw
  cases hn : normalize2nd which roots Fa with
  | error e => rw [hn] at hw; cases hw
  | ok G =>
    rw [hn] at hw
    cases hw
    obtain ⟨c, hc, rfl⟩ := norm_ok hn
    refine ⟨c, fun k hS hk => ?_⟩
    have := (C39_init_q_a h S (scale c Fa) (scale c Fa) hS hk).2
    exact ⟨this.2.1, this.1, this.2.2⟩

/-- C73: when the raw forcing has no energy, `np.roots` does not give two roots and the forcing is zero
(no exception). -/
theorem C73_waves_none (S : Finset Mode) (which : String) (Fa : Fld (Fin 2)) :
    waves p S which none Fa = .ok fun _ => ⟨0, 0, 0⟩ := by
  have h0 : initA p S (scale 0 Fa) = fun _ => ⟨0, 0, 0⟩ := by
    funext k
    simp only [initA, trunc, scale]
    split
    · simp [fromA_zero]
    · rfl
  show Except.ok (initA p S (scale 0 Fa)) = _
  rw [h0]

/-- C73: with the forcing "potential", only the displacement is forced and the mean input of quadratic
energy during one step is the requested rate, for every state and every raw forcing. -/
theorem C73_potential {dt rate : ℝ} (hdt : dt ≠ 0) {Fe : Fld (Fin 2)} (hF : ∀ k ∈ M, Fe k ≠ 0 → k ∈ S)
    (s : Mode → UEta) {r : ℝ × ℝ}
    (hr : NpRoots (abPotential p M w dt Fe (fun k => (s k).eta)).1
      (abPotential p M w dt Fe (fun k => (s k).eta)).2 (-rate) (some r)) {which : String} {key : Key}
    {F : Mode → UEta} (hw : potential S key which (some r) Fe = .ok F) :
    input M w p.c2 dt s F = rate ∧ ∀ k, (F k).ux = 0 ∧ (F k).uy = 0 := by
  unfold potential at hw
  split at hw
  swap
  · cases hw
  cases hn : normalize2nd which (some r) Fe with
  | error e => rw [hn] at hw; cases hw
  | ok G =>
    rw [hn] at hw
    cases hw
    obtain ⟨c, hc, rfl⟩ := norm_ok hn
    have h2 := (roots_eq hr c).2 (coef_is_root hc)
    refine ⟨?_, fun k => ?_⟩
    · have h1 : ∀ k ∈ M, initEta S (scale c Fe) k = smul c ⟨0, 0, Fe k⟩ := by
        intro k hk
        simp only [initEta, trunc, scale, smul]
        split
        · simp
        · rename_i hS
          have : Fe k = 0 := by by_contra h0; exact hS (hF k hk h0)
          simp [this]
      rw [input_congr h1, input_smul M w p hdt c]
      have ha : (abUEta p M w dt (fun k => ⟨0, 0, Fe k⟩) s) =
          abPotential p M w dt Fe (fun k => (s k).eta) := by
        simp [abUEta, abPotential, sumM]
      rw [ha]
      linarith
    · simp only [initEta, trunc]
      split <;> simp

/-- C73: a key without "eta_fft" is refused by the forcing "potential"; the default key is accepted. -/
theorem C73_potential_key (S : Finset Mode) (which : String) (roots : Option (ℝ × ℝ)) (Fe : Fld (Fin 2)) :
    (∀ l : List String, "eta_fft" ∉ l → potential S (.many l) which roots Fe = .error "ValueError") ∧
    (∀ key : String, ¬ "eta_fft".toList <:+: key.toList →
      potential S (.one key) which roots Fe = .error "ValueError") ∧
    potentialCls.key.hasEta = true := by
  refine ⟨fun l hl => ?_, fun key hk => ?_, by decide +kernel⟩
  · have : Key.hasEta (.many l) = false := by
      rw [Bool.eq_false_iff]
      intro h
      exact hl (List.contains_iff_mem.1 h)
    unfold potential
    rw [this]
    rfl
  · have : Key.hasEta (.one key) = false := decide_eq_false hk
    unfold potential
    rw [this]
    rfl

/-- C73: what the forcing "waves_vortices" gives: the state made by `init_from_qafft` from the two
normalised parts. -/
theorem wavesVortices_ok {l : List String} {which : String} {rA rQ : Option (ℝ × ℝ)} {Fq Fa : Fld (Fin 2)}
    {F : Mode → UEta} (hw : wavesVortices p S (.many l) which rA rQ Fq Fa = .ok F) :
    ∃ cA cQ, coefNormalization which rA = .ok cA ∧ coefNormalization which rQ = .ok cQ ∧
      F = initQA p S (scale cQ Fq) (scale cA Fa) := by
  unfold wavesVortices at hw
  dsimp only at hw
  split at hw
  swap
  · cases hw
  cases hA : normalize2nd which rA Fa with
  | error e => rw [hA] at hw; cases hw
  | ok G =>
    cases hQ : normalize2nd which rQ Fq with
    | error e => rw [hA, hQ] at hw; cases hw
    | ok H =>
      rw [hA, hQ] at hw
      cases hw
      obtain ⟨cA, hcA, rfl⟩ := norm_ok hA
      obtain ⟨cQ, hcQ, rfl⟩ := norm_ok hQ
      exact ⟨cA, cQ, hcA, hcQ, rfl⟩

/-- C73, partial: without rotation, or more generally when the two components of the ageostrophic velocity
of the forcing are equal at each forced mode, the forcing "waves_vortices" injects the requested rate of
quadratic energy, half by each part, for every state and every raw forcing. Missing: the other cases, see
`C73_waves_vortices_violated`. -/
theorem C73_waves_vortices_partial (h : p.Ok) {dt rate : ℝ} (hdt : dt ≠ 0) {Fq Fa : Fld (Fin 2)}
    (hq : Region M S Fq) (ha : Region M S Fa)
    (hxy : p.f = 0 ∨ ∀ k ∈ M, Fa k ≠ 0 → p.ky k = -p.kx k)
    (s : Mode → UEta) {rA rQ : ℝ × ℝ}
    (hA : NpRoots (abWaves p M w dt Fa (fun k => aOf p k (s k))).1
      (abWaves p M w dt Fa (fun k => aOf p k (s k))).2 (-halfRate rate) (some rA))
    (hQ : NpRoots (abVortices p M w dt Fq (fun k => qOf p k (s k))).1
      (abVortices p M w dt Fq (fun k => qOf p k (s k))).2 (-halfRate rate) (some rQ))
    {which : String} {l : List String} {F : Mode → UEta}
    (hw : wavesVortices p S (.many l) which (some rA) (some rQ) Fq Fa = .ok F) :
    input M w p.c2 dt s F = rate := by
  obtain ⟨cA, cQ, hcA, hcQ, rfl⟩ := wavesVortices_ok hw
  have hxa : ∀ k ∈ M, (fromA p k (scale cA Fa k)).ux = (fromA p k (scale cA Fa k)).uy := by
    intro k hk
    rcases hxy with hf | hxy
    · simp [fromA, hf, vecFromRot]
    · by_cases h0 : Fa k = 0
      · simp [scale, h0, fromA_zero]
      · simp only [fromA, vecFromRot, hxy k hk h0]
        push_cast
        ring
  have h1 : ∀ k ∈ M, initQA p S (scale cQ Fq) (scale cA Fa) k
      = ⟨(fromQ p k (scale cQ Fq k)).ux + (fromA p k (scale cA Fa k)).ux,
        (fromQ p k (scale cQ Fq k)).uy + (fromA p k (scale cA Fa k)).uy,
        (fromQ p k (scale cQ Fq k)).eta + (fromA p k (scale cA Fa k)).eta⟩ := by
    intro k hk
    by_cases hS : k ∈ S
    · have e := initQ_eq (p := p) (S := S) (scale cQ Fq) k hS
      rw [← e, ← hxa k hk]
      simp only [initQA, initQ, trunc, if_pos hS]
    · have z1 : scale cQ Fq k = 0 := by
        by_contra h0
        exact hS (region_scale hq cQ k hk h0).1
      have z2 : scale cA Fa k = 0 := by
        by_contra h0
        exact hS (region_scale ha cA k hk h0).1
      rw [z1, z2]
      simp [initQA, trunc, hS, fromQ_zero, fromA_zero]
  rw [input_congr h1, input_add h hdt (region_scale ha cA) s]
  rw [input_congr (F := fun k => fromQ p k (scale cQ Fq k)) (fun k _ => fromQ_smul k cQ (Fq k)),
    input_congr (F := fun k => fromA p k (scale cA Fa k)) (fun k _ => fromA_smul k cA (Fa k)),
    input_smul M w p hdt, input_smul M w p hdt, ← abWaves_eq h dt ha, ← abVortices_eq h dt hq]
  have e1 := (roots_eq hA cA).2 (coef_is_root hcA)
  have e2 := (roots_eq hQ cQ).2 (coef_is_root hcQ)
  simp only [halfRate] at e1 e2
  linarith

/-- C73, finding: with rotation, the forcing "waves_vortices" does not inject the requested rate: the
state of the forcing is made by `init_from_qafft`, which takes the component x of the ageostrophic velocity
for its component y. For a fluid at rest and one forced wavenumber along y, the input of quadratic energy is
larger than the rate, whatever the raw forcing, the step, the parameters and the root. -/
theorem C73_waves_vortices_violated (h : p.Ok) (hf : p.f ≠ 0) {dt rate : ℝ} (hdt : 0 < dt) (hrate : 0 < rate)
    {k : Mode} (hk : k ≠ 0) (hx : p.kx k = 0) (hw0 : 0 < w k) (hS : k ∈ S) {Fq Fa : Fld (Fin 2)}
    {rA rQ : ℝ × ℝ}
    (hA : NpRoots (abWaves p {k} w dt Fa (fun k => aOf p k ⟨0, 0, 0⟩)).1
      (abWaves p {k} w dt Fa (fun k => aOf p k ⟨0, 0, 0⟩)).2 (-halfRate rate) (some rA))
    (hQ : NpRoots (abVortices p {k} w dt Fq (fun k => qOf p k ⟨0, 0, 0⟩)).1
      (abVortices p {k} w dt Fq (fun k => qOf p k ⟨0, 0, 0⟩)).2 (-halfRate rate) (some rQ))
    {which : String} {l : List String} {F : Mode → UEta}
    (hw : wavesVortices p S (.many l) which (some rA) (some rQ) Fq Fa = .ok F) :
    rate < input {k} w p.c2 dt (fun _ => ⟨0, 0, 0⟩) F := by
  obtain ⟨cA, cQ, hcA, hcQ, rfl⟩ := wavesVortices_ok hw
  have hq : Region {k} S Fq := fun j hj _ => by
    rw [mem_singleton] at hj; subst hj; exact ⟨hS, hk⟩
  have ha : Region {k} S Fa := fun j hj _ => by
    rw [mem_singleton] at hj; subst hj; exact ⟨hS, hk⟩
  have e1 := (roots_eq hA cA).2 (coef_is_root hcA)
  have e2 := (roots_eq hQ cQ).2 (coef_is_root hcQ)
  rw [abWaves_eq h dt ha (fun _ => ⟨0, 0, 0⟩), ← input_smul {k} w p hdt.ne'] at e1
  rw [abVortices_eq h dt hq (fun _ => ⟨0, 0, 0⟩), ← input_smul {k} w p hdt.ne'] at e2
  rw [← input_congr (F := fun k => fromA p k (scale cA Fa k)) (fun k _ => fromA_smul k cA (Fa k))] at e1
  rw [← input_congr (F := fun k => fromQ p k (scale cQ Fq k)) (fun k _ => fromQ_smul k cQ (Fq k))] at e2
  have e3 := input_add (w := w) h hdt.ne' (Fq := scale cQ Fq) (region_scale ha cA) (fun _ => ⟨0, 0, 0⟩)
  have ya : (fromA p k (scale cA Fa k)).uy = 0 := by simp [fromA, vecFromRot, hx]
  have yq : (fromQ p k (scale cQ Fq k)).uy = 0 := by simp [fromQ, vecFromRot, hx]
  have hFk : initQA p S (scale cQ Fq) (scale cA Fa) k
      = ⟨(fromQ p k (scale cQ Fq k)).ux + (fromA p k (scale cA Fa k)).ux,
        (fromA p k (scale cA Fa k)).ux,
        (fromQ p k (scale cQ Fq k)).eta + (fromA p k (scale cA Fa k)).eta⟩ := by
    have e := initQ_eq (p := p) (S := S) (scale cQ Fq) k hS
    rw [← e]
    have : (initQ p S (scale cQ Fq) k).uy = 0 := by rw [e, yq]
    ext
    · simp only [initQA, initQ, trunc, if_pos hS]
    · have h3 : (initQA p S (scale cQ Fq) (scale cA Fa) k).uy
          = (initQ p S (scale cQ Fq) k).uy + (fromA p k (scale cA Fa k)).ux := by
        simp only [initQA, initQ, trunc, if_pos hS]
      rw [h3, this, zero_add]
    · simp only [initQA, initQ, trunc, if_pos hS]
  -- the ageostrophic part of the force is not zero
  have hcA0 : scale cA Fa k ≠ 0 := by
    intro h0
    have : input {k} w p.c2 dt (fun _ => ⟨0, 0, 0⟩) (fun k => fromA p k (scale cA Fa k)) = 0 := by
      rw [input_eq _ _ _ hdt.ne']
      simp [h0, fromA_zero, inner]
    rw [this] at e1
    simp only [halfRate] at e1
    linarith
  have hux : (fromA p k (scale cA Fa k)).ux ≠ 0 := by
    have hy : (p.ky k : ℂ) ≠ 0 := by
      have := h.k2_pos hk
      simp only [Par.k2, hx] at this
      intro h0
      have h0' : p.ky k = 0 := by exact_mod_cast h0
      rw [h0'] at this
      norm_num at this
    have hK : (p.k2 k : ℂ) ≠ 0 := by exact_mod_cast (h.k2_pos hk).ne'
    have hf' : (p.f : ℂ) ≠ 0 := by exact_mod_cast hf
    have hκ : (p.kappa2not0 k : ℂ) ≠ 0 := by
      rw [h.kappa2not0 hk]
      have h1 := h.k2_pos hk
      have h2 := h.kd2_nonneg
      exact_mod_cast (by positivity : p.k2 k + p.kd2 ≠ 0)
    simp only [fromA, etaFromA, invLap, if_neg hk, if_neg hf, vecFromRot, h.k2not0 hk]
    simp [hy, hK, hf', hκ, hcA0]
  rw [input_eq _ _ _ hdt.ne'] at e3 ⊢
  rw [Finset.sum_singleton] at e3 ⊢
  rw [hFk]
  simp only [ya, yq] at e3
  simp only [inner, map_zero, zero_mul, Complex.zero_re, add_zero, norm_zero, mul_zero, zero_add, ne_eq,
    OfNat.ofNat_ne_zero, not_false_eq_true, zero_pow] at e3 ⊢
  have hpos : 0 < w k * (dt / 2 * ‖(fromA p k (scale cA Fa k)).ux‖ ^ 2) := by
    have : 0 < ‖(fromA p k (scale cA Fa k)).ux‖ := norm_pos_iff.2 hux
    positivity
  simp only [halfRate] at e1 e2
  nlinarith [e1, e2, e3, hpos]

/-- C73: the forcing "waves_vortices" refuses a single key and wrong keys; it accepts its default keys. -/
theorem C73_waves_vortices_keys (S : Finset Mode) (which : String) (rA rQ : Option (ℝ × ℝ))
    (Fq Fa : Fld (Fin 2)) :
    (∀ key, wavesVortices p S (.one key) which rA rQ Fq Fa = .error "ValueError") ∧
    (∀ l : List String, (∃ s ∈ l, s ≠ "q_fft" ∧ s ≠ "a_fft") →
      wavesVortices p S (.many l) which rA rQ Fq Fa = .error "TypeError") ∧
    (∀ l : List String, "q_fft" ∉ l ∨ "a_fft" ∉ l →
      wavesVortices p S (.many l) which rA rQ Fq Fa = .error "TypeError") ∧
    (which = "minabs" →
      ∃ F, wavesVortices p S (keyForced wavesVorticesCls none) which rA rQ Fq Fa = .ok F) := by
  refine ⟨fun key => rfl, fun l hl => ?_, fun l hl => ?_, ?_⟩
  · obtain ⟨s, hs, h1, h2⟩ := hl
    have : ¬ ("q_fft" ∈ l ∧ "a_fft" ∈ l ∧ ∀ s ∈ l, s = "q_fft" ∨ s = "a_fft") := by
      rintro ⟨-, -, hall⟩
      rcases hall s hs with h | h
      · exact h1 h
      · exact h2 h
    simp only [wavesVortices, if_neg this]
  · have : ¬ ("q_fft" ∈ l ∧ "a_fft" ∈ l ∧ ∀ s ∈ l, s = "q_fft" ∨ s = "a_fft") := by
      rintro ⟨h1, h2, -⟩
      rcases hl with h | h
      · exact h h1
      · exact h h2
    simp only [wavesVortices, if_neg this]
  · rintro rfl
    have hc : ∀ r : Option (ℝ × ℝ), ∃ c, coefNormalization "minabs" r = .ok c := by
      intro r
      cases r with
      | none => exact ⟨0, rfl⟩
      | some r =>
        obtain ⟨a, b⟩ := r
        simp only [coefNormalization, if_true]
        split
        · exact ⟨_, rfl⟩
        · exact ⟨_, rfl⟩
    obtain ⟨cA, hA⟩ := hc rA
    obtain ⟨cQ, hQ⟩ := hc rQ
    refine ⟨initQA p S (scale cQ Fq) (scale cA Fa), ?_⟩
    simp [wavesVortices, keyForced, wavesVorticesCls, normalize2nd, hA, hQ, bind, Except.bind, pure,
      Except.pure]

/-- C73: the types of forcing of sw1l and plate2d: each tag is offered once, and the classes of the solver
come before the default ones. -/
theorem C73_types :
    sw1lClasses.map Cls.tag = ["tcrandom", "random", "waves", "waves_vortices", "potential", "in_script",
      "in_script_coarse", "proportional"] ∧
    plate2dClasses.map Cls.tag = ["proportional", "tcrandom", "in_script", "in_script_coarse"] := by
  decide +kernel

/-- C73: for every list of classes of a solver, the default classes are added without replacing the
classes of the solver, and every default type is available. -/
theorem C73_complete (classes : List Cls) :
    (∃ l, complete classes = classes ++ l ∧ ∀ c ∈ l, c ∈ [inScript, inScriptCoarse, proportional, tcrandom]) ∧
    ∀ tag ∈ ["in_script", "in_script_coarse", "proportional", "tcrandom"],
      ∃ c ∈ complete classes, c.tag = tag := by
  have key : ∀ (ds : List Cls) (l : List Cls),
      (∃ e, ds.foldl (fun l d => if l.any (fun c => d.tag == c.tag) then l else l ++ [d]) l = l ++ e ∧
        ∀ c ∈ e, c ∈ ds) ∧
      (∀ d ∈ ds, ∃ c ∈ ds.foldl (fun l d => if l.any (fun c => d.tag == c.tag) then l else l ++ [d]) l,
        c.tag = d.tag) := by
    intro ds
    induction ds with
    | nil => intro l; exact ⟨⟨[], by simp, by simp⟩, by simp⟩
    | cons d ds ih =>
      intro l
      rw [List.foldl_cons]
      by_cases hd : l.any (fun c => d.tag == c.tag) = true
      · rw [if_pos hd]
        obtain ⟨⟨e, he, hm⟩, hall⟩ := ih l
        refine ⟨⟨e, he, fun c hc => List.mem_cons_of_mem _ (hm c hc)⟩, fun d' hd' => ?_⟩
        rcases List.mem_cons.1 hd' with rfl | h'
        · obtain ⟨c, hc, ht⟩ := List.any_eq_true.1 hd
          refine ⟨c, ?_, by simpa using (beq_iff_eq.1 ht).symm⟩
          rw [he]
          exact List.mem_append_left _ hc
        · exact hall d' h'
      · rw [if_neg hd]
        obtain ⟨⟨e, he, hm⟩, hall⟩ := ih (l ++ [d])
        refine ⟨⟨[d] ++ e, by rw [he, List.append_assoc], fun c hc => ?_⟩, fun d' hd' => ?_⟩
        · rcases List.mem_append.1 hc with h' | h'
          · rw [List.mem_singleton] at h'
            subst h'
            exact List.mem_cons_self
          · exact List.mem_cons_of_mem _ (hm c h')
        · rcases List.mem_cons.1 hd' with rfl | h'
          · refine ⟨d', ?_, rfl⟩
            rw [he]
            simp
          · exact hall d' h'
  refine ⟨(key _ classes).1, fun tag ht => ?_⟩
  have h2 := (key [inScript, inScriptCoarse, proportional, tcrandom] classes).2
  simp only [List.mem_cons, List.not_mem_nil, or_false] at ht
  rcases ht with rfl | rfl | rfl | rfl
  · exact h2 inScript (by simp)
  · exact h2 inScriptCoarse (by simp)
  · exact h2 proportional (by simp)
  · exact h2 tcrandom (by simp)

/-- C73: the variables forced by default by the types of sw1l which are defined for this solver, and by
those of plate2d; a key given by the user is used instead of the default one. -/
theorem C73_default_keys :
    (classOf sw1lClasses "waves").map (keyForced · none) = some (.one "a_fft") ∧
    (classOf sw1lClasses "waves_vortices").map (keyForced · none) = some (.many ["q_fft", "a_fft"]) ∧
    (classOf sw1lClasses "potential").map (keyForced · none) = some (.one "eta_fft") ∧
    (classOf plate2dClasses "tcrandom").map (keyForced · none) = some (.one "w_fft") ∧
    (classOf plate2dClasses "proportional").map (keyForced · none) = some (.one "w_fft") ∧
    ∀ c key, keyForced c (some key) = key := by
  refine ⟨by decide +kernel, by decide +kernel, by decide +kernel, by decide +kernel, by decide +kernel,
    fun _ _ => rfl⟩

/-- C73, finding: the classes "tcrandom" and "proportional" written for sw1l (which force the geostrophic
variable `q_fft` by default) are not among the classes of the solver: the base classes are used, which
force the vorticity `rot_fft` by default. -/
theorem C73_geostrophic_default_violated :
    tcrandomSw1l ∉ sw1lClasses ∧ proportionalSw1l ∉ sw1lClasses ∧
    tcrandomSw1l.key = .one "q_fft" ∧ proportionalSw1l.key = .one "q_fft" ∧
    (classOf sw1lClasses "tcrandom").map (keyForced · none) = some (.one "rot_fft") ∧
    (classOf sw1lClasses "proportional").map (keyForced · none) = some (.one "rot_fft") := by
  decide +kernel

/-! ### The hypotheses are met -/

/-- Parameters, wavenumber, weight and raw forcing of the examples. -/
def pEx : Par := ⟨fun _ => 1, 1, 1⟩
def kEx : Mode := ![0, 1]
def fEx : Fld (Fin 2) := fun _ => 1

theorem ok_ex : pEx.Ok := ⟨fun _ => one_ne_zero, one_pos⟩

theorem kEx_ne : kEx ≠ 0 := fun h => by simpa [kEx] using congrFun h 1

theorem ab_ex : abWaves pEx {kEx} (fun _ => 4) 1 fEx (fun k => aOf pEx k ⟨0, 0, 0⟩) = (1, 0) ∧
    abVortices pEx {kEx} (fun _ => 4) 1 fEx (fun k => qOf pEx k ⟨0, 0, 0⟩) = (1, 0) := by
  have hk := kEx_ne
  have k0 : (kEx 0 : ℝ) = 0 := by simp [kEx]
  have k1 : (kEx 1 : ℝ) = 1 := by simp [kEx]
  have e0 : pEx.kx kEx = 0 := by simp [Par.kx, pEx, kEx]
  have e1 : pEx.ky kEx = 1 := by simp [Par.ky, pEx, kEx]
  have ek : pEx.kappa2not0 kEx = 2 := by
    rw [Par.kappa2not0, e0, e1]; norm_num [Par.kd2, pEx, k2not0]
  have e2 : pEx.k2 kEx = 1 := by rw [Par.k2, e0, e1]; norm_num
  have f1 : pEx.f = 1 := rfl
  have c1 : pEx.c2 = 1 := rfl
  constructor
  · simp [abWaves, abUEta, sumM, fromA, etaFromA, invLap, hk, e0, e1, ek, f1, c1, vecFromRot, k2not0, fEx,
      aOf, rotOf]
    norm_num
  · simp [abVortices, abUEta, sumM, fromQ, invLap, hk, e0, e1, e2, ek, f1, c1, vecFromRot, k2not0, fEx,
      qOf, rotOf]
    norm_num

theorem roots_ex : NpRoots 1 0 (-halfRate 2) (some (1, -1)) :=
  ⟨one_ne_zero, fun x => by norm_num [halfRate]; ring⟩

/-- The hypotheses of `C73_waves_vortices_violated`: one forced wavenumber along y, rate 2, step 1. -/
example : ∃ F, wavesVortices pEx {kEx} (.many ["q_fft", "a_fft"]) "minabs" (some (1, -1)) (some (1, -1))
      fEx fEx = .ok F ∧ 2 < input {kEx} (fun _ => 4) pEx.c2 1 (fun _ => ⟨0, 0, 0⟩) F := by
  obtain ⟨F, hF⟩ := (C73_waves_vortices_keys (p := pEx) {kEx} "minabs" (some (1, -1)) (some (1, -1))
    fEx fEx).2.2.2 rfl
  refine ⟨F, hF, ?_⟩
  refine C73_waves_vortices_violated ok_ex one_ne_zero one_pos two_pos kEx_ne ?_ (by norm_num)
    (mem_singleton_self _) ?_ ?_ hF
  · simp [Par.kx, pEx, kEx]
  · rw [ab_ex.1]; exact roots_ex
  · rw [ab_ex.2]; exact roots_ex

/-- The hypotheses of `C73_waves`: the same wavenumber, rate 1, for a fluid at rest. -/
example : ∃ F, waves pEx {kEx} "minabs" (some (1, -1)) fEx = .ok F ∧
    input {kEx} (fun _ => 4) pEx.c2 1 (fun _ => ⟨0, 0, 0⟩) F = 1 := by
  refine ⟨initA pEx {kEx} (scale 1 fEx), ?_, ?_⟩
  · simp [waves, normalize2nd, coefNormalization, bind, Except.bind, pure, Except.pure]
  · refine C73_waves (S := {kEx}) ok_ex one_ne_zero (Fa := fEx) (r := (1, -1)) (which := "minabs")
      (fun k hk _ => ⟨hk, ?_⟩) _ ?_ ?_
    · rw [mem_singleton] at hk; subst hk; exact kEx_ne
    · rw [ab_ex.1]; exact ⟨one_ne_zero, fun x => by norm_num; ring⟩
    · simp [waves, normalize2nd, coefNormalization, bind, Except.bind, pure, Except.pure]

/-- The hypotheses of `C73_potential`: every mode, step 1, rate 1/2, a fluid at rest. -/
example : NpRoots (abPotential pEx {kEx} (fun _ => 1) 1 fEx (fun _ => 0)).1
    (abPotential pEx {kEx} (fun _ => 1) 1 fEx (fun _ => 0)).2 (-(1 / 2)) (some (1, -1)) := by
  have : abPotential pEx {kEx} (fun _ => 1) 1 fEx (fun _ => 0) = (1 / 2, 0) := by
    simp [abPotential, sumM, fEx, pEx]
  rw [this]
  exact ⟨by norm_num, fun x => by norm_num; ring⟩

/-- The hypothesis of `C73_waves_vortices_partial` on the components: the wavenumber (1, -1) with
rotation. -/
example : pEx.ky ![1, -1] = -pEx.kx ![1, -1] := by simp [Par.kx, Par.ky, pEx]

end

end Verif.Sw1lForcing
